import Verif.Lemmas.SrcJemsRun
import Verif.Props.Jems
import Verif.Props.SrcQueue

/-! # C130: mu_jems.c, from its parsed source

Everything here is about the syntax trees of mu_jems.c (`Src.mu_jems_*`, made from the C text by tools/csrc.py) and an
arbitrary writer function. -/

namespace Mu.CS

open Mu.Jems (Jems Level Emit WF Item Call Pos)
open Mu.Jems.Spec

variable {A : Arch} {X : Ext} {E : Emitter} {h : Heap} {n n0 D L : Nat} {β : Place} {m : Mem} {out : List UInt8}

mutual
theorem writes_callOk {P : Plat} {m : Mem} {x : Mu.Jems.Spec.Doc} {cs : List Call} (w : Writes P m x cs) : ∀ c ∈ cs, CallOk P m c := by
  cases w with
  | null => intro c hc; simp at hc; subst hc; trivial
  | true => intro c hc; simp at hc; subst hc; trivial
  | false => intro c hc; simp at hc; subst hc; trivial
  | bool b => intro c hc; simp at hc; subst hc; trivial
  | int v h1 h2 => intro c hc; simp at hc; subst hc; exact ⟨h1, h2⟩
  | number hv =>
    intro c hc; simp at hc; subst hc
    have t := Mu.Jems.number_text (P := P) (m := m) hv
    generalize hx : render _ = y at t
    cases t with
    | number hi => exact ⟨_, hi⟩
  | string hs => intro c hc; simp at hc; subst hc; exact ⟨_, hs⟩
  | bytes hs => intro c hc; simp at hc; subst hc; exact ⟨_, hs⟩
  | literal hs => intro c hc; simp at hc; subst hc; exact ⟨_, hs⟩
  | arr w =>
    intro c hc
    simp only [List.mem_cons, List.mem_append, List.not_mem_nil, or_false] at hc
    rcases hc with rfl | hc | rfl
    · trivial
    · exact writesItems_callOk w c hc
    · trivial
  | obj w =>
    intro c hc
    simp only [List.mem_cons, List.mem_append, List.not_mem_nil, or_false] at hc
    rcases hc with rfl | hc | rfl
    · trivial
    · exact writesMembers_callOk w c hc
    · trivial

theorem writesItems_callOk {P : Plat} {m : Mem} {l : List Mu.Jems.Spec.Doc} {cs : List Call} (w : WritesItems P m l cs) :
    ∀ c ∈ cs, CallOk P m c := by
  cases w with
  | nil => intro c hc; simp at hc
  | cons w ws =>
    intro c hc
    rcases List.mem_append.mp hc with hc | hc
    · exact writes_callOk w c hc
    · exact writesItems_callOk ws c hc

theorem writesMembers_callOk {P : Plat} {m : Mem} {l : List (List UInt8 × Mu.Jems.Spec.Doc)} {cs : List Call}
    (w : WritesMembers P m l cs) : ∀ c ∈ cs, CallOk P m c := by
  cases w with
  | nil => intro c hc; simp at hc
  | split k w ws =>
    intro c hc
    rcases List.mem_append.mp hc with hc | hc
    · rcases List.mem_append.mp hc with hc | hc
      · exact writes_callOk k c hc
      · exact writes_callOk w c hc
    · exact writesMembers_callOk ws c hc
  | key k w ws =>
    have hw := writes_callOk w
    intro c hc
    rcases List.mem_cons.mp hc with rfl | hc
    · exact ⟨⟨_, k⟩, hw (.item _) (by simp)⟩
    · rcases List.mem_append.mp hc with hc | hc
      · exact hw c (by simp [hc])
      · exact writesMembers_callOk ws c hc
end

/-- `mu_jems_init`, and the model's. -/
theorem src_init (hw : E.Writes A X n0) (p : E.Placed A h) (h1 : 1 ≤ D) (h2 : D ≤ E.len) (hi : E.inv out h)
    (levels : List Level) (hlen : levels.length = E.len) :
    ∃ h' j', sem A X prog (n + 3) .mu_jems_init h [.ptr E.b E.o, .ptr E.lb E.lo, .int D, .fn E.w, E.arg] =
        .ok (.ptr E.b E.o, h') ∧
      Mu.Jems.init ⟨[], 0, 0, 0, 0, out.map (fun c => ⟨1, c, 0⟩)⟩ levels D 1 0 = .ok j' ∧ E.Rep A h' j' ∧
      Heap.Only E.Uses h h' := by
  have s0 : (h.at E.b E.o).isSome = true := by
    have := p.struct 0 (by omega)
    rwa [Int.natCast_zero, Int.add_zero] at this
  have s1 : (h.at E.b (E.o + 1)).isSome = true := p.struct 1 (by omega)
  have s3 : (h.at E.b (E.o + 3)).isSome = true := p.struct 3 (by omega)
  have s4 : (h.at E.b (E.o + 4)).isSome = true := p.struct 4 (by omega)
  have lt := p.wr
  have ow : ∀ i : Nat, i < 5 → E.Own E.b (E.o + i) := fun i hi => Or.inl ⟨rfl, by omega, by omega⟩
  generalize hh : (((h.upd E.b E.o (.ptr E.lb E.lo)).upd E.b (E.o + 1) (.int D)).upd E.b (E.o + 3) (.fn E.w)).upd E.b (E.o + 4)
    E.arg = h4
  have o4 : Heap.Only E.Own h h4 := by
    rw [← hh]
    refine Heap.Only.upd (Heap.Only.upd (Heap.Only.upd (Heap.Only.upd (Heap.Only.refl _ _) ?_) ?_) ?_) ?_
    · have := ow 0 (by omega)
      rwa [Int.natCast_zero, Int.add_zero] at this
    · exact ow 1 (by omega)
    · exact ow 3 (by omega)
    · exact ow 4 (by omega)
  have g0 : h4.at E.b E.o = some (.ptr E.lb E.lo) := by rw [← hh]; simp [csrc, lt, s0]
  have g1 : h4.at E.b (E.o + 1) = some (.int D) := by rw [← hh]; simp [csrc, lt, s1]
  have g3 : h4.at E.b (E.o + 3) = some (.fn E.w) := by rw [← hh]; simp [csrc, lt, s3]
  have g4 : h4.at E.b (E.o + 4) = some E.arg := by rw [← hh]; simp [csrc, lt, s4]
  have p4 := p.only (own_uses o4)
  have rs := src_reset_any (X := X) (n := n) p4 (by omega) g0
  have hD : D < A.szMod := Nat.lt_of_le_of_lt h2 p.len
  have wk := hw n0 (Nat.le_refl _)
  have io : out = (out.map (fun c => (⟨1, c, 0⟩ : Emit))).map Emit.ch := by simp [List.map_map, Function.comp_def]
  have rep := E.enter_rep (j := ⟨levels, D, 0, 1, 0, out.map (fun c => ⟨1, c, 0⟩)⟩) wk p4 (k := 0) false g0 g1 g3 g4
    ⟨Nat.one_ne_zero, by simp only; omega, by simp only; omega, hD⟩ hlen (fun i l hi _ => absurd hi (by omega))
    (by rw [← io]; exact wk.keep _ _ _ hi (fun b o hb => o4.cell _ _ (p.own b o hb)))
  refine ⟨_, _, ?_, ?_, rep, (own_uses o4).trans (own_uses (E.enter_only (by omega) false h4))⟩
  · rw [sem_succ (d := Src.mu_jems_init) rfl, FunDef.run_regs rfl rfl]
    generalize sem A X prog (n + 2) = S at *
    have ha := p.arg
    subst hh
    simp [csrc, Src.mu_jems_init, lt, s0, s1, s3, s4, ha, rs]
  · have hlt : 0 < levels.length := by omega
    unfold Mu.Jems.init Mu.Jems.reset Mu.Jems.level Mu.Jems.setLevel
    simp only [ldN_ok hlt, C.ok_bind, stN_ok hlt]
    rw [ldN_some (List.getElem?_set_self hlt)]
    simp only [C.ok_bind]
    rw [stN_ok (by rw [List.length_set]; exact hlt)]
    simp

/-- `mu_jems_init` and any valid calls, and the model's. -/
theorem src_run (hw : E.Writes A X n0) (p : E.Placed A h) (h1 : 1 ≤ D) (h2 : D ≤ E.len) (hi : E.inv out h)
    (hL : ∀ k, (m k).length ≤ L) (hn : n0 + L + 30 ≤ n) (q : E.Texts β h m) {cs : List Call}
    (ok : ∀ c ∈ cs, CallOk A.toPlat m c) (u : ∀ c ∈ cs, UnsignedCall β h c) :
    ∃ h' j0 j, E.run (sem A X prog (n + 4)) β h D cs = .ok (.ptr E.b E.o, h') ∧
      Mu.Jems.init ⟨[], 0, 0, 0, 0, out.map (fun c => ⟨1, c, 0⟩)⟩ (List.replicate E.len ⟨0, false⟩) D 1 0 = .ok j0 ∧
      Mu.Jems.calls A.toPlat m j0 cs = .ok j ∧ E.Rep A h' j ∧ Heap.Only E.Uses h h' := by
  obtain ⟨h0, j0, e0, m0, r0, o0⟩ := src_init (X := X) (n := n + 1) hw p h1 h2 hi (List.replicate E.len ⟨0, false⟩) (by simp)
  obtain ⟨h', j, e1, m1, r1, o1⟩ := src_calls hw hL hn cs h0 j0 r0 (q.only o0) ok (fun c hc => (u c hc).only q (ok c hc) o0)
  refine ⟨h', j0, j, ?_, m0, m1, r1, o0.trans o1⟩
  have e0' : sem A X prog (n + 4) .mu_jems_init h [.ptr E.b E.o, .ptr E.lb E.lo, .int D, .fn E.w, E.arg] =
    .ok (.ptr E.b E.o, h0) := e0
  simp only [Emitter.run, e0', C.ok_bind]
  exact e1

theorem initOk (h1 : 1 ≤ D) (h2 : D ≤ E.len) (p : E.Placed A h) :
    Mu.Jems.InitOk A.toPlat (List.replicate E.len ⟨0, false⟩) D 1 :=
  ⟨by decide, h1, by simpa using h2, Nat.lt_of_le_of_lt h2 p.len⟩

/-- **C130, documents**: `mu_jems_init` and calls that describe a JSON document, nested less deep than there are levels, pass
exactly the text of the document to the writer, one character after the other, behind what it has been passed before;
nothing but the struct, its levels and the writer's memory changes. -/
theorem C130_document (hw : E.Writes A X n0) (p : E.Placed A h) (h1 : 1 ≤ D) (h2 : D ≤ E.len) (hi : E.inv out h)
    (hL : ∀ k, (m k).length ≤ L) (hn : n0 + L + 30 ≤ n) (q : E.Texts β h m) {x : Mu.Jems.Spec.Doc} {cs : List Call}
    (w : Writes A.toPlat m x cs) (hd : depth x < D) (hf : Fits A.szMod x) (u : ∀ c ∈ cs, UnsignedCall β h c) :
    ∃ h', E.run (sem A X prog (n + 4)) β h D cs = .ok (.ptr E.b E.o, h') ∧ E.inv (out ++ render x) h' ∧
      Heap.Only E.Uses h h' := by
  obtain ⟨h', j0, j, e, m0, m1, r, o⟩ := src_run hw p h1 h2 hi hL hn q (writes_callOk w) u
  obtain ⟨k0, k, a0, a1, a2⟩ := Mu.Jems.C56_document (m := m) ⟨[], 0, 0, 0, 0, out.map (fun c => ⟨1, c, 0⟩)⟩ 0
    (initOk h1 h2 p) w hd hf
  obtain rfl : j0 = k0 := Except.ok.inj (m0.symm.trans a0)
  obtain rfl : j = k := Except.ok.inj (m1.symm.trans a1)
  refine ⟨h', e, ?_, o⟩
  have := r.inv
  rw [a2] at this
  simpa [Mu.Jems.written, List.map_map, Function.comp_def] using this

/-- **C130, read back**: a JSON reader applied to what the writer has been passed returns the document. -/
theorem C130_read_back (hw : E.Writes A X n0) (p : E.Placed A h) (h1 : 1 ≤ D) (h2 : D ≤ E.len) (hi : E.inv [] h)
    (hL : ∀ k, (m k).length ≤ L) (hn : n0 + L + 30 ≤ n) (q : E.Texts β h m) {x : Mu.Jems.Spec.Doc} {cs : List Call}
    (w : Writes A.toPlat m x cs) (hd : depth x < D) (hf : Fits A.szMod x) (u : ∀ c ∈ cs, UnsignedCall β h c) :
    ∃ h' t, E.run (sem A X prog (n + 4)) β h D cs = .ok (.ptr E.b E.o, h') ∧ E.inv t h' ∧ Mu.Jems.Spec.read t = some x := by
  obtain ⟨h', e, i, -⟩ := C130_document hw p h1 h2 hi hL hn q w hd hf u
  exact ⟨h', render x, e, i, Mu.Jems.read_render x⟩

/-- **C130, safety**: whatever calls are made, nested too deep or closed too often or in any order, each returns its
argument, and nothing but the struct, its levels and the writer's memory changes; what is written is what the model of
mu_jems.c (Model/Jems.lean) writes, started with a log of what was written before. -/
theorem C130_calls (hw : E.Writes A X n0) (p : E.Placed A h) (h1 : 1 ≤ D) (h2 : D ≤ E.len) (hi : E.inv out h)
    (hL : ∀ k, (m k).length ≤ L) (hn : n0 + L + 30 ≤ n) (q : E.Texts β h m) {cs : List Call}
    (ok : ∀ c ∈ cs, CallOk A.toPlat m c) (u : ∀ c ∈ cs, UnsignedCall β h c) :
    ∃ h' j0 j, E.run (sem A X prog (n + 4)) β h D cs = .ok (.ptr E.b E.o, h') ∧ Heap.Only E.Uses h h' ∧
      Mu.Jems.init ⟨[], 0, 0, 0, 0, out.map (fun c => ⟨1, c, 0⟩)⟩ (List.replicate E.len ⟨0, false⟩) D 1 0 = .ok j0 ∧
      Mu.Jems.calls A.toPlat m j0 cs = .ok j ∧ E.inv (j.out.map Emit.ch) h' := by
  obtain ⟨h', j0, j, e, m0, m1, r, o⟩ := src_run hw p h1 h2 hi hL hn q ok u
  exact ⟨h', j0, j, e, o, m0, m1, r.inv⟩

/-- **C130, bookkeeping**: as long as no more containers are open than there are levels, `mu_jems_curr_level` is the number
of open containers and `mu_jems_item_count` the number of items in the innermost. -/
theorem C130_counts (hw : E.Writes A X n0) (p : E.Placed A h) (h1 : 1 ≤ D) (h2 : D ≤ E.len) (hi : E.inv out h)
    (hL : ∀ k, (m k).length ≤ L) (hn : n0 + L + 30 ≤ n) (q : E.Texts β h m) {cs : List Call}
    (ok : ∀ c ∈ cs, CallOk A.toPlat m c) (u : ∀ c ∈ cs, UnsignedCall β h c) {c : Nat} {s : List Nat}
    (ht : tracks D [0] cs = some (c :: s)) :
    ∃ h', E.run (sem A X prog (n + 4)) β h D cs = .ok (.ptr E.b E.o, h') ∧
      sem A X prog (n + 4) .mu_jems_curr_level h' [.ptr E.b E.o] = .ok (.int s.length, h') ∧
      sem A X prog (n + 4) .mu_jems_item_count h' [.ptr E.b E.o] = .ok (.int (c % A.szMod : Nat), h') := by
  obtain ⟨h', j0, j, e, m0, m1, r, o⟩ := src_run hw p h1 h2 hi hL hn q ok u
  obtain ⟨k0, k, a0, a1, a2, a3⟩ := Mu.Jems.C60_positions (m := m) ⟨[], 0, 0, 0, 0, out.map (fun c => ⟨1, c, 0⟩)⟩ 0
    (initOk h1 h2 p) ok ht
  obtain rfl : j0 = k0 := Except.ok.inj (m0.symm.trans a0)
  obtain rfl : j = k := Except.ok.inj (m1.symm.trans a1)
  refine ⟨h', e, ?_, ?_⟩
  · rw [src_curr_level (n + 3) r]
    rw [← a2]
    rfl
  · obtain ⟨l, hl⟩ := r.wf.level
    rw [src_item_count (n + 2) r hl]
    unfold Mu.Jems.itemCount Mu.Jems.level at a3
    rw [ldN_some hl] at a3
    have : l.itemCount = c % A.szMod := Except.ok.inj a3
    rw [this]

/-! ## A case -/

/-- A `mu_jems_t`, two levels, a buffer that counts what it is passed and keeps the first 16 characters, a key. -/
def jemsDemo : Heap where
  mem
    | .obj 0 => List.replicate 5 .undef
    | .obj 1 => List.replicate 4 .undef
    | .obj 2 => .int 0 :: List.replicate 16 .undef
    | .obj 3 => [.int 107, .int 0]
    | _ => []
  next := 4

/-- The writer. -/
def jemsDemoFns (X : Ext) : Ext where
  fn := X.fn
  cb _ _ h args :=
    match h.at (.obj 2) 0, args with
    | some (.int k), c :: _ => .ok (.undef, (h.upd (.obj 2) (1 + k) c).upd (.obj 2) 0 (.int (k + 1)))
    | _, _ => .error .oob

/-- The emitter of the example; `inv`: what is in the buffer. -/
def jemsDemoE : Emitter where
  b := .obj 0
  o := 0
  lb := .obj 1
  lo := 0
  len := 2
  w := 9
  arg := .int 0
  cells b _ := b = .obj 2
  inv out h := (∀ i : Nat, i < 17 → (h.at (.obj 2) i).isSome = true) ∧ h.at (.obj 2) 0 = some (.int out.length) ∧
    ∀ i c, i < 16 → out[i]? = some c → h.at (.obj 2) (1 + (i : Nat)) = some (.int (chr .lp64 c))

/-- The writer of the example is one. -/
theorem jemsDemo_writes (X : Ext) : jemsDemoE.Writes .lp64 (jemsDemoFns X) 0 := by
  intro n _
  constructor
  · intro out h c ⟨i1, i2, i3⟩
    refine ⟨.undef, (h.upd (.obj 2) (1 + (out.length : Int)) (.int (chr .lp64 c))).upd (.obj 2) 0 (.int (out.length + 1)), ?_, ⟨?_, ?_, ?_⟩, ?_⟩
    · simp [jemsDemoFns, i2, chr]
    · intro i hi
      have := i1 i hi
      rw [Heap.isSome_at] at this ⊢
      simpa using this
    · rw [Heap.at_upd_same rfl]
      · simp
      · have := i1 0 (by omega)
        rw [Heap.at_upd_ne (by right; omega)]
        exact this
    · intro i d hi hd
      rw [Heap.at_upd_ne (by right; omega)]
      by_cases e : i = out.length
      · subst e
        simp at hd
        subst hd
        have := i1 (out.length + 1) (by omega)
        rw [show ((out.length + 1 : Nat) : Int) = 1 + (out.length : Int) by omega] at this
        exact Heap.at_upd_same rfl this
      · rw [Heap.at_upd_ne (by right; omega)]
        apply i3 i d hi
        rw [List.getElem?_append] at hd
        split at hd
        · exact hd
        · rw [List.getElem?_eq_none (by simp; omega)] at hd
          cases hd
    · exact ((Heap.Only.refl _ h).upd rfl).upd rfl
  · intro out h h' ⟨i1, i2, i3⟩ e
    refine ⟨fun i hi => ?_, ?_, fun i c hi hc => ?_⟩
    · rw [e _ _ rfl]; exact i1 i hi
    · rw [e _ _ rfl]; exact i2
    · rw [e _ _ rfl]; exact i3 i c hi hc

/-- The memory of the example is as it should be. -/
theorem jemsDemo_placed : jemsDemoE.Placed .lp64 jemsDemo where
  fresh k hk := by
    match k, hk with
    | k + 4, _ => rfl
  wr := rfl
  wrl := rfl
  struct i hi := by
    match i, hi with
    | 0, _ | 1, _ | 2, _ | 3, _ | 4, _ => rfl
  levels i hi := by
    match i, hi with
    | 0, _ | 1, _ | 2, _ | 3, _ => rfl
  apart i k _ _ := by simp [jemsDemoE]
  own b o hb := by
    simp only [jemsDemoE] at hb
    subst hb
    simp [Emitter.Own, span, jemsDemoE]
  old k o hk := by
    simp [jemsDemoE] at hk
    subst hk
    decide
  arg := by simp [jemsDemoE]
  len := by decide
  lit b o hb := by
    simp only [jemsDemoE] at hb
    subst hb
    rfl

/-- The texts of the example: one, the key. -/
def jemsDemoTexts : Mem
  | 0 => [107, 0]
  | _ => []

/-- `{"k":7}`, key and value in one call, with two levels: afterwards the buffer holds the seven characters. -/
example (X : Ext) : ∃ h', jemsDemoE.run (sem .lp64 (jemsDemoFns X) prog 40) (fun _ => (.obj 3, 0)) jemsDemo 2
      [.item .objectOpen, .key ⟨0, 0⟩ (.integer 7), .objectClose] = .ok (.ptr (.obj 0) 0, h') ∧
    h'.at (.obj 2) 0 = some (.int 7) ∧
    (List.range 7).map (fun i => h'.at (.obj 2) (1 + (i : Nat))) =
      [123, 34, 107, 34, 58, 55, 125].map (fun c => some (CVal.int c)) := by
  have hi : jemsDemoE.inv [] jemsDemo := by
    refine ⟨fun i hi => ?_, rfl, fun i c _ hc => by simp at hc⟩
    rw [Heap.isSome_at]
    simpa [jemsDemo, Heap.cells] using hi
  have hL : ∀ k, (jemsDemoTexts k).length ≤ 2
    | 0 => by decide
    | _ + 1 => by simp [jemsDemoTexts]
  have hk : BBuf.IsCstr jemsDemoTexts ⟨0, 0⟩ [107] := ⟨by decide, by decide, [], by decide⟩
  have hq : jemsDemoE.Texts (fun _ => (.obj 3, 0)) jemsDemo jemsDemoTexts := by
    intro k i c hc
    match k, i with
    | 0, 0 =>
      simp [jemsDemoTexts] at hc
      subst hc
      exact ⟨by simp [Emitter.Uses, Emitter.Own, span, jemsDemoE], 107, rfl, .inl (by decide)⟩
    | 0, 1 =>
      simp [jemsDemoTexts] at hc
      subst hc
      exact ⟨by simp [Emitter.Uses, Emitter.Own, span, jemsDemoE], 0, rfl, .inl (by decide)⟩
    | 0, i + 2 => simp [jemsDemoTexts] at hc
    | k + 1, _ => simp [jemsDemoTexts] at hc
  obtain ⟨h', e, i, -⟩ := C130_document (n := 36) (D := 2) (jemsDemo_writes X) jemsDemo_placed (by omega) (by decide)
    hi hL (by omega) hq (.obj (.key hk (.int 7 (by decide) (by decide)) .nil)) (by decide) ⟨by decide, by simp [FitsMembers, Fits]⟩
    (by intro c hc; simp at hc; rcases hc with rfl | rfl | rfl <;> trivial)
  refine ⟨h', e, i.2.1, ?_⟩
  have r : render (.obj [([107], .int 7)]) = [123, 34, 107, 34, 58, 55, 125] := by decide
  rw [r] at i
  have i3 := i.2.2
  have a0 := i3 0 123 (by omega) rfl
  have a1 := i3 1 34 (by omega) rfl
  have a2 := i3 2 107 (by omega) rfl
  have a3 := i3 3 34 (by omega) rfl
  have a4 := i3 4 58 (by omega) rfl
  have a5 := i3 5 55 (by omega) rfl
  have a6 := i3 6 125 (by omega) rfl
  simp only [List.range, List.range.loop, List.map_cons, List.map_nil, a0, a1, a2, a3, a4, a5, a6]
  decide

end Mu.CS
