import Verif.Lemmas.SrcSched
import Verif.Lemmas.SrcBBufRotate
import Verif.Lemmas.SrcArraySort
import Verif.Lemmas.JemsPos
import Verif.Spec.SrcJems

/-! # The parsed source of mu_jems.c: representation, characters, strings -/

namespace Mu.CS

open Mu.Jems (Jems Level Emit WF sep bump)
open Mu.Jems.Spec

/-- The model's state `j` is in memory. -/
structure Emitter.Rep (E : Emitter) (A : Arch) (h : Heap) (j : Jems) : Prop where
  placed : E.Placed A h
  f0 : h.at E.b E.o = some (.ptr E.lb E.lo)
  f1 : h.at E.b (E.o + 1) = some (.int j.maxLevel)
  f2 : h.at E.b (E.o + 2) = some (.int j.curr)
  f3 : h.at E.b (E.o + 3) = some (.fn E.w)
  f4 : h.at E.b (E.o + 4) = some E.arg
  wf : WF A.toPlat j
  len : j.levels.length = E.len
  items : ∀ i l, i ≤ j.curr → j.levels[i]? = some l → h.at E.lb (E.lo + (2 * i : Nat)) = some (.int l.itemCount) ∧
    h.at E.lb (E.lo + (2 * i + 1 : Nat)) = some (.ofBool l.isObject) ∧ l.itemCount < A.szMod
  inv : E.inv (j.out.map Emit.ch) h

variable {A : Arch} {X : Ext} {E : Emitter} {h h' : Heap} {j j' : Jems}

theorem Emitter.Placed.ownOld (p : E.Placed A h) : ∀ b o, E.Own b o → Old h b := by
  intro b o hb k hk
  have : (h.at b o).isSome = true := by
    rcases hb with ⟨rfl, h1, h2⟩ | ⟨rfl, h1, h2⟩
    · have := p.struct (o - E.o).toNat (by omega)
      rwa [show E.o + ((o - E.o).toNat : Int) = o by omega] at this
    · have := p.levels (o - E.lo).toNat (by omega)
      rwa [show E.lo + ((o - E.lo).toNat : Int) = o by omega] at this
  by_cases hx : h.next ≤ k
  · have h1 : h.cells b = [] := by rw [hk]; exact p.fresh k hx
    unfold Heap.at at this
    rw [h1] at this
    simp at this
  · omega

theorem Emitter.Placed.usesOld (p : E.Placed A h) : ∀ b o, E.Uses b o → Old h b := by
  intro b o hb
  rcases hb with hb | hb
  · intro k hk
    subst hk
    exact p.old k o hb
  · exact p.ownOld b o hb

/-- The representation depends on the emitter's and the writer's memory only. -/
theorem Emitter.Rep.transfer {cb : Nat → SemFn} (hw : WriterOk A cb E) (r : E.Rep A h j) (hf : h'.Fresh)
    (hold : ∀ k o, E.cells (.obj k) o → k < h'.next) (e : ∀ b o, E.Uses b o → h'.at b o = h.at b o) : E.Rep A h' j := by
  have p := r.placed
  have st : ∀ i : Nat, i < 5 → h'.at E.b (E.o + i) = h.at E.b (E.o + i) := fun i hi =>
    e _ _ (Or.inr (Or.inl ⟨rfl, by omega, by omega⟩))
  have lv : ∀ i : Nat, i < 2 * E.len → h'.at E.lb (E.lo + i) = h.at E.lb (E.lo + i) := fun i hi =>
    e _ _ (Or.inr (Or.inr ⟨rfl, by omega, by omega⟩))
  refine ⟨⟨hf, p.wr, p.wrl, fun i hi => by rw [st i hi]; exact p.struct i hi, fun i hi => by rw [lv i hi]; exact p.levels i hi,
    p.apart, p.own, hold, p.arg, p.len, p.lit⟩, ?_, (st 1 (by omega)).trans r.f1, (st 2 (by omega)).trans r.f2,
    (st 3 (by omega)).trans r.f3, (st 4 (by omega)).trans r.f4, r.wf, r.len, ?_, ?_⟩
  · have := (st 0 (by omega))
    rw [Int.natCast_zero, Int.add_zero] at this
    exact this.trans r.f0
  · intro i l hi hl
    obtain ⟨a, b, c⟩ := r.items i l hi hl
    have hlt : i < E.len := by have := (List.getElem?_eq_some_iff.mp hl).1; rw [r.len] at this; exact this
    exact ⟨(lv _ (by omega)).trans a, (lv _ (by omega)).trans b, c⟩
  · exact hw.keep _ _ _ r.inv (fun b o hb => e b o (Or.inl hb))

/-- The writer's memory has changed and some characters have been written. -/
theorem Emitter.Rep.wrote (r : E.Rep A h j) (e : Heap.Only E.cells h h') (t : List UInt8)
    (hi : E.inv (j.out.map Emit.ch ++ t) h') : E.Rep A h' (say j t) := by
  have p := r.placed
  have own : ∀ b o, E.Own b o → h'.at b o = h.at b o := fun b o hb => e.cell b o (fun hc => p.own b o hc hb)
  have st : ∀ i : Nat, i < 5 → h'.at E.b (E.o + i) = h.at E.b (E.o + i) := fun i hi =>
    own _ _ (Or.inl ⟨rfl, by omega, by omega⟩)
  have lv : ∀ i : Nat, i < 2 * E.len → h'.at E.lb (E.lo + i) = h.at E.lb (E.lo + i) := fun i hi =>
    own _ _ (Or.inr ⟨rfl, by omega, by omega⟩)
  have hf : h'.Fresh := by
    intro k hk
    rw [e.next] at hk
    have h1 : h.mem (.obj k) = [] := p.fresh k hk
    have := e.size (.obj k)
    simp only [Heap.cells, h1, List.length_nil] at this
    exact List.eq_nil_of_length_eq_zero this
  refine ⟨⟨hf, p.wr, p.wrl, fun i hi => by rw [st i hi]; exact p.struct i hi, fun i hi => by rw [lv i hi]; exact p.levels i hi,
    p.apart, p.own, by rw [e.next]; exact p.old, p.arg, p.len, p.lit⟩, ?_, (st 1 (by omega)).trans r.f1, (st 2 (by omega)).trans r.f2,
    (st 3 (by omega)).trans r.f3, (st 4 (by omega)).trans r.f4, ⟨r.wf.writer, r.wf.curr, r.wf.len, r.wf.max⟩, r.len, ?_, ?_⟩
  · have := (st 0 (by omega))
    rw [Int.natCast_zero, Int.add_zero] at this
    exact this.trans r.f0
  · intro i l hi hl
    obtain ⟨a, b, c⟩ := r.items i l hi hl
    have hlt : i < E.len := by have := (List.getElem?_eq_some_iff.mp hl).1; rw [← r.len]; exact this
    exact ⟨(lv _ (by omega)).trans a, (lv _ (by omega)).trans b, c⟩
  · simpa [say, List.map_map, Function.comp_def] using hi

/-- The writer works at every depth of calls from `n0` on. -/
abbrev Emitter.Writes (E : Emitter) (A : Arch) (X : Ext) (n0 : Nat) : Prop :=
  ∀ n, n0 ≤ n → WriterOk A (X.cb (sem A X prog n)) E

/-- The value of a character as a `char`. -/
abbrev chr (A : Arch) (c : UInt8) : Int := (A.it .char).conv (UInt8.toNat c)

theorem src_emit_char {n n0 : Nat} (hw : E.Writes A X n0) (hn : n0 ≤ n) (r : E.Rep A h j) (c : UInt8) :
    ∃ h', sem A X prog (n + 1) .emit_char__jems h [.ptr E.b E.o, .int (chr A c)] = .ok (.ptr E.b E.o, h') ∧
      E.Rep A h' (say j [c]) ∧ Heap.Only E.cells h h' := by
  obtain ⟨v, h', e1, e2, e3⟩ := (hw n hn).call _ h c r.inv
  refine ⟨h', ?_, r.wrote e3 [c] e2, e3⟩
  rw [sem_succ (d := Src.emit_char__jems) rfl, FunDef.run_regs rfl rfl]
  generalize sem A X prog n = S at *
  have a := r.placed.arg
  simp only [chr] at *
  generalize (A.it .char).conv (UInt8.toNat c) = ch at *
  simp [csrc, Src.emit_char__jems, r.f3, r.f4, a, e1]

/-- A NUL-terminated text of `char`s at `(sb, so)`, outside the memory of the writer. -/
structure Emitter.StrAt (E : Emitter) (A : Arch) (h : Heap) (sb : Base) (so : Int) (s : List UInt8) : Prop where
  char : ∀ i c, s[i]? = some c → ¬ E.cells sb (so + (i : Nat)) ∧ h.at sb (so + i) = some (.int (chr A c))
  nul : ¬ E.cells sb (so + s.length) ∧ h.at sb (so + s.length) = some (.int 0)
  nz : 0 ∉ s

theorem Emitter.StrAt.only {sb : Base} {so : Int} {s : List UInt8} (q : E.StrAt A h sb so s) (e : Heap.Only E.cells h h') :
    E.StrAt A h' sb so s :=
  ⟨fun i c hc => ⟨(q.char i c hc).1, (e.cell _ _ (q.char i c hc).1).trans (q.char i c hc).2⟩,
    ⟨q.nul.1, (e.cell _ _ q.nul.1).trans q.nul.2⟩, q.nz⟩

theorem Emitter.StrAt.tail {sb : Base} {so : Int} {c : UInt8} {s : List UInt8} (q : E.StrAt A h sb so (c :: s)) :
    E.StrAt A h sb (so + 1) s := by
  refine ⟨fun i d hd => ?_, ?_, fun hx => q.nz (by simp [hx])⟩
  · have := q.char (i + 1) d (by simpa using hd)
    rwa [show so + ((i + 1 : Nat) : Int) = so + 1 + i by omega] at this
  · have := q.nul
    rwa [show so + (((c :: s).length : Nat) : Int) = so + 1 + s.length by simp; omega] at this

theorem chr_ne_zero {c : UInt8} (hc : c ≠ 0) : chr A c ≠ 0 := by
  have h1 : c.toNat ≠ 0 := fun e => hc (UInt8.toNat_inj.mp (by simpa using e))
  have h2 := c.toNat_lt
  simp only [chr, Arch.it]
  cases A.charSigned with
  | false =>
    rw [IT.conv_unsigned]
    omega
  | true =>
    rw [IT.conv_signed]
    intro e
    have := Int.emod_bmod (x := (c.toNat : Int)) (n := 2 ^ 8)
    have h3 := Int.dvd_of_bmod_eq_zero e
    omega

theorem chr_small {c : UInt8} (hc : c.toNat < 128) : chr A c = c.toNat := by
  simp only [chr, Arch.it]
  cases A.charSigned with
  | false =>
    rw [IT.conv_unsigned]
    omega
  | true =>
    rw [IT.conv_signed]
    exact Int.bmod_eq_of_le (by omega) (by omega)

theorem say_nil (j : Jems) : say j [] = j := by simp [say]

theorem src_emit_string_loop {n n0 N : Nat} (hw : E.Writes A X n0) (hn : n0 ≤ n) :
    ∀ (s : List UInt8) (h : Heap) (j : Jems) (sb : Base) (so : Int) (fuel : Nat), s.length < fuel →
      E.Rep A h j → E.StrAt A h sb so s →
      ∃ h', Src.emit_string__jems_loop1.rounds A ⟨sem A X prog (n + 1), X.cb (sem A X prog (n + 1))⟩ N fuel
          ⟨[.ptr E.b E.o, .ptr sb so], h⟩ = .ok (.next, ⟨[.ptr E.b E.o, .ptr sb (so + s.length)], h'⟩) ∧
        E.Rep A h' (say j s) ∧ Heap.Only E.cells h h' := by
  intro s
  induction s with
  | nil =>
    intro h j sb so fuel hf r q
    obtain ⟨fuel, rfl⟩ : ∃ k, fuel = k + 1 := ⟨fuel - 1, by omega⟩
    have h0 := q.nul.2
    simp only [List.length_nil, Int.natCast_zero, Int.add_zero] at h0 ⊢
    refine ⟨h, Stmt.rounds_exit ?_, by rw [say_nil]; exact r, Heap.Only.refl _ _⟩
    simp [csrc, Src.emit_string__jems_loop1, Stmt.cond, h0]
  | cons c s ih =>
    intro h j sb so fuel hf r q
    obtain ⟨fuel, rfl⟩ : ∃ k, fuel = k + 1 := ⟨fuel - 1, by omega⟩
    have h0 := (q.char 0 c rfl).2
    have hc : chr A c ≠ 0 := chr_ne_zero (fun e => q.nz (by simp [e]))
    rw [Int.natCast_zero, Int.add_zero] at h0
    obtain ⟨h1, e1, r1, o1⟩ := src_emit_char hw hn r c
    obtain ⟨h2, e2, r2, o2⟩ := ih h1 (say j [c]) sb (so + 1) fuel (by simp at hf; omega) r1 (q.tail.only o1)
    have pd : h.padd 1 (.ptr sb so) 1 = .ok (.ptr sb (so + 1)) := by
      have hs : (h.at sb so).isSome = true := by rw [h0]; rfl
      rw [Heap.isSome_at] at hs
      have hl := hs
      have := hl.1
      have := hl.2
      unfold Heap.padd
      dsimp only
      rw [if_pos (by omega)]
      simp
    refine ⟨h2, ?_, ?_, o1.trans o2⟩
    · generalize chr A c = v at *
      have hcond : evalCond A ⟨sem A X prog (n + 1), X.cb (sem A X prog (n + 1))⟩ Src.emit_string__jems_loop1.cond
          ⟨[.ptr E.b E.o, .ptr sb so], h⟩ = .ok (true, ⟨[.ptr E.b E.o, .ptr sb so], h⟩) := by
        simp [csrc, Src.emit_string__jems_loop1, Stmt.cond, h0, hc]
      have hb : exec A ⟨sem A X prog (n + 1), X.cb (sem A X prog (n + 1))⟩ N Src.emit_string__jems_loop1.body
          ⟨[.ptr E.b E.o, .ptr sb so], h⟩ = .ok (.next, ⟨[.ptr E.b E.o, .ptr sb (so + 1)], h1⟩) := by
        generalize sem A X prog (n + 1) = S at *
        simp [csrc, Src.emit_string__jems_loop1, Stmt.body, h0, pd, e1]
      rw [Stmt.rounds_next hcond hb (t := ⟨[.ptr E.b E.o, .ptr sb (so + 1)], h1⟩) rfl, e2]
      rw [show so + 1 + (s.length : Int) = so + ((c :: s).length : Nat) by simp; omega]
    · rw [Mu.Jems.say_say] at r2
      exact r2

theorem src_emit_string {n n0 : Nat} (hw : E.Writes A X n0) {s : List UInt8} (hn : n0 + s.length + 1 ≤ n) (r : E.Rep A h j)
    {sb : Base} {so : Int} (q : E.StrAt A h sb so s) :
    ∃ h', sem A X prog (n + 1) .emit_string__jems h [.ptr E.b E.o, .ptr sb so] = .ok (.ptr E.b E.o, h') ∧
      E.Rep A h' (say j s) ∧ Heap.Only E.cells h h' := by
  obtain ⟨n, rfl⟩ : ∃ k, n = k + 1 := ⟨n - 1, by omega⟩
  obtain ⟨h', e, r', o'⟩ := src_emit_string_loop (N := n + 1) hw (n := n) (by omega) s h j sb so (n + 1) (by omega) r q
  refine ⟨h', ?_, r', o'⟩
  rw [sem_succ (d := Src.emit_string__jems) rfl, FunDef.run_regs rfl rfl]
  generalize sem A X prog (n + 1) = S at *
  have e' : exec A ⟨S, X.cb S⟩ (n + 1) Src.emit_string__jems_loop1 ⟨[.ptr E.b E.o, .ptr sb so], h⟩ = _ := e
  simp [csrc, Src.emit_string__jems, e']

/-! ## Local buffers -/

theorem Emitter.Rep.alloc {cb : Nat → SemFn} (hw : WriterOk A cb E) (r : E.Rep A h j) (n : Nat) : E.Rep A (h.alloc n) j := by
  refine r.transfer hw (r.placed.fresh.alloc n) (fun k o hk => Nat.lt_succ_of_lt (r.placed.old k o hk)) (fun b o hb => ?_)
  refine Heap.at_alloc_ne (fun e => ?_)
  have := r.placed.usesOld b o hb _ e
  omega

/-- The buffer is filled. -/
theorem Emitter.Rep.buffer {cb : Nat → SemFn} (hw : WriterOk A cb E) {n m : Nat} {g g' : Heap} (r0 : E.Placed A h)
    (r : E.Rep A g j) (e : Heap.Only (span (.obj h.next) 0 m) g g') : E.Rep A g' j := by
  refine r.transfer hw ?_ (by rw [e.next]; exact r.placed.old) (fun b o hb => e.cell b o ?_)
  · intro k hk
    rw [e.next] at hk
    have h1 : g.mem (.obj k) = [] := r.placed.fresh k hk
    have := e.size (.obj k)
    simp only [Heap.cells, h1, List.length_nil] at this
    exact List.eq_nil_of_length_eq_zero this
  · rintro ⟨rfl, -⟩
    have := r0.usesOld _ o hb _ rfl
    omega

/-- Return from a function with local buffers. -/
theorem Emitter.Rep.release {cb : Nat → SemFn} (hw : WriterOk A cb E) {g : Heap} (r0 : E.Placed A h) (r : E.Rep A g j) :
    E.Rep A (g.release h.next) j := by
  refine r.transfer hw ?_ r0.old (fun b o hb => Heap.at_release (r0.usesOld b o hb))
  intro k hk
  have hk : h.next ≤ k := hk
  simp [Heap.release, hk]

/-- What the return leaves of the changes. -/
theorem Heap.Only.back {S : Base → Int → Prop} {n m : Nat} {g g' : Heap} (hf : h.Fresh)
    (e1 : Heap.Only (span (.obj h.next) 0 m) (h.alloc n) g) (e2 : Heap.Only S g g') : Heap.Only S h (g'.release h.next) :=
  Heap.Only.release (n := n) hf ((e1.mono (fun _ _ hb => Or.inr hb.1)).trans (e2.mono (fun _ _ hb => Or.inl hb)))

/-- A text put into a new buffer is a string there. -/
theorem Emitter.StrAt.buffer {n : Nat} (p : E.Placed A h) {t : List UInt8} (ht : t.length < n) (h128 : ∀ c ∈ t, c.toNat < 128)
    (h0 : 0 ∉ t) : ∃ g, (h.alloc n).putN (.ptr (.obj h.next) 0) (litCells t) = .ok g ∧ E.StrAt A g (.obj h.next) 0 t ∧
      Heap.Only (span (.obj h.next) 0 (t.length + 1)) (h.alloc n) g := by
  have hl : (litCells t).length = t.length + 1 := by simp [litCells]
  have hc : ((h.alloc n).cells (.obj h.next)).length = n := by simp [Heap.alloc, Heap.cells, Heap.put]
  obtain ⟨g, e1, e2, e3⟩ := Heap.putN_ok (h := h.alloc n) (b := .obj h.next) (o := 0) rfl (cs := litCells t) (by omega)
    (by rw [hl, hc]; omega)
  have nc : ∀ o, ¬ E.cells (.obj h.next) o := fun o hx => by have := p.old _ _ hx; omega
  refine ⟨g, e1, ⟨fun i c hi => ⟨nc _, ?_⟩, ⟨nc _, ?_⟩, h0⟩, by rw [← hl]; exact e3⟩
  · have hlt := (List.getElem?_eq_some_iff.mp hi).1
    rw [e2 i (by omega), chr_small (h128 c (List.mem_of_getElem? hi))]
    have hv := (List.getElem?_eq_some_iff.mp hi).2
    simp [litCells, List.getElem?_append_left, hlt, hv]
  · rw [e2 _ (by omega)]
    simp [litCells]

theorem sem_sprintf (n : Nat) : sem A X prog (n + 1) .sprintf = Lib.sprintf := rfl
theorem sem_snprintf (n : Nat) : sem A X prog (n + 1) .snprintf = Lib.snprintf := rfl

end Mu.CS
