import Verif.Spec.SrcBoxes
import Verif.Lemmas.SrcQueueHist
import Verif.Lemmas.SrcSpscHist
import Verif.Props.SrcMqueue
import Verif.Props.SrcArray

/-! # One container among many

This file models no mulib code.  Memory holds a container with the items `l` (`Box.Rep`); its calls keep
that, and writes elsewhere do. -/

namespace Mu.CS

variable {A : Arch} {X : Ext}

/-- The queue does not depend on other memory. -/
theorem QRep.frame {h h' : Heap} {b o sb so m} {S : Base → Int → Prop} (q : QRep A h b o sb so m) (e : Heap.Only S h h')
    (hs : ∀ b' o', QCells b o sb so m.storage.length b' o' → ¬ S b' o') : QRep A h' b o sb so m := by
  have k : ∀ j : Int, 0 ≤ j → j < 4 → h'.at b (o + j) = h.at b (o + j) := fun j h0 h1 =>
    e.cell _ _ (hs _ _ (Or.inl ⟨rfl, by omega, by omega⟩))
  refine ⟨q.wr, q.swr, ?_, (k 1 (by omega) (by omega)).trans q.cap, (k 2 (by omega) (by omega)).trans q.cnt,
    (k 3 (by omega) (by omega)).trans q.idx, ?_, q.sep, q.capLt, q.cntLt, q.idxLt⟩
  · have := k 0 (by omega) (by omega)
    rw [Int.add_zero] at this
    exact this.trans q.storage
  · intro i v hv
    have hl := (List.getElem?_eq_some_iff.mp hv).1
    rw [e.cell _ _ (hs _ _ (Or.inr ⟨rfl, by omega, by omega⟩))]
    exact q.items i v hv

/-- The queue does not depend on other memory. -/
theorem SRep.frame {h h' : Heap} {b o sb so m} {S : Base → Int → Prop} (q : SRep h b o sb so m) (e : Heap.Only S h h')
    (hs : ∀ b' o', SCells b o sb so m.store.length b' o' → ¬ S b' o') : SRep h' b o sb so m := by
  have k : ∀ j : Int, 0 ≤ j → j < 4 → h'.at b (o + j) = h.at b (o + j) := fun j h0 h1 =>
    e.cell _ _ (hs _ _ (Or.inl ⟨rfl, by omega, by omega⟩))
  refine ⟨q.wr, q.swr, ?_, (k 1 (by omega) (by omega)).trans q.head, (k 2 (by omega) (by omega)).trans q.tail,
    (k 3 (by omega) (by omega)).trans q.store, ?_, q.sep, q.maskLt, q.headLt, q.tailLt⟩
  · have := k 0 (by omega) (by omega)
    rw [Int.add_zero] at this
    exact this.trans q.mask
  · intro i v hv
    have hl := (List.getElem?_eq_some_iff.mp hv).1
    rw [e.cell _ _ (hs _ _ (Or.inr ⟨rfl, by omega, by omega⟩))]
    exact q.items i v hv

/-- Memory holds the container with the items `l`. -/
def Box.Rep (A : Arch) (h : Heap) (x : Box) (l : List CVal) : Prop :=
  match x.kind with
  | .queue => 2 * x.cap ≤ A.szMod ∧ ∃ m l', QRep A h x.b x.o x.sb x.so m ∧ Queue.Rep m l' ∧ l'.map code = l ∧
      m.capacity = x.cap ∧ m.storage.length = x.cap ∧ ∀ y ∈ l', code y ≠ .undef
  | .mqueue => 2 * x.cap ≤ A.szMod ∧ ∃ ix, h.MQ x.b x.o x.sb x.so x.cap .null .null ix l
  | .spsc => ∃ m d l', SRep h x.b x.o x.sb x.so m ∧ Spsc.Rep m x.cap d l' ∧ l'.map code = l ∧
      m.store.length = x.cap ∧ ∀ y ∈ l', code y ≠ .undef
  | .array => (x.cap : Int) ≤ A.intMax ∧ h.Arr x.b x.o x.sb x.so x.cap l

theorem Box.Rep.only {h h' : Heap} {x : Box} {l : List CVal} {S : Base → Int → Prop} (q : x.Rep A h l)
    (e : Heap.Only S h h') (hs : ∀ b o, x.cells b o → ¬ S b o) : x.Rep A h' l := by
  rcases x with ⟨k, b, o, sb, so, cap⟩
  cases k with
  | queue =>
    obtain ⟨a0, m, l', a, a1, a2, a3, a4, a5⟩ := q
    refine ⟨a0, m, l', a.frame e (fun b' o' hc => hs b' o' ?_), a1, a2, a3, a4, a5⟩
    rw [a4] at hc; exact hc
  | mqueue =>
    obtain ⟨a0, ix, a⟩ := q
    exact ⟨a0, ix, a.only e (fun b' o' hx hc => hs b' o' hc hx)⟩
  | spsc =>
    obtain ⟨m, d, l', a, a1, a2, a4, a5⟩ := q
    refine ⟨m, d, l', a.frame e (fun b' o' hc => hs b' o' ?_), a1, a2, a4, a5⟩
    rw [a4] at hc; exact hc
  | array => exact ⟨q.1, q.2.only e hs⟩

/-- Initialisation. -/
theorem box_init (n : Nat) {h : Heap} {x : Box} (ok : x.Ok A h) :
    ∃ h', x.init (sem A X prog (n + 3)) h = .ok (x.initSpec, h') ∧ x.Rep A h' [] ∧ Heap.Only x.cells h h' := by
  rcases x with ⟨k, b, o, sb, so, cap⟩
  obtain ⟨h1, h2, h3, h4, h5, h6⟩ := ok
  have h16 := szMod_ge A.toPlat
  cases k with
  | queue =>
    simp only at h6
    obtain ⟨h', m, e, q, r, hc, hlen, o1, -⟩ := src_queue_init (A := A) (X := X) (n + 1) cap h1 h2 h3 h4 h5 (by omega)
    refine ⟨h', ?_, ⟨h6, m, [], q, r, rfl, hc, hlen, by simp⟩, o1.mono fun _ _ hx => .inl hx⟩
    simp only [Box.init, e, C.ok_bind]; rfl
  | mqueue =>
    obtain ⟨h', e, q, o1⟩ := src_mq_init (A := A) (X := X) (n + 1) (pt := .null) (gt := .null) h1 h2 h3 h4 h5 trivial trivial
    refine ⟨h', ?_, ⟨h6, _, q⟩, o1.mono fun _ _ hx => .inl hx⟩
    simp only [Box.init, e, C.ok_bind]; rfl
  | spsc =>
    obtain ⟨h', m, e, q, r, hlen, o1, -⟩ := src_spsc_init (A := A) (X := X) (n + 1) cap h6.1 h1 h2 h3 h4 h5 h6.2
    refine ⟨h', ?_, ⟨m, 0, [], q, r, rfl, hlen, by simp⟩, o1.mono fun _ _ hx => .inl hx⟩
    simp only [Box.init, e, C.ok_bind]; rfl
  | array =>
    obtain ⟨h', e, q, o1⟩ := src_arr_init (A := A) (X := X) (n + 1) cap h1 h2 h3 h4 h5
    refine ⟨h', ?_, ⟨h6, q⟩, o1.mono fun _ _ hx => .inl hx⟩
    simp only [Box.init, e, C.ok_bind]; rfl

theorem qrun_elem {S : Fn → SemFn} {b : Base} {o : Int} {h h' : Heap} {out : QOut} {c : QCall}
    (e : QCall.run S b o h c = .ok (out, h')) : ∀ eb eo, c.writes eb eo → h'.at eb eo = out.elem := by
  intro eb eo hw
  cases c <;> simp only [QCall.writes] at hw
  all_goals
    obtain ⟨rfl, rfl⟩ := hw
    simp only [QCall.run] at e
    revert e
    generalize S _ h _ = y
    intro e
    cases y with
    | error => cases e
    | ok y => cases e; rfl

theorem srun_elem {S : Fn → SemFn} {b : Base} {o : Int} {h h' : Heap} {out : SOut} {c : SCall}
    (e : SCall.run S b o h c = .ok (out, h')) : ∀ eb eo, c.writes eb eo → h'.at eb eo = out.item := by
  intro eb eo hw
  cases c <;> simp only [SCall.writes] at hw
  obtain ⟨rfl, rfl⟩ := hw
  simp only [SCall.run] at e
  revert e
  generalize S _ h _ = y
  intro e
  cases y with
  | error => cases e
  | ok y => cases e; rfl

/-- What a call on an array delivers; if nothing, the variable is unchanged. -/
theorem arun_elem (n : Nat) {h h' : Heap} {b sb : Base} {o so : Int} {cap : Nat} {l : List CVal} {out : QOut} {c : ACall}
    (q : h.Arr b o sb so cap l) (hc : (cap : Int) ≤ A.intMax)
    (hl : c.Legal A.szMod (arrCells b o sb so cap) h)
    (e : ACall.run (sem A X prog (cap + n + 3)) b o h c = .ok (out, h'))
    (hs : out = (ACall.spec b o A.szMod cap l c).1) :
    ∀ eb eo, c.writes eb eo → h'.at eb eo = match out.elem with
      | some v => some v
      | none => h.at eb eo := by
  intro eb eo hw
  cases c <;> simp only [ACall.writes] at hw
  all_goals obtain ⟨rfl, rfl⟩ := hw
  · have w : OutVar h b o sb so cap eb eo := ⟨hl.1, hl.2.1, hl.2.2⟩
    have e1 := src_arr_pop (A := A) (X := X) (cap + n + 1) q hc w
    by_cases h0 : 0 < l.length
    · rw [dif_pos h0] at e1
      simp only [ACall.run, e1, C.ok_bind] at e
      cases e
      simp only [ACall.spec, getLast?_of_pos h0] at hs
      rw [if_pos trivial, QOut.mk.injEq] at hs
      simp [hs.2]
    · rw [dif_neg h0] at e1
      simp only [ACall.run, e1, C.ok_bind] at e
      cases e
      simp
  · have w : OutVar h b o sb so cap eb eo := ⟨hl.1, hl.2.1, hl.2.2⟩
    have e1 := src_arr_peek (A := A) (X := X) (cap + n + 1) q hc w
    by_cases h0 : 0 < l.length
    · rw [dif_pos h0] at e1
      simp only [ACall.run, e1, C.ok_bind] at e
      cases e
      simp only [ACall.spec, getLast?_of_pos h0] at hs
      rw [if_pos trivial, QOut.mk.injEq] at hs
      simp [hs.2]
    · rw [dif_neg h0] at e1
      simp only [ACall.run, e1, C.ok_bind] at e
      cases e
      simp
  · rename_i i
    have w : OutVar h b o sb so cap eb eo := ⟨hl.1.1, hl.1.2.1, hl.1.2.2⟩
    have e1 := src_arr_ref (A := A) (X := X) (cap + n + 2) q hc w hl.2
    by_cases h0 : i < l.length
    · rw [dif_pos h0] at e1
      simp only [ACall.run, e1, C.ok_bind] at e
      cases e
      simp only [ACall.spec, List.getElem?_eq_getElem h0] at hs
      rw [if_pos trivial, QOut.mk.injEq] at hs
      simp [hs.2]
    · rw [dif_neg h0] at e1
      simp only [ACall.run, e1, C.ok_bind] at e
      cases e
      simp

/-- The cells a call may change besides those of the container. -/
def BoxKind.writes (k : BoxKind) (c : k.Call) (b : Base) (o : Int) : Prop := k.target c = some (b, o)

/-- A call. -/
theorem box_call {N : Nat} {h : Heap} {x : Box} {l : List CVal} (hN : x.cap + 3 ≤ N) (q : x.Rep A h l) (c : x.kind.Call)
    (ha : x.kind.Args A.szMod c)
    (ht : ∀ b o, x.kind.target c = some (b, o) → b.isLit = false ∧ (h.at b o).isSome = true ∧ ¬ x.cells b o) :
    ∃ h', x.kind.run (sem A X prog N) x.b x.o h c = .ok ((x.kind.spec x.b x.o A.szMod x.cap l c).1, h') ∧
      x.Rep A h' (x.kind.spec x.b x.o A.szMod x.cap l c).2 ∧
      Heap.Only (fun b o => x.cells b o ∨ x.kind.target c = some (b, o)) h h' ∧
      ∀ b o, x.kind.target c = some (b, o) →
        h'.at b o = match (x.kind.spec x.b x.o A.szMod x.cap l c).1.elem with
          | some v => some v
          | none => h.at b o := by
  rcases x with ⟨k, b, o, sb, so, cap⟩
  simp only at hN
  obtain ⟨n, rfl⟩ : ∃ n, N = cap + n + 3 := ⟨N - (cap + 3), by omega⟩
  cases k with
  | queue =>
    obtain ⟨a0, m, l', a, a1, a2, a3, a4, a5⟩ := q
    simp only at a0 a a2 a3 a4
    subst a2; subst a3
    have hl : QCall.Legal (queueCells b o sb so m.capacity) h c := by
      cases c <;> first | exact ha | exact ht _ _ rfl | trivial
    obtain ⟨h', m', l'', e, q', r', el, ec, es, hu, o1⟩ :=
      src_queue_call (A := A) (X := X) (m.capacity + n) a a1 a4 a0 a5 c hl
    have hw : ∀ eb eo, BoxKind.target .queue c = some (eb, eo) ↔ QCall.writes c eb eo := by
      intro eb eo
      cases c <;> simp [BoxKind.target, QCall.writes, eq_comm]
    refine ⟨h', e, ⟨a0, m', l'', q', r', el, ec, es, hu⟩,
      o1.mono fun _ _ hx => hx.imp id (hw _ _).mpr, fun b' o' hx => ?_⟩
    have hx' := (hw _ _).mp hx
    have := qrun_elem e _ _ hx'
    rw [this]
    show (QCall.spec b o m.capacity (l'.map code) c).1.elem = match (QCall.spec b o m.capacity (l'.map code) c).1.elem with
      | some v => some v
      | none => h.at b' o'
    cases c <;> simp only [QCall.writes] at hx' <;> simp only [QCall.spec] <;> split <;> rfl
  | mqueue =>
    obtain ⟨a0, ix, a⟩ := q
    have hl : QCall.Legal (mqueueCells b o sb so cap) h c := by
      cases c <;> first | exact ha | exact ht _ _ rfl | trivial
    obtain ⟨h', ix', m, hm, q', o1, el, e⟩ := src_mq_call (A := A) (X := X) (cap + n) a a0 trivial trivial c hl
    have hn : QCall.wakes cap l .null .null c = .null := by
      cases c <;> simp only [QCall.wakes] <;> split <;> rfl
    rw [hn] at e
    have hw : ∀ eb eo, BoxKind.target .mqueue c = some (eb, eo) ↔ QCall.writes c eb eo := by
      intro eb eo
      cases c <;> simp [BoxKind.target, QCall.writes, eq_comm]
    refine ⟨h', ?_, ⟨a0, ix', q'⟩, o1.mono fun _ _ hx => hx.imp id (hw _ _).mpr, fun b' o' hx => ?_⟩
    · show QCall.mrun _ b o h c = .ok ((QCall.spec b o cap l c).1, h')
      rw [e]
      show (Except.ok _ : C _) = _
      congr 2
      cases c <;> simp only [QCall.spec] <;> try rfl
      all_goals try (split <;> rfl)
      all_goals
        rename_i eb eo
        have := el eb eo ⟨rfl, rfl⟩
        rw [this]
        simp only [QCall.spec]
    · have hx' := (hw _ _).mp hx
      rw [el _ _ hx']
      show (QCall.spec b o cap l c).1.elem = match (QCall.spec b o cap l c).1.elem with
        | some v => some v
        | none => h.at b' o'
      cases c <;> simp only [QCall.writes] at hx' <;> simp only [QCall.spec] <;> split <;> rfl
  | spsc =>
    obtain ⟨m, d, l', a, a1, a2, a4, a5⟩ := q
    simp only at a a1 a2 a4
    subst a2
    have hl : SCall.Legal (spscCells b o sb so cap) h c := by
      cases c <;> first | exact ha | exact ht _ _ rfl | trivial
    obtain ⟨h', m', d', l'', e, q', r', el, es, hu, o1⟩ :=
      src_spsc_call (A := A) (X := X) (cap + n + 2) a a1 a4 a5 c hl
    have hw : ∀ eb eo, BoxKind.target .spsc c = some (eb, eo) ↔ SCall.writes c eb eo := by
      intro eb eo
      cases c <;> simp [BoxKind.target, SCall.writes, eq_comm]
    refine ⟨h', ?_, ⟨m', d', l'', q', r', el, es, hu⟩,
      o1.mono fun _ _ hx => hx.imp id (hw _ _).mpr, fun b' o' hx => ?_⟩
    · show (do
        let (r, h) ← SCall.run (sem A X prog (cap + n + 3)) b o h c
        .ok (⟨r.ret, r.item⟩, h) : C (QOut × Heap)) = _
      rw [e]; rfl
    · have hx' := (hw _ _).mp hx
      rw [srun_elem e _ _ hx']
      show (SCall.spec cap (l'.map code) c).1.item = match (SCall.spec cap (l'.map code) c).1.item with
        | some v => some v
        | none => h.at b' o'
      cases c <;> simp only [SCall.writes] at hx' <;> simp only [SCall.spec] <;> split <;> rfl
  | array =>
    obtain ⟨a0, a⟩ := q
    have hl : ACall.Legal A.szMod (arrCells b o sb so cap) h c := by
      cases c <;> first | exact ha | exact ht _ _ rfl | exact ⟨ht _ _ rfl, ha⟩ | trivial
    obtain ⟨h', e, q', o1⟩ := src_acall (A := A) (X := X) n a a0 c hl
    have hw : ∀ eb eo, BoxKind.target .array c = some (eb, eo) ↔ ACall.writes c eb eo := by
      intro eb eo
      cases c <;> simp [BoxKind.target, ACall.writes, eq_comm]
    refine ⟨h', e, ⟨a0, q'⟩, o1.mono fun _ _ hx => hx.imp id (hw _ _).mpr, fun b' o' hx => ?_⟩
    exact arun_elem n a a0 hl e rfl _ _ ((hw _ _).mp hx)

end Mu.CS
