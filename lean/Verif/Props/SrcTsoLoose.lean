import Verif.Props.SrcTso

/-! # C139: the order of the two stores of `mu_spsc_put` matters

`head` and `tail` of a `mu_spsc_t` are `volatile`, the items are not: C does not oblige a compiler to keep the store of the item before
the store of `tail`, and there are processors that do not keep it either.  Here is the machine of Spec/SrcTso.lean, except that a store
of the producer may reach memory before an earlier one to another cell; and an execution of it in which the consumer receives what
was never put. -/

namespace Mu.CS.Tso

open Conc (Ev Side)

/-- As `Step`, but stores of the producer to different cells may reach memory in any order. -/
inductive Loose (S : Fn → List CVal → Act CVal) (q : Conc.Place) : Sys → List Ev → Sys → Prop
  | step {s s' : Sys} {l : List Ev} : Step S q s l s' → Loose S q s l s'
  | overtake {s : Sys} {b : Base} {o : Int} {x : CVal} {w r : Buf} : s.pb = w ++ (b, o, x) :: r → (∀ y ∈ w, ¬(y.1 = b ∧ y.2.1 = o)) →
      Loose S q s [] { s with h := s.h.upd b o x, pb := w ++ r }

/-- Any number of steps. -/
inductive LooseSteps (S : Fn → List CVal → Act CVal) (q : Conc.Place) : Sys → List Ev → Sys → Prop
  | nil (s : Sys) : LooseSteps S q s [] s
  | snoc {s s1 s2 : Sys} {l l' : List Ev} : LooseSteps S q s l s1 → Loose S q s1 l' s2 → LooseSteps S q s (l ++ l') s2

variable {S : Fn → List CVal → Act CVal} {q : Conc.Place} {s0 s s' t t' : Sys}

theorem Steps.loose {l : List Ev} (hs : Steps S q s0 l s) : LooseSteps S q s0 l s := by
  induction hs with
  | nil => exact .nil _
  | snoc _ st ih => exact ih.snoc (.step st)

/-- The consumer's part of two states is the same. -/
structure SameC (s t : Sys) : Prop where
  h : s.h = t.h
  c : s.c = t.c
  cb : s.cb = t.cb

/-- The moves of the consumer, but for its buffer. -/
def Move.consumer : Move → Bool
  | .get | .c _ => true
  | _ => false

theorem Move.play_same {m : Move} (hm : m.consumer = true) (k : SameC s t) {l : List Ev} (e : m.play S q t = some (l, t')) :
    ∃ s', m.play S q s = some (l, s') ∧ SameC s' t' ∧ s'.p = s.p ∧ s'.pb = s.pb := by
  obtain ⟨h, p, pb, c, cb⟩ := s
  obtain ⟨h', p', pb', c', cb'⟩ := t
  obtain ⟨e1, e2, e3⟩ := k
  simp only at e1 e2 e3
  subst e1 e2 e3
  cases m with
  | get =>
    simp only [Move.play] at e ⊢
    split at e
    · next hc =>
      obtain ⟨rfl, rfl⟩ := Prod.mk.inj (Option.some.inj e)
      rw [if_pos hc]
      exact ⟨_, rfl, ⟨rfl, rfl, rfl⟩, rfl, rfl⟩
    · cases e
  | c b =>
    simp only [Move.play, Sys.cview] at e ⊢
    split at e
    · split at e
      · next x =>
        obtain ⟨rfl, rfl⟩ := Prod.mk.inj (Option.some.inj e)
        exact ⟨_, rfl, ⟨rfl, rfl, rfl⟩, rfl, rfl⟩
      · next x =>
        obtain ⟨rfl, rfl⟩ := Prod.mk.inj (Option.some.inj e)
        exact ⟨_, rfl, ⟨rfl, rfl, rfl⟩, rfl, rfl⟩
      · cases e
    · obtain ⟨rfl, rfl⟩ := Prod.mk.inj (Option.some.inj e); exact ⟨_, rfl, ⟨rfl, rfl, rfl⟩, rfl, rfl⟩
    · obtain ⟨rfl, rfl⟩ := Prod.mk.inj (Option.some.inj e); exact ⟨_, rfl, ⟨rfl, rfl, rfl⟩, rfl, rfl⟩
    · cases e
  | _ => cases hm

/-- What the consumer does in one state it can do in the other. -/
theorem plays_same (hq : ¬ q.cells (.obj 2) 0) {t0 : Sys} (fine : ∀ l s, Steps S q t0 l s → s.Fine) :
    ∀ (ms : List Move), (∀ m ∈ ms, m.consumer = true) → ∀ {l l1 l2 : List Ev} {s t t' : Sys}, SameC s t → s.p = none →
      Steps S q t0 l1 t → plays S q l1 t ms = some (l1 ++ l2, t') → LooseSteps S q s0 l s →
      ∃ s', LooseSteps S q s0 (l ++ l2) s' ∧ SameC s' t' ∧ s'.pb = s.pb := by
  intro ms
  induction ms with
  | nil =>
    intro _ l l1 l2 s t t' k hp hs e hl
    obtain ⟨e1, rfl⟩ := Prod.mk.inj (Option.some.inj e)
    have : l2 = [] := by simpa using e1
    subst this
    exact ⟨s, by simpa using hl, k, rfl⟩
  | cons m ms ih =>
    intro hm l l1 l2 s t t' k hp hs e hl
    simp only [plays] at e
    split at e
    · next l3 t1 h1 =>
      obtain ⟨s1, e1, k1, p1, b1⟩ := Move.play_same (hm m (by simp)) k h1
      have f := fine _ _ hs
      have fs : s.Fine := by
        refine ⟨fun x hx => (by rw [hp] at hx; cases hx), ?_⟩
        have f2 := f.2
        simp only [Sys.cview, k.h, k.c, k.cb] at f2 ⊢
        exact f2
      obtain ⟨l4, rfl⟩ : ∃ l4, l2 = l3 ++ l4 := by
        have pre : ∀ (ms : List Move) {l l' : List Ev} {s s' : Sys}, plays S q l s ms = some (l', s') → ∃ l4, l' = l ++ l4 := by
          intro ms
          induction ms with
          | nil =>
            intro l l' s s' e
            obtain ⟨rfl, rfl⟩ := Prod.mk.inj (Option.some.inj e)
            exact ⟨[], by simp⟩
          | cons m ms ih =>
            intro l l' s s' e
            simp only [plays] at e
            split at e
            · next l3 t1 h1 =>
              obtain ⟨l4, rfl⟩ := ih e
              exact ⟨l3 ++ l4, by simp⟩
            · cases e
        obtain ⟨l4, x⟩ := pre ms e
        rw [List.append_assoc] at x
        exact ⟨l4, List.append_cancel_left x⟩
      obtain ⟨s', g1, g2, g3⟩ := ih (fun m hm' => hm m (by simp [hm'])) k1 (p1.trans hp) (hs.snoc (Move.play_step hq f h1))
        (by simpa using e) (hl.snoc (.step (Move.play_step hq fs e1)))
      exact ⟨s', by simpa using g1, g2, g3.trans b1⟩
    · cases e

theorem upd_same {h : Heap} {b : Base} {o : Int} {x : CVal} (hl : b.isLit = false) (e : h.at b o = some x) : h.upd b o x = h := by
  unfold Heap.upd
  split
  · next ho =>
    obtain ⟨m, n⟩ := h
    simp only [Heap.put, Heap.mk.injEq, and_true]
    funext b'
    split
    · next hb =>
      subst hb
      have : (m b')[o.toNat]? = some x := by
        unfold Heap.at at e
        rw [if_pos ho] at e
        cases b' with
        | lit => cases hl
        | _ => exact e
      obtain ⟨h1, rfl⟩ := List.getElem?_eq_some_iff.mp this
      exact List.set_getElem_self h1
    · rfl
  · rfl

/-- Memory in which the place of the first item happens to hold 9. -/
def looseDemo : Heap where
  mem
    | .obj 0 => List.replicate 4 .undef
    | .obj 1 => .int 9 :: List.replicate 3 .undef
    | .obj 2 => [.int 77]
    | _ => []
  next := 3

/-- The producer puts an item. -/
def looseMoves (v : CVal) : List Move := [.put v] ++ List.replicate 15 (.p true)

/-- **C139, the order of the stores**: if the store of `tail` may reach memory before the store of the item, then a program in which 5 is
the only item ever put into a queue can receive 9: `mu_spsc_put` with 5 answers OK, and so does `mu_spsc_get`, with 9. -/
theorem C139_order_matters : ∃ h1 s, sem Arch.w16 ⟨Conc.concExt.fn, fun _ _ _ _ => .error .ptr⟩ prog 2 .mu_spsc_init looseDemo
      [.ptr (.obj 0) 0, .ptr (.obj 1) 0, .int 4] = .ok (.int 0, h1) ∧
    LooseSteps (semA Arch.w16 Conc.concExt prog 1) Conc.concPlace ⟨h1, none, [], none, []⟩
      [.call .producer (.put (.int 5)), .ret .producer ⟨.int 0, none⟩, .call .consumer (.get (.obj 2) 0), .ret .consumer ⟨.int 0, some (.int 9)⟩] s := by
  have hq : ¬ Conc.concPlace.cells (.obj 2) 0 := by simp [Conc.concPlace, Conc.Place.cells, spscCells]
  obtain ⟨h1, e1, k⟩ := C139_fifo Arch.w16 ⟨Conc.concExt.fn, fun _ _ _ _ => .error .ptr⟩ Conc.concExt 0 0 Conc.concPlace looseDemo rfl rfl (by decide)
    ⟨2, rfl⟩ (by decide) (by intro k hk; match k, hk with | 0, _ => rfl | 1, _ => rfl | 2, _ => rfl | 3, _ => rfl)
    (by intro k hk; match k, hk with | 0, _ => rfl | 1, _ => rfl | 2, _ => rfl | 3, _ => rfl) (by intro i _ k _ h; cases h.1)
  have fine := fun l s hs => (k l s hs).2.2
  have hx : h1.at (.obj 1) 0 = some (.int 9) := by
    obtain rfl := (Prod.mk.inj (Except.ok.inj (e1.symm.trans rfl))).2
    rfl
  -- 5 is put
  obtain ⟨sA, pA, a1, a2, a3, a4, a5⟩ : ∃ s, plays (semA Arch.w16 Conc.concExt prog 1) Conc.concPlace [] ⟨h1, none, [], none, []⟩ (looseMoves (.int 5)) =
      some ([.call .producer (.put (.int 5)), .ret .producer ⟨.int 0, none⟩], s) ∧ s.p = none ∧ s.pb = [(.obj 1, 0, .int 5)] ++ [(.obj 0, 2, .int 1)] ∧
        s.h = h1 ∧ s.c = none ∧ s.cb = [] := by
    obtain rfl := (Prod.mk.inj (Except.ok.inj (e1.symm.trans rfl))).2
    exact ⟨_, rfl, rfl, rfl, rfl, rfl, rfl⟩
  -- in another execution, 9 is put
  obtain ⟨sB, pB, b1, b2, b3⟩ : ∃ s, plays (semA Arch.w16 Conc.concExt prog 1) Conc.concPlace [] ⟨h1, none, [], none, []⟩ (looseMoves (.int 9) ++ [.pf, .pf]) =
      some ([.call .producer (.put (.int 9)), .ret .producer ⟨.int 0, none⟩], s) ∧
        s.h = (h1.upd (.obj 1) 0 (.int 9)).upd (.obj 0) 2 (.int 1) ∧ s.c = none ∧ s.cb = [] := by
    obtain rfl := (Prod.mk.inj (Except.ok.inj (e1.symm.trans rfl))).2
    exact ⟨_, rfl, rfl, rfl, rfl⟩
  -- and taken out
  obtain ⟨sC, pC⟩ : ∃ s, plays (semA Arch.w16 Conc.concExt prog 1) Conc.concPlace [.call .producer (.put (.int 9)), .ret .producer ⟨.int 0, none⟩] sB
      ([.get] ++ List.replicate 17 (.c true)) = some ([.call .producer (.put (.int 9)), .ret .producer ⟨.int 0, none⟩] ++
        [.call .consumer (.get (.obj 2) 0), .ret .consumer ⟨.int 0, some (.int 9)⟩], s) := by
    obtain rfl := (Prod.mk.inj (Except.ok.inj (e1.symm.trans rfl))).2
    obtain rfl := (Prod.mk.inj (Option.some.inj (pB.symm.trans rfl))).2
    exact ⟨_, rfl⟩
  -- in the first execution `tail` overtakes 5
  have a := (plays_steps hq fine (looseMoves (.int 5)) (.nil _) pA).loose.snoc (.overtake (w := [(.obj 1, 0, .int 5)]) (r := []) a2 (by simp))
  obtain ⟨s', g, -⟩ := plays_same hq fine ([.get] ++ List.replicate 17 (.c true)) (by simp [Move.consumer])
    (s := { sA with h := sA.h.upd (.obj 0) 2 (.int 1), pb := [(.obj 1, 0, .int 5)] ++ [] }) (by
      refine ⟨?_, a4.trans b2.symm, a5.trans b3.symm⟩
      simp only [a3, b1]
      rw [upd_same rfl hx]) a1 (plays_steps hq fine _ (.nil _) pB) pC a
  exact ⟨h1, s', e1, g⟩

end Mu.CS.Tso
