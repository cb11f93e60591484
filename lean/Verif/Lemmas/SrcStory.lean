import Verif.Lemmas.SrcIsrEnv
import Verif.Spec.SrcStory
import Verif.Spec.SrcIsr
import Mathlib.Data.List.Induction

/-! # Logs that the scheduler explains are orderly -/

namespace Mu.CS.Story

variable {K : CVal → Kind} {prec : CVal → CVal → Bool} {off : CVal → CVal → CVal} {L : List Seen} {e : Seen} {t T : CVal} {n : Nat}

/-! ## Logs that grow -/

theorem DeferredAt.lt (h : DeferredAt off L n t T) : n < L.length := by
  have : L[n]? ≠ none := by
    rcases h with h | ⟨d, h, -⟩ <;> simp [h]
  rcases Nat.lt_or_ge n L.length with h | h
  · exact h
  · exact absurd (List.getElem?_eq_none h) this

theorem deferredAt_old (h : n < L.length) : DeferredAt off (L ++ [e]) n t T ↔ DeferredAt off L n t T := by
  simp only [DeferredAt, List.getElem?_append_left h, List.take_append_of_le_length (Nat.le_of_lt h)]

theorem deferredAt_new : DeferredAt off (L ++ [e]) L.length t T ↔
    e = .did (.deferUntil t T) (.int 0) ∨ ∃ d, e = .did (.deferFor t d) (.int 0) ∧ T = off (lastClock L) d := by
  simp [DeferredAt]

theorem getElem?_snoc (L : List Seen) (e : Seen) (m : Nat) (x : Seen) :
    (L ++ [e])[m]? = some x ↔ L[m]? = some x ∨ m = L.length ∧ e = x := by
  rcases Nat.lt_trichotomy m L.length with h | rfl | h
  · simp [List.getElem?_append_left h, Nat.ne_of_lt h]
  · simp
  · rw [List.getElem?_eq_none (by simp; omega), List.getElem?_eq_none (by omega)]
    simp
    omega

theorem kept_snoc (h : n < L.length) : Kept (L ++ [e]) n t ↔ Kept L n t ∧ e.dropped t = false := by
  simp only [Kept, getElem?_snoc]
  constructor
  · intro k
    exact ⟨fun m hm x hx => k m hm x (.inl hx), k L.length h e (.inr ⟨rfl, rfl⟩)⟩
  · rintro ⟨k1, k2⟩ m hm x (hx | ⟨-, rfl⟩)
    · exact k1 m hm x hx
    · exact k2

theorem kept_new : Kept (L ++ [e]) L.length t := by
  intro m hm x hx
  rw [List.getElem?_eq_none (by simp; omega)] at hx
  cases hx

theorem pending_old (h : n < L.length) : Pending off (L ++ [e]) n t T ↔
    Pending off L n t T ∧ e.dropped t = false ∧ e ≠ .called t := by
  simp only [Pending, deferredAt_old h, kept_snoc h, ne_eq, getElem?_snoc]
  constructor
  · rintro ⟨k1, ⟨k2, k3⟩, k4⟩
    exact ⟨⟨k1, k2, fun m hm hx => k4 m hm (.inl hx)⟩, k3, fun hx => k4 _ h (.inr ⟨rfl, hx⟩)⟩
  · rintro ⟨⟨k1, k2, k3⟩, k4, k5⟩
    refine ⟨k1, ⟨k2, k4⟩, fun m hm hx => ?_⟩
    rcases hx with hx | ⟨-, hx⟩
    · exact k3 m hm hx
    · exact k5 hx

theorem pending_cases (h : Pending off (L ++ [e]) n t T) : (Pending off L n t T ∧ e.dropped t = false ∧ e ≠ .called t) ∨
    n = L.length ∧ (e = .did (.deferUntil t T) (.int 0) ∨ ∃ d, e = .did (.deferFor t d) (.int 0) ∧ T = off (lastClock L) d) := by
  rcases Nat.lt_or_ge n L.length with hn | hn
  · exact .inl ((pending_old hn).1 h)
  · have := h.1.lt
    have hn : n = L.length := by simp at this; omega
    subst hn
    exact .inr ⟨rfl, deferredAt_new.1 h.1⟩

theorem not_looking_nil (P : List Seen) : ¬ Looking P [] := by
  rintro ⟨M, h, -⟩
  simp at h

theorem looking_snoc (P : List Seen) : Looking P (L ++ [e]) ↔ (P = L ∧ e = .step) ∨ (Looking P L ∧ quiet e = true) := by
  constructor
  · rintro ⟨M, h, q⟩
    rcases List.eq_nil_or_concat M with rfl | ⟨M', x, rfl⟩
    · obtain ⟨h1, h2⟩ := List.append_inj' h rfl
      exact .inl ⟨h1.symm, by simpa using h2⟩
    · have h' : L ++ [e] = (P ++ .step :: M') ++ [x] := by simpa using h
      obtain ⟨h1, h2⟩ := List.append_inj' h' rfl
      obtain rfl : e = x := by simpa using h2
      exact .inr ⟨⟨M', h1, fun y hy => q y (by simp [hy])⟩, q e (by simp)⟩
  · rintro (⟨rfl, rfl⟩ | ⟨⟨M, rfl, q⟩, hq⟩)
    · exact ⟨[], rfl, by simp⟩
    · refine ⟨M ++ [e], by simp, ?_⟩
      intro y hy
      rcases List.mem_append.1 hy with hy | hy
      · exact q y hy
      · obtain rfl : y = e := by simpa using hy
        exact hq

theorem looking_unique {P P' : List Seen} (h : Looking P L) (h' : Looking P' L) : P = P' := by
  induction L using List.reverseRecOn with
  | nil => exact absurd h (not_looking_nil _)
  | append_singleton L e ih =>
    rw [looking_snoc] at h h'
    rcases h with ⟨rfl, rfl⟩ | ⟨h, q⟩ <;> rcases h' with ⟨rfl, h2⟩ | ⟨h', q'⟩
    · rfl
    · simp [quiet] at q'
    · subst h2; simp [quiet] at q
    · exact ih h h'

/-! ## Deferred tasks -/

/-- In the order in which they are to be called. -/
def Before (prec : CVal → CVal → Bool) (a b : Nat × Due) : Prop :=
  prec a.2.time b.2.time = true ∨ prec b.2.time a.2.time = false ∧ a.1 < b.1

/-- `W` are the deferred tasks that wait, with the entries at which they were deferred. -/
structure Wait (K : CVal → Kind) (prec : CVal → CVal → Bool) (off : CVal → CVal → CVal) (L : List Seen) (W : List (Nat × Due)) :
    Prop where
  sorted : W.Pairwise (Before prec)
  at_ : ∀ x ∈ W, DeferredAt off L x.1 x.2.task x.2.time ∧ Kept L x.1 x.2.task ∧ K x.2.task = .due ∧ x.2.task ≠ .null
  all : ∀ n t T, Pending off L n t T → (n, ⟨T, t⟩) ∈ W
  bag : (bag L).Perm (W.map (·.2.task))

variable {W : List (Nat × Due)}

theorem Wait.first {x : Nat × Due} (w : Wait K prec off L (x :: W)) : First prec off L x.1 x.2.task x.2.time := by
  obtain ⟨h1, h2, -⟩ := w.at_ x (by simp)
  refine ⟨h1, h2, fun m u T' hp hm => ?_⟩
  rcases List.mem_cons.1 (w.all m u T' hp) with h | h
  · subst h; exact absurd rfl hm
  · exact List.rel_of_pairwise_cons w.sorted h

theorem Time.snoc (h : Time off L T) (e : Seen) : Time off (L ++ [e]) T := by
  rcases h with h | ⟨n, t, h⟩
  · exact .inl (by simp [h])
  · exact .inr ⟨n, t, (deferredAt_old h.lt).2 h⟩

theorem Time.prefix (h : Time off L T) (Q : List Seen) : Time off (L ++ Q) T := by
  induction Q using List.reverseRecOn with
  | nil => simpa using h
  | append_singleton Q e ih => rw [← List.append_assoc]; exact ih.snoc e

/-- Nothing about deferred tasks. -/
theorem Wait.same (w : Wait K prec off L W) (h1 : ∀ t, e.dropped t = false) (h2 : Story.bag (L ++ [e]) = Story.bag L)
    (h3 : ∀ t T, e ≠ .did (.deferUntil t T) (.int 0)) (h4 : ∀ t T, e ≠ .did (.deferFor t T) (.int 0)) : Wait K prec off (L ++ [e]) W where
  sorted := w.sorted
  at_ x hx := by
    obtain ⟨k1, k2, k3⟩ := w.at_ x hx
    exact ⟨(deferredAt_old k1.lt).2 k1, (kept_snoc k1.lt).2 ⟨k2, h1 _⟩, k3⟩
  all n t T h := by
    rcases pending_cases h with ⟨h, -⟩ | ⟨-, h | ⟨d, h, -⟩⟩
    · exact w.all n t T h
    · exact absurd h (h3 _ _)
    · exact absurd h (h4 _ _)
  bag := h2 ▸ w.bag

theorem bag_called : Story.bag (L ++ [.called t]) = (Story.bag L).erase t := by simp [Story.bag]

/-- A task of another kind is called. -/
theorem Wait.other (w : Wait K prec off L W) (hk : K t ≠ .due) : Wait K prec off (L ++ [.called t]) W := by
  refine w.same (fun _ => rfl) ?_ (by simp) (by simp)
  rw [bag_called]
  refine List.erase_of_not_mem fun h => ?_
  obtain ⟨x, hx, h⟩ := List.mem_map.1 (w.bag.mem_iff.1 h)
  exact hk (h ▸ (w.at_ x hx).2.2.1)

/-- The first deferred task is called. -/
theorem Wait.call {x : Nat × Due} (w : Wait K prec off L (x :: W)) : Wait K prec off (L ++ [.called x.2.task]) W where
  sorted := w.sorted.of_cons
  at_ y hy := by
    obtain ⟨k1, k2, k3⟩ := w.at_ y (by simp [hy])
    exact ⟨(deferredAt_old k1.lt).2 k1, (kept_snoc k1.lt).2 ⟨k2, rfl⟩, k3⟩
  all n t T h := by
    rcases pending_cases h with ⟨h, -, h'⟩ | ⟨-, h | ⟨d, h, -⟩⟩
    · rcases List.mem_cons.1 (w.all n t T h) with h | h
      · subst h; exact absurd rfl h'
      · exact h
    · cases h
    · cases h
  bag := by
    rw [bag_called]
    have := w.bag.erase x.2.task
    simpa using this

/-- Where a deferral goes. -/
def ins (prec : CVal → CVal → Bool) (x : Nat × Due) : List (Nat × Due) → List (Nat × Due)
  | [] => [x]
  | y :: l => if prec x.2.time y.2.time then x :: y :: l else y :: ins prec x l

theorem ins_map (x : Nat × Due) : (ins prec x W).map (·.2) = insertDue prec x.2 (W.map (·.2)) := by
  induction W with
  | nil => rfl
  | cons y l ih =>
    simp only [ins, List.map_cons, insertDue]
    split
    · rfl
    · simp [ih]

theorem ins_perm (x : Nat × Due) : (ins prec x W).Perm (x :: W) := by
  induction W with
  | nil => exact .refl _
  | cons y l ih =>
    simp only [ins]
    split
    · exact .refl _
    · exact (ih.cons y).trans (.swap x y l)

theorem ins_sorted {x : Nat × Due} {S : CVal → Prop} (hw : WeakOn prec S) (hx : S x.2.time) (hW : ∀ y ∈ W, S y.2.time)
    (hn : ∀ y ∈ W, y.1 < x.1) (h : W.Pairwise (Before prec)) : (ins prec x W).Pairwise (Before prec) := by
  induction W with
  | nil => simp [ins]
  | cons y l ih =>
    obtain ⟨h1, h2⟩ := List.pairwise_cons.1 h
    simp only [ins]
    split
    · rename_i hp
      refine List.pairwise_cons.2 ⟨?_, h⟩
      intro z hz
      rcases List.mem_cons.1 hz with rfl | hz
      · exact .inl hp
      · left
        rcases (hw _ _ z.2.time hx (hW y (by simp)) (hW z (by simp [hz])) hp).2 with k | k
        · exact k
        · rcases h1 z hz with k' | ⟨k', -⟩
          · have := (hw _ _ y.2.time (hW y (by simp)) (hW z (by simp [hz])) (hW y (by simp)) k').1
            rw [k] at this; cases this
          · rw [k] at k'; cases k'
    · rename_i hp
      refine List.pairwise_cons.2 ⟨?_, ih (fun z hz => hW z (by simp [hz])) (fun z hz => hn z (by simp [hz])) h2⟩
      intro z hz
      rcases List.mem_cons.1 ((ins_perm x).mem_iff.1 hz) with rfl | hz
      · exact .inr ⟨by simpa using hp, hn y (by simp)⟩
      · exact h1 z hz

/-- A task is deferred. -/
theorem Wait.defer (w : Wait K prec off L W) (hw : WeakOn prec (Time off (L ++ [e])))
    (he : e = .did (.deferUntil t T) (.int 0) ∨ ∃ d, e = .did (.deferFor t d) (.int 0) ∧ T = off (lastClock L) d)
    (hk : K t = .due) (ht : t ≠ .null) : Wait K prec off (L ++ [e]) (ins prec (L.length, ⟨T, t⟩) W) := by
  have hd : ∀ u, e.dropped u = false := by rcases he with rfl | ⟨d, rfl, -⟩ <;> exact fun _ => rfl
  have hb : Story.bag (L ++ [e]) = t :: Story.bag L := by rcases he with rfl | ⟨d, rfl, -⟩ <;> simp [Story.bag]
  have new : DeferredAt off (L ++ [e]) L.length t T := deferredAt_new.2 he
  have old : ∀ x ∈ W, DeferredAt off (L ++ [e]) x.1 x.2.task x.2.time := fun x hx =>
    (deferredAt_old (w.at_ x hx).1.lt).2 (w.at_ x hx).1
  refine ⟨ins_sorted hw (.inr ⟨_, _, new⟩) (fun x hx => .inr ⟨_, _, old x hx⟩) (fun x hx => (w.at_ x hx).1.lt) w.sorted, ?_, ?_, ?_⟩
  · intro x hx
    rcases List.mem_cons.1 ((ins_perm _).mem_iff.1 hx) with rfl | hx
    · exact ⟨new, kept_new, hk, ht⟩
    · obtain ⟨k1, k2, k3⟩ := w.at_ x hx
      exact ⟨old x hx, (kept_snoc k1.lt).2 ⟨k2, hd _⟩, k3⟩
  · intro m u T' h
    rw [(ins_perm _).mem_iff, List.mem_cons]
    rcases pending_cases h with ⟨k, -⟩ | ⟨k0, k⟩
    · exact .inr (w.all m u T' k)
    · left
      clear h
      rcases he with rfl | ⟨d, rfl, rfl⟩ <;> rcases k with k | ⟨d', k, rfl⟩ <;> cases k <;> rw [k0]
  · rw [hb]
    exact ((w.bag.cons t).trans (by simp)).trans ((ins_perm _).map _).symm

/-- A task is removed. -/
theorem Wait.remove (w : Wait K prec off L W) (r : CVal) :
    Wait K prec off (L ++ [.did (.remove t) r]) (W.filter (fun x => x.2.task ≠ t)) where
  sorted := w.sorted.filter _
  at_ x hx := by
    obtain ⟨hx, h⟩ := List.mem_filter.1 hx
    obtain ⟨k1, k2, k3⟩ := w.at_ x hx
    refine ⟨(deferredAt_old k1.lt).2 k1, (kept_snoc k1.lt).2 ⟨k2, ?_⟩, k3⟩
    have h : x.2.task ≠ t := by simpa using h
    exact decide_eq_false h.symm
  all n u T h := by
    rcases pending_cases h with ⟨h, h', -⟩ | ⟨-, h | ⟨d, h, -⟩⟩
    · have h' : t ≠ u := by simpa [Seen.dropped] using h'
      exact List.mem_filter.2 ⟨w.all n u T h, by simpa using h'.symm⟩
    · cases h
    · cases h
  bag := by
    have : Story.bag (L ++ [.did (.remove t) r]) = (Story.bag L).filter (· ≠ t) := by simp [Story.bag]
    rw [this]
    refine (w.bag.filter _).trans ?_
    rw [List.filter_map]
    exact .refl _

/-- The scheduler is reset. -/
theorem Wait.reset (r : CVal) : Wait K prec off (L ++ [.did .reset r]) [] where
  sorted := .nil
  at_ := by simp
  all n u T h := by
    rcases pending_cases h with ⟨h, h', -⟩ | ⟨-, h | ⟨d, h, -⟩⟩
    · simp [Seen.dropped] at h'
    · cases h
    · cases h
  bag := by simp [Story.bag]

theorem Wait.nil : Wait K prec off [] [] where
  sorted := .nil
  at_ := by simp
  all n u T h := absurd h.1.lt (by simp)
  bag := by simp [Story.bag]

/-- If the first is not due, none is. -/
theorem Wait.noDue {x : Nat × Due} (w : Wait K prec off L (x :: W)) (hw : WeakOn prec (Time off L)) (hc : .clock (lastClock L) ∈ L)
    (h : prec (lastClock L) x.2.time = true) : NoDue prec off L := by
  intro n u T hp
  rcases List.mem_cons.1 (w.all n u T hp) with hx | hx
  · subst hx; exact h
  · have hy := List.rel_of_pairwise_cons w.sorted hx
    have tx : Time off L x.2.time := .inr ⟨_, _, (w.at_ x (by simp)).1⟩
    have ty : Time off L T := .inr ⟨_, _, hp.1⟩
    rcases (hw _ _ T (.inl hc) tx ty h).2 with k | k
    · exact k
    · rcases hy with k' | ⟨k', -⟩
      · have := (hw _ _ T tx ty ty k').1
        rw [k] at this; cases this
      · rw [k] at k'; cases k'

/-! ## The agenda and the log -/

/-- What the agenda has to do with the log; `pi` and `pm` are an interrupt task and an immediate task that is about to be called. -/
structure Core (K : CVal → Kind) (prec : CVal → CVal → Bool) (off : CVal → CVal → CVal) (L : List Seen) (s : Isr.Replay)
    (pi pm : List CVal) (W : List (Nat × Due)) : Prop where
  irqs : irq L = runs K .irq L ++ (pi ++ s.σ.irq)
  immeds : immed L = runs K .immed L ++ (pm ++ s.σ.immed)
  kirq : ∀ t ∈ s.σ.irq, K t = .irq ∧ t ≠ .null
  kimm : ∀ t ∈ s.σ.immed, K t = .immed ∧ t ≠ .null
  idle : s.σ.idle = lastIdle L
  kidle : s.σ.idle = .null ∨ K s.σ.idle = .idle
  clock : s.clock = lastClock L
  wait : Wait K prec off L W
  nIrq : s.σ.irq.length ≤ 7
  nImm : s.σ.immed.length ≤ 20
  nDue : W.length ≤ 20

/-- The log and the scheduler: user code runs; a step has begun; it has found no interrupt task; it is about to call a task. -/
inductive Inv (K : CVal → Kind) (prec : CVal → CVal → Bool) (off : CVal → CVal → CVal) (L : List Seen) : Isr.Replay → Prop
  | user {s W} : (∀ p ∈ s.steps, p = .running) → Core K prec off L s [] [] W → W.map (·.2) = s.σ.due → s.σ.cur = lastCalled L →
      (∀ P, ¬ Looking P L) → Inv K prec off L s
  | entered {s W l P x y} : s.steps = .entered :: l → (∀ p ∈ l, p = .running) → Core K prec off L s [] [] W →
      W.map (·.2) = s.σ.due → Looking P L → irq P = runs K .irq P ++ x → irq L = irq P ++ y → runs K .irq L = runs K .irq P →
      Inv K prec off L s
  | looking {s W l P} : s.steps = .looking :: l → (∀ p ∈ l, p = .running) → Core K prec off L s [] [] W →
      W.map (·.2) = s.σ.due → Looking P L → NoIrq K P → Inv K prec off L s
  | irq {s W l P t} : s.steps = .chosen t :: l → (∀ p ∈ l, p = .running) → Core K prec off L s [t] [] W →
      W.map (·.2) = s.σ.due → Looking P L → K t = .irq → t ≠ .null → s.σ.cur = t → Inv K prec off L s
  | due {s W l P} {x : Nat × Due} : s.steps = .chosen x.2.task :: l → (∀ p ∈ l, p = .running) → Core K prec off L s [] [] (x :: W) →
      W.map (·.2) = s.σ.due → Looking P L → NoIrq K P → prec s.clock x.2.time = false → s.σ.cur = x.2.task → Inv K prec off L s
  | immed {s W l P t} : s.steps = .chosen t :: l → (∀ p ∈ l, p = .running) → Core K prec off L s [] [t] W →
      W.map (·.2) = s.σ.due → Looking P L → NoIrq K P → K t = .immed → t ≠ .null → NoDue prec off L → s.σ.cur = t → Inv K prec off L s
  | idle {s W l P t} : s.steps = .chosen t :: l → (∀ p ∈ l, p = .running) → Core K prec off L s [] [] W →
      W.map (·.2) = s.σ.due → Looking P L → NoIrq K P → t = s.σ.idle → s.σ.immed = [] → NoDue prec off L → s.σ.cur = t → Inv K prec off L s

variable {s s' : Isr.Replay} {pi pm : List CVal} {r : CVal}

attribute [local simp] Isr.Phase.user

theorem Inv.start : Inv K prec off [] (.start false false) :=
  .user (W := []) (by simp [Isr.Replay.start]) ⟨rfl, rfl, by simp [Isr.Replay.start], by simp [Isr.Replay.start], rfl, .inl rfl, rfl, .nil,
    by simp [Isr.Replay.start], by simp [Isr.Replay.start], by simp⟩ rfl rfl not_looking_nil

/-- An interrupt. -/
theorem Core.isr (c : Core K prec off L s pi pm W) (hk : Keeps K (.did (.fromIsr t) r)) (hr : r = (s.σ.interrupt t).1.val) :
    Core K prec off (L ++ [.did (.fromIsr t) r]) { s with σ := (s.σ.interrupt t).2 } pi pm W := by
  obtain ⟨k1, k2⟩ := hk
  have hw : Wait K prec off (L ++ [.did (.fromIsr t) r]) W := c.wait.same (fun _ => rfl) (by simp [bag]) (by simp) (by simp)
  subst hr
  unfold Agenda.interrupt at *
  split
  · rename_i hl
    simp only [hl, if_true, SErr.val] at hw
    refine ⟨?_, ?_, ?_, c.kimm, ?_, c.kidle, ?_, hw, ?_, c.nImm, c.nDue⟩
    · have := c.irqs
      simp only [irq, runs] at this
      simp [irq, runs, SErr.val, this]
    · have := c.immeds
      simp only [immed, runs] at this
      simp [immed, runs, SErr.val, this]
    · intro u hu
      rcases List.mem_append.1 hu with hu | hu
      · exact c.kirq u hu
      · obtain rfl : u = t := by simpa using hu
        exact ⟨k1, k2⟩
    · have := c.idle
      simp only [lastIdle] at this
      simp [lastIdle, this]
    · have := c.clock
      simp only [lastClock] at this
      simp [lastClock, this]
    · simp; omega
  · rename_i hl
    simp only [hl, if_false, SErr.val] at hw
    refine ⟨?_, ?_, c.kirq, c.kimm, ?_, c.kidle, ?_, hw, c.nIrq, c.nImm, c.nDue⟩
    · have := c.irqs
      simp only [irq, runs] at this
      simp [irq, runs, SErr.val, this]
    · have := c.immeds
      simp only [immed, runs] at this
      simp [immed, runs, SErr.val, this]
    · have := c.idle
      simp only [lastIdle] at this
      simp [lastIdle, this]
    · have := c.clock
      simp only [lastClock] at this
      simp [lastClock, this]

theorem looking_quiet {P : List Seen} (h : Looking P L) (q : quiet e = true) : Looking P (L ++ [e]) := (looking_snoc P).2 (.inr ⟨h, q⟩)

theorem NoDue.isr (h : NoDue prec off L) : NoDue prec off (L ++ [.did (.fromIsr t) r]) := by
  intro n u T hp
  have hc : lastClock (L ++ [.did (.fromIsr t) r]) = lastClock L := by simp [lastClock]
  rw [hc]
  rcases pending_cases hp with ⟨k, -⟩ | ⟨-, k | ⟨d, k, -⟩⟩
  · exact h n u T k
  · cases k
  · cases k

/-- `mu_sched_from_isr` changes nothing but the interrupt queue. -/
theorem interrupt_rest (σ : Agenda) (t : CVal) : (σ.interrupt t).2.due = σ.due ∧ (σ.interrupt t).2.immed = σ.immed ∧
    (σ.interrupt t).2.cur = σ.cur ∧ (σ.interrupt t).2.idle = σ.idle := by
  unfold Agenda.interrupt
  split <;> exact ⟨rfl, rfl, rfl, rfl⟩

theorem Inv.isr (i : Inv K prec off L s) (hk : Keeps K (.did (.fromIsr t) r)) (hr : r = (s.σ.interrupt t).1.val) :
    Inv K prec off (L ++ [.did (.fromIsr t) r]) { s with σ := (s.σ.interrupt t).2 } := by
  obtain ⟨h1, h2, h3, h4⟩ := interrupt_rest s.σ t
  cases i with
  | user a c m u n =>
    refine .user a (c.isr hk hr) (h1 ▸ m) ?_ ?_
    · rw [h3, u]
      simp [lastCalled]
    · intro P hP
      rcases (looking_snoc P).1 hP with ⟨-, h⟩ | ⟨h, -⟩
      · cases h
      · exact n P h
  | @entered W l P x y e a c m k h5 h6 h7 =>
    have h8 : ∃ z, Story.irq (L ++ [.did (.fromIsr t) r]) = Story.irq L ++ z := by
      simp only [Story.irq, List.foldl_append, List.foldl_cons, List.foldl_nil]
      split
      · exact ⟨[_], rfl⟩
      · rename_i h9; cases h9
      · exact ⟨[], by simp⟩
    obtain ⟨z, h8⟩ := h8
    refine .entered (y := y ++ z) e a (c.isr hk hr) (h1 ▸ m) (looking_quiet k rfl) h5 ?_ ?_
    · rw [h8, h6, List.append_assoc]
    · rw [← h7]; simp [runs]
  | looking e a c m k h5 => exact .looking e a (c.isr hk hr) (h1 ▸ m) (looking_quiet k rfl) h5
  | irq e a c m k h5 h6 h7 => exact .irq e a (c.isr hk hr) (h1 ▸ m) (looking_quiet k rfl) h5 h6 (h3 ▸ h7)
  | due e a c m k h5 h6 h7 => exact .due e a (c.isr hk hr) (h1 ▸ m) (looking_quiet k rfl) h5 h6 (h3 ▸ h7)
  | immed e a c m k h5 h6 h7 h8 h9 => exact .immed e a (c.isr hk hr) (h1 ▸ m) (looking_quiet k rfl) h5 h6 h7 h8.isr (h3 ▸ h9)
  | idle e a c m k h5 h6 h7 h8 h9 =>
    exact .idle e a (c.isr hk hr) (h1 ▸ m) (looking_quiet k rfl) h5 (h4 ▸ h6) (h2 ▸ h7) h8.isr (h3 ▸ h9)

/-- What has to be checked when user code calls the scheduler. -/
theorem Core.did {c : Req} {σ' : Agenda} {W' : List (Nat × Due)} (k : Core K prec off L s [] [] W) (w : Wait K prec off (L ++ [.did c r]) W')
    (h1 : irq (L ++ [.did c r]) = runs K .irq (L ++ [.did c r]) ++ σ'.irq)
    (h2 : immed (L ++ [.did c r]) = runs K .immed (L ++ [.did c r]) ++ σ'.immed)
    (h3 : ∀ t ∈ σ'.irq, K t = .irq ∧ t ≠ .null) (h4 : ∀ t ∈ σ'.immed, K t = .immed ∧ t ≠ .null)
    (h5 : σ'.idle = lastIdle (L ++ [.did c r])) (h6 : σ'.idle = .null ∨ K σ'.idle = .idle)
    (h7 : σ'.irq.length ≤ 7) (h8 : σ'.immed.length ≤ 20) (h9 : W'.length ≤ 20) :
    Core K prec off (L ++ [.did c r]) { s with σ := σ' } [] [] W' :=
  ⟨h1, h2, h3, h4, h5, h6, by rw [k.clock]; simp [lastClock], w, h7, h8, h9⟩

theorem runs_did {c : Req} {k : Kind} (hc : c ≠ .reset) : runs K k (L ++ [.did c r]) = runs K k L := by
  simp only [runs, List.foldl_append, List.foldl_cons, List.foldl_nil]
  cases c <;> first | rfl | exact absurd rfl hc

theorem mem_snoc {l : List CVal} {k : Kind} (h : ∀ u ∈ l, K u = k ∧ u ≠ .null) (ht : K t = k ∧ t ≠ .null) :
    ∀ u ∈ l ++ [t], K u = k ∧ u ≠ .null := by
  intro u hu
  rcases List.mem_append.1 hu with hu | hu
  · exact h u hu
  · obtain rfl : u = t := by simpa using hu
    exact ht

theorem Inv.did {c : Req} (i : Inv K prec off L s) (hk : Keeps K (.did c r)) (hw : WeakOn prec (Time off (L ++ [.did c r])))
    (hs : ∀ p ∈ s.steps, p = .running) (hr : r = (c.answer prec off s.clock s.σ).1) :
    Inv K prec off (L ++ [.did c r]) { s with σ := (c.answer prec off s.clock s.σ).2 } := by
  have top : ∀ {p l}, s.steps = p :: l → p ≠ .running → False := fun e hp => hp (hs _ (by simp [e]))
  cases i with
  | entered e => exact (top e (by simp)).elim
  | looking e => exact (top e (by simp)).elim
  | irq e => exact (top e (by simp)).elim
  | due e => exact (top e (by simp)).elim
  | immed e => exact (top e (by simp)).elim
  | idle e => exact (top e (by simp)).elim
  | @user W a k m u n =>
    have i : Inv K prec off L s := .user a k m u n
    by_cases hq : ∃ t, c = .fromIsr t
    · obtain ⟨t, rfl⟩ := hq
      exact i.isr hk hr
    have nl : ∀ P, ¬ Looking P (L ++ [.did c r]) := by
      intro P hP
      rcases (looking_snoc P).1 hP with ⟨-, h⟩ | ⟨h, -⟩
      · cases h
      · exact n P h
    have ki := k.irqs
    have km := k.immeds
    have kd := k.idle
    simp only [List.nil_append] at ki km
    -- nothing changes
    have plain : ∀ {c : Req}, c ≠ .reset → (∀ P, ¬ Looking P (L ++ [.did c r])) → (∀ u, (Seen.did c r).dropped u = false) →
        Story.irq (L ++ [.did c r]) = Story.irq L → Story.immed (L ++ [.did c r]) = Story.immed L → bag (L ++ [.did c r]) = bag L →
        lastIdle (L ++ [.did c r]) = lastIdle L →
        (∀ t T, Seen.did c r ≠ .did (.deferUntil t T) (.int 0)) → (∀ t T, Seen.did c r ≠ .did (.deferFor t T) (.int 0)) →
        Inv K prec off (L ++ [.did c r]) s := by
      intro c h0 nl h1 h2 h3 h4 h5 h6 h7
      refine .user a (k.did (k.wait.same h1 h4 h6 h7) ?_ ?_ k.kirq k.kimm (h5 ▸ kd) k.kidle k.nIrq k.nImm k.nDue) m ?_ nl
      · rw [h2, runs_did h0, ki]
      · rw [h3, runs_did h0, km]
      · rw [u]
        simp only [lastCalled, List.foldl_append, List.foldl_cons, List.foldl_nil]
        cases c <;> first | rfl | exact absurd rfl h0
    have sched : ∀ t, c = .immed t ∨ c = .transfer t → K t = .immed ∧ t ≠ .null → r = (s.σ.schedule t).1.val →
        Inv K prec off (L ++ [.did c r]) { s with σ := (s.σ.schedule t).2 } := by
      intro t hc ht hr
      unfold Agenda.schedule at *
      split
      · rename_i hl
        simp only [hl, if_true, SErr.val] at hr
        subst hr
        refine .user a (k.did (W' := W) (k.wait.same ?_ ?_ ?_ ?_) ?_ ?_ k.kirq (mem_snoc k.kimm ht) ?_ k.kidle k.nIrq ?_ k.nDue) m ?_ nl
        · rcases hc with rfl | rfl <;> exact fun _ => rfl
        · rcases hc with rfl | rfl <;> simp [bag]
        · rcases hc with rfl | rfl <;> simp
        · rcases hc with rfl | rfl <;> simp
        · rw [runs_did (by rcases hc with rfl | rfl <;> simp), ← ki]
          rcases hc with rfl | rfl <;> simp [Story.irq]
        · rw [runs_did (by rcases hc with rfl | rfl <;> simp), ← List.append_assoc, ← km]
          rcases hc with rfl | rfl <;> simp [Story.immed]
        · rw [kd]
          rcases hc with rfl | rfl <;> simp [lastIdle]
        · simp; omega
        · rw [u]
          rcases hc with rfl | rfl <;> simp [lastCalled]
      · rename_i hl
        simp only [hl, if_false, SErr.val] at hr
        subst hr
        rcases hc with rfl | rfl <;>
          exact plain (by simp) nl (fun _ => rfl) (by simp [Story.irq]) (by simp [Story.immed]) (by simp [bag]) (by simp [lastIdle]) (by simp) (by simp)
    have dfr : ∀ t x T, (c = .deferUntil t T ∨ c = .deferFor t x ∧ T = off s.clock x) → K t = .due ∧ t ≠ .null → r = (s.σ.defer prec t T).1.val →
        Inv K prec off (L ++ [.did c r]) { s with σ := (s.σ.defer prec t T).2 } := by
      intro t x T hc ht hr
      have hm : s.σ.due.length = W.length := by rw [← m]; simp
      unfold Agenda.defer at *
      split
      · rename_i hl
        simp only [hl, if_true, SErr.val] at hr
        subst hr
        refine .user a (k.did (W' := ins prec (L.length, ⟨T, t⟩) W) (k.wait.defer hw ?_ ht.1 ht.2) ?_ ?_ k.kirq k.kimm ?_ k.kidle k.nIrq k.nImm ?_)
          ?_ ?_ nl
        · rcases hc with rfl | ⟨rfl, rfl⟩
          · exact .inl rfl
          · exact .inr ⟨x, rfl, by rw [k.clock]⟩
        · rw [runs_did (by rcases hc with rfl | ⟨rfl, -⟩ <;> simp), ← ki]
          rcases hc with rfl | ⟨rfl, -⟩ <;> simp [Story.irq]
        · rw [runs_did (by rcases hc with rfl | ⟨rfl, -⟩ <;> simp), ← km]
          rcases hc with rfl | ⟨rfl, -⟩ <;> simp [Story.immed]
        · rw [kd]
          rcases hc with rfl | ⟨rfl, -⟩ <;> simp [lastIdle]
        · rw [(ins_perm _).length_eq]
          simp; omega
        · rw [ins_map, m]
        · rw [u]
          rcases hc with rfl | ⟨rfl, -⟩ <;> simp [lastCalled]
      · rename_i hl
        simp only [hl, if_false, SErr.val] at hr
        subst hr
        rcases hc with rfl | ⟨rfl, -⟩ <;>
          exact plain (by simp) nl (fun _ => rfl) (by simp [Story.irq]) (by simp [Story.immed]) (by simp [bag]) (by simp [lastIdle]) (by simp) (by simp)
    cases c with
    | fromIsr t => exact absurd ⟨t, rfl⟩ hq
    | immed t => exact sched t (.inl rfl) hk hr
    | transfer t => exact sched t (.inr rfl) hk hr
    | deferUntil t T => exact dfr t .null T (.inl rfl) hk hr
    | deferFor t x => exact dfr t x _ (.inr ⟨rfl, rfl⟩) hk hr
    | remove t =>
      refine .user a (k.did (k.wait.remove r) ?_ ?_ k.kirq k.kimm ?_ k.kidle k.nIrq k.nImm ?_) ?_ ?_ nl
      · rw [runs_did (by simp)]
        simp only [Req.answer, Agenda.cancel]
        rw [← ki]
        simp [Story.irq]
      · rw [runs_did (by simp)]
        simp only [Req.answer, Agenda.cancel]
        rw [← km]
        simp [Story.immed]
      · simp only [Req.answer, Agenda.cancel]
        rw [kd]
        simp [lastIdle]
      · exact Nat.le_trans (List.length_filter_le _ _) k.nDue
      · simp only [Req.answer, Agenda.cancel]
        rw [← m, List.filter_map]
        rfl
      · simp only [Req.answer, Agenda.cancel]
        rw [u]
        simp [lastCalled]
    | reset =>
      refine .user a (k.did (Wait.reset r) ?_ ?_ ?_ ?_ ?_ k.kidle ?_ ?_ ?_) ?_ ?_ nl
      · simp [Story.irq, runs, Req.answer, Agenda.reset]
      · simp [Story.immed, runs, Req.answer, Agenda.reset]
      · simp [Req.answer, Agenda.reset]
      · simp [Req.answer, Agenda.reset]
      · simp only [Req.answer, Agenda.reset]
        rw [kd]
        simp [lastIdle]
      · simp [Req.answer, Agenda.reset]
      · simp [Req.answer, Agenda.reset]
      · simp
      · simp [Req.answer, Agenda.reset]
      · simp [Req.answer, Agenda.reset, lastCalled]
    | setIdle t =>
      refine .user a (k.did (W' := W) (k.wait.same (fun _ => rfl) (by simp [bag]) (by simp) (by simp)) ?_ ?_ k.kirq k.kimm ?_ hk k.nIrq k.nImm k.nDue) m ?_ nl
      · rw [runs_did (by simp)]
        simp only [Req.answer]
        rw [← ki]
        simp [Story.irq]
      · rw [runs_did (by simp)]
        simp only [Req.answer]
        rw [← km]
        simp [Story.immed]
      · simp [Req.answer, lastIdle]
      · simp only [Req.answer]
        rw [u]
        simp [lastCalled]
    | getIdle =>
      exact plain (by simp) nl (fun _ => rfl) (by simp [Story.irq]) (by simp [Story.immed]) (by simp [bag]) (by simp [lastIdle]) (by simp) (by simp)
    | current =>
      exact plain (by simp) nl (fun _ => rfl) (by simp [Story.irq]) (by simp [Story.immed]) (by simp [bag]) (by simp [lastIdle]) (by simp) (by simp)
    | next =>
      exact plain (by simp) nl (fun _ => rfl) (by simp [Story.irq]) (by simp [Story.immed]) (by simp [bag]) (by simp [lastIdle]) (by simp) (by simp)
    | wait t =>
      exact plain (by simp) nl (fun _ => rfl) (by simp [Story.irq]) (by simp [Story.immed]) (by simp [bag]) (by simp [lastIdle]) (by simp) (by simp)

/-- An entry that is not about any task. -/
theorem Core.plain {s' : Isr.Replay} {pi' pm' : List CVal} (k : Core K prec off L s pi pm W) (he : e = .step ∨ e = .stepped ∨ ∃ now, e = .clock now)
    (h1 : pi' ++ s'.σ.irq = pi ++ s.σ.irq) (h2 : pm' ++ s'.σ.immed = pm ++ s.σ.immed) (h3 : s'.σ.irq.length ≤ 7)
    (h3' : ∀ t ∈ s'.σ.irq, t ∈ s.σ.irq) (h4' : ∀ t ∈ s'.σ.immed, t ∈ s.σ.immed)
    (h4 : s'.σ.immed.length ≤ 20) (h5 : s'.σ.idle = s.σ.idle) (h6 : s'.clock = lastClock (L ++ [e])) :
    Core K prec off (L ++ [e]) s' pi' pm' W := by
  refine ⟨?_, ?_, fun t ht => k.kirq t (h3' t ht), fun t ht => k.kimm t (h4' t ht), ?_, h5 ▸ k.kidle, h6, ?_, h3, h4, k.nDue⟩
  · have := k.irqs
    rw [h1]
    rcases he with rfl | rfl | ⟨now, rfl⟩ <;> simpa [irq, runs] using this
  · have := k.immeds
    rw [h2]
    rcases he with rfl | rfl | ⟨now, rfl⟩ <;> simpa [immed, runs] using this
  · have := k.idle
    rw [h5]
    rcases he with rfl | rfl | ⟨now, rfl⟩ <;> simpa [lastIdle] using this
  · rcases he with rfl | rfl | ⟨now, rfl⟩ <;> exact k.wait.same (fun _ => rfl) (by simp [bag]) (by simp) (by simp)

theorem Inv.clock {now : CVal} (i : Inv K prec off L s) (hw : WeakOn prec (Time off (L ++ [.clock now])))
    (h : s.see prec off (.clock now) = some s') : Inv K prec off (L ++ [.clock now]) s' := by
  have hc : lastClock (L ++ [.clock now]) = now := by simp [lastClock]
  have no : ∀ {p l}, s.steps = p :: l → p.user = false → p ≠ .looking → False := by
    intro p l e h1 h2
    simp only [Isr.Replay.see, e] at h
    cases p <;> simp_all [Isr.Replay.user, Isr.Phase.user]
  cases i with
  | entered e => exact (no e (by simp) (by simp)).elim
  | irq e => exact (no e (by simp) (by simp)).elim
  | due e => exact (no e (by simp) (by simp)).elim
  | immed e => exact (no e (by simp) (by simp)).elim
  | idle e => exact (no e (by simp) (by simp)).elim
  | @user W a k m u n =>
    have hu : s.see prec off (.clock now) = some { s with clock := now } := by
      simp only [Isr.Replay.see]
      split
      · rename_i hx; exact absurd (a _ (by rw [hx]; exact List.mem_cons_self)) (by simp)
      · rw [if_pos]
        cases hs : s.steps with
        | nil => simp [Isr.Replay.user, hs]
        | cons p l => simp [Isr.Replay.user, hs, a p (by simp [hs]), Isr.Phase.user]
    rw [hu] at h
    obtain rfl := Option.some.inj h
    refine .user a (k.plain (.inr (.inr ⟨_, rfl⟩)) rfl rfl k.nIrq (fun _ h => h) (fun _ h => h) k.nImm rfl hc.symm) m ?_ ?_
    · rw [u]; simp [lastCalled]
    · intro P hP
      rcases (looking_snoc P).1 hP with ⟨-, h⟩ | ⟨h, -⟩
      · cases h
      · exact n P h
  | @looking W l P e a k m lk ni =>
    simp only [Isr.Replay.see, e] at h
    obtain rfl := Option.some.inj h
    have lk' := looking_quiet (e := .clock now) lk rfl
    have mc : Seen.clock (lastClock (L ++ [.clock now])) ∈ L ++ [.clock now] := by simp [hc]
    have w' : Wait K prec off (L ++ [.clock now]) W := k.wait.same (fun _ => rfl) (by simp [bag]) (by simp) (by simp)
    -- nothing is due
    have queued : s.σ.choose prec now = s.σ.queued → NoDue prec off (L ++ [.clock now]) →
        Inv K prec off (L ++ [.clock now]) ⟨s.σ.choose prec now, .chosen (s.σ.choose prec now).cur :: l, now, s.callHook, s.transferHook⟩ := by
      intro hq nd
      rw [hq]
      unfold Agenda.queued
      split
      · rename_i t r hx
        obtain ⟨kt, kt'⟩ := k.kimm t (by simp [hx])
        refine .immed (t := t) rfl a (k.plain (.inr (.inr ⟨_, rfl⟩)) rfl ?_ k.nIrq (fun _ h => h) ?_ ?_ rfl hc.symm) m lk' ni kt kt' nd rfl
        · simp [hx]
        · intro u hu; rw [hx]; exact List.mem_cons_of_mem _ hu
        · have := k.nImm
          rw [hx] at this
          simp at this ⊢; omega
      · rename_i hx
        exact .idle (t := s.σ.idle) rfl a (k.plain (.inr (.inr ⟨_, rfl⟩)) rfl rfl k.nIrq (fun _ h => h) (fun _ h => h) k.nImm rfl hc.symm) m lk' ni rfl hx nd rfl
    cases W with
    | nil =>
      have hd : s.σ.due = [] := by simpa using m.symm
      exact queued (by simp [Agenda.choose, hd]) fun n u T hp => absurd (w'.all n u T hp) (by simp)
    | cons x W =>
      have hd : s.σ.due = x.2 :: W.map (·.2) := by simpa using m.symm
      by_cases hp : prec now x.2.time = true
      · exact queued (by simp [Agenda.choose, hd, hp]) (w'.noDue hw mc (by rw [hc]; exact hp))
      · have hx := (k.wait.at_ x (by simp)).2.2.2
        have hch : s.σ.choose prec now = { s.σ with due := W.map (·.2), cur := x.2.task } := by
          simp [Agenda.choose, hd, hp, hx]
        rw [hch]
        exact .due rfl a (k.plain (.inr (.inr ⟨_, rfl⟩)) rfl rfl k.nIrq (fun _ h => h) (fun _ h => h) k.nImm rfl hc.symm) rfl lk' ni (by simpa using hp) rfl

theorem Inv.step (i : Inv K prec off L s) (h : s.see prec off .step = some s') : Inv K prec off (L ++ [.step]) s' := by
  have hu : s.user = true ∧ { s with steps := .entered :: s.steps } = s' := by
    simp only [Isr.Replay.see] at h
    split at h
    · rename_i hx; exact ⟨hx, Option.some.inj h⟩
    · cases h
  obtain ⟨hu, rfl⟩ := hu
  have no : ∀ {p l}, s.steps = p :: l → p.user = false → False := by
    intro p l e h1
    cases p <;> simp_all [Isr.Replay.user, Isr.Phase.user]
  cases i with
  | entered e => exact (no e (by simp)).elim
  | looking e => exact (no e (by simp)).elim
  | irq e => exact (no e (by simp)).elim
  | due e => exact (no e (by simp)).elim
  | immed e => exact (no e (by simp)).elim
  | idle e => exact (no e (by simp)).elim
  | @user W a k m u n =>
    refine .entered (P := L) (x := s.σ.irq) (y := []) rfl a (k.plain (.inl rfl) rfl rfl k.nIrq (fun _ h => h) (fun _ h => h) k.nImm rfl ?_) m
      ((looking_snoc L).2 (.inl ⟨rfl, rfl⟩)) ?_ ?_ ?_
    · rw [k.clock]; simp [lastClock]
    · simpa using k.irqs
    · simp [Story.irq]
    · simp [runs]

theorem Inv.look (i : Inv K prec off L s) (h : s.look = some s') : Inv K prec off L s' := by
  have no : ∀ {p l}, s.steps = p :: l → p ≠ .entered → False := by
    intro p l e h1
    cases p <;> simp_all [Isr.Replay.look]
  cases i with
  | looking e => exact (no e (by simp)).elim
  | irq e => exact (no e (by simp)).elim
  | due e => exact (no e (by simp)).elim
  | immed e => exact (no e (by simp)).elim
  | idle e => exact (no e (by simp)).elim
  | @user W a k m u n =>
    cases hs : s.steps with
    | nil => simp [Isr.Replay.look, hs] at h
    | cons p l => exact (no hs (by rw [a p (by simp [hs])]; simp)).elim
  | @entered W l P x y e a k m lk h5 h6 h7 =>
    simp only [Isr.Replay.look, e] at h
    split at h
    · rename_i t q hx
      obtain rfl := Option.some.inj h
      obtain ⟨kt, kt'⟩ := k.kirq t (by simp [hx])
      refine .irq (W := W) rfl a ⟨?_, k.immeds, fun u hu => k.kirq u ?_, k.kimm, k.idle, k.kidle, k.clock, k.wait, ?_, k.nImm, k.nDue⟩ m lk kt kt' rfl
      · have := k.irqs
        rw [hx] at this
        simpa using this
      · rw [hx]; exact List.mem_cons_of_mem _ hu
      · have := k.nIrq
        rw [hx] at this
        simp at this ⊢; omega
    · rename_i hx
      obtain rfl := Option.some.inj h
      refine .looking (W := W) rfl a ⟨k.irqs, k.immeds, k.kirq, k.kimm, k.idle, k.kidle, k.clock, k.wait, k.nIrq, k.nImm, k.nDue⟩ m lk ?_
      have h8 := k.irqs
      rw [hx, h6, h7, h5] at h8
      simp only [List.append_nil, List.append_assoc] at h8
      have h9 := congrArg List.length h8
      simp only [List.length_append] at h9
      have : x = [] := List.eq_nil_of_length_eq_zero (by omega)
      unfold NoIrq
      rw [h5, this, List.append_nil]

/-- A task is called. -/
theorem Core.called (k : Core K prec off L s pi pm W) {W' : List (Nat × Due)} {l : List Isr.Phase} (w : Wait K prec off (L ++ [.called t]) W')
    (hn : W'.length ≤ 20)
    (h1 : runs K .irq (L ++ [.called t]) = runs K .irq L ++ pi) (h2 : runs K .immed (L ++ [.called t]) = runs K .immed L ++ pm) :
    Core K prec off (L ++ [.called t]) { s with steps := l } [] [] W' := by
  refine ⟨?_, ?_, k.kirq, k.kimm, ?_, k.kidle, ?_, w, k.nIrq, k.nImm, hn⟩
  · rw [h1]
    have := k.irqs
    simp only [irq] at this
    simp [irq, this]
  · rw [h2]
    have := k.immeds
    simp only [immed] at this
    simp [immed, this]
  · show s.σ.idle = _
    rw [k.idle]; simp [lastIdle]
  · show s.clock = _
    rw [k.clock]; simp [lastClock]

theorem runs_called {k : Kind} : runs K k (L ++ [.called t]) = runs K k L ++ if K t = k then [t] else [] := by
  simp only [runs, List.foldl_append, List.foldl_cons, List.foldl_nil]
  split <;> simp

/-- No hook runs. -/
theorem Inv.noHook (i : Inv K prec off L s) {u : CVal} {l : List Isr.Phase} (e : s.steps = .hooked u :: l) : False := by
  cases i with
  | user a => exact absurd (a _ (by rw [e]; exact List.mem_cons_self)) (by simp)
  | entered e' => rw [e] at e'; cases e'
  | looking e' => rw [e] at e'; cases e'
  | irq e' => rw [e] at e'; cases e'
  | due e' => rw [e] at e'; cases e'
  | immed e' => rw [e] at e'; cases e'
  | idle e' => rw [e] at e'; cases e'

theorem Inv.called (i : Inv K prec off L s) (h : s.see prec off (.called t) = some s') : Inv K prec off (L ++ [.called t]) s' := by
  have no : ∀ {p l}, s.steps = p :: l → (∀ u, p ≠ .chosen u) → False := by
    intro p l e h1
    cases p with
    | hooked u => exact i.noHook e
    | _ => simp_all [Isr.Replay.see]
  have yes : ∀ {u l}, s.steps = .chosen u :: l → u = t ∧ t ≠ .null ∧ { s with steps := .running :: l } = s' := by
    intro u l e
    simp only [Isr.Replay.see, e] at h
    split at h
    · rename_i hx
      simp only [Bool.and_eq_true, decide_eq_true_eq] at hx
      exact ⟨hx.1.1, hx.1.2, Option.some.inj h⟩
    · cases h
  have fin : ∀ {l W' pi pm}, (∀ p ∈ l, p = .running) → Core K prec off (L ++ [.called t]) { s with steps := .running :: l } pi pm W' → pi = [] →
      pm = [] → W'.map (·.2) = s.σ.due → s.σ.cur = t → Inv K prec off (L ++ [.called t]) { s with steps := .running :: l } := by
    intro l W' pi pm a k hpi hpm m hc
    subst hpi hpm
    refine .user (by simpa using a) k m (by rw [hc]; simp [lastCalled]) ?_
    intro P hP
    rcases (looking_snoc P).1 hP with ⟨-, h⟩ | ⟨-, h⟩
    · cases h
    · simp [quiet] at h
  cases i with
  | entered e => exact (no e (by simp)).elim
  | looking e => exact (no e (by simp)).elim
  | @user W a k m u n =>
    cases hs : s.steps with
    | nil => simp [Isr.Replay.see, hs] at h
    | cons p l => exact (no hs (by rw [a p (by simp [hs])]; simp)).elim
  | @irq W l P u e a k m lk k1 k2 k3 =>
    obtain ⟨rfl, ht, rfl⟩ := yes e
    exact fin a (k.called (k.wait.other (by simp [k1])) k.nDue (by simp [runs_called, k1]) (by simp [runs_called, k1])) rfl rfl m k3
  | @immed W l P u e a k m lk ni k1 k2 k3 k4 =>
    obtain ⟨rfl, ht, rfl⟩ := yes e
    exact fin a (k.called (k.wait.other (by simp [k1])) k.nDue (by simp [runs_called, k1]) (by simp [runs_called, k1])) rfl rfl m k4
  | @idle W l P u e a k m lk ni k1 k2 k3 k4 =>
    obtain ⟨rfl, ht, rfl⟩ := yes e
    have k5 : K u = .idle := by
      rcases k.kidle with h | h
      · exact absurd (k1.trans h) ht
      · rw [k1, h]
    exact fin a (k.called (k.wait.other (by simp [k5])) k.nDue (by simp [runs_called, k5]) (by simp [runs_called, k5])) rfl rfl m k4
  | @due W l P x e a k m lk ni k1 k2 =>
    obtain ⟨rfl, ht, rfl⟩ := yes e
    have k5 := (k.wait.at_ x (by simp)).2.2.1
    have := k.nDue
    exact fin a (k.called k.wait.call (by simp at this; omega) (by simp [runs_called, k5]) (by simp [runs_called, k5])) rfl rfl m k2

theorem Inv.stepped (i : Inv K prec off L s) (h : s.see prec off .stepped = some s') : Inv K prec off (L ++ [.stepped]) s' := by
  have fin : ∀ {l W}, (∀ p ∈ l, p = .running) → Core K prec off L s [] [] W → W.map (·.2) = s.σ.due →
      Inv K prec off (L ++ [.stepped]) { s with σ := { s.σ with cur := .null }, steps := l } := by
    intro l W a k m
    refine .user a (k.plain (.inr (.inl rfl)) rfl rfl k.nIrq (fun _ h => h) (fun _ h => h) k.nImm rfl ?_) m (by simp [lastCalled]) ?_
    · show s.clock = _
      rw [k.clock]; simp [lastClock]
    · intro P hP
      rcases (looking_snoc P).1 hP with ⟨-, h⟩ | ⟨-, h⟩
      · cases h
      · simp [quiet] at h
  have no : ∀ {p l}, s.steps = p :: l → p ≠ .running → p ≠ .chosen .null → False := by
    intro p l e h1 h2
    simp only [Isr.Replay.see, e] at h
    split at h
    · rename_i hx; cases hx; exact h2 rfl
    · rename_i hx; cases hx; exact h1 rfl
    · cases h
  cases i with
  | entered e => exact (no e (by simp) (by simp)).elim
  | looking e => exact (no e (by simp) (by simp)).elim
  | irq e _ _ _ _ _ hn => exact (no e (by simp) (by simpa using hn)).elim
  | immed e _ _ _ _ _ _ hn => exact (no e (by simp) (by simpa using hn)).elim
  | due e _ k => exact (no e (by simp) (by simpa using (k.wait.at_ _ List.mem_cons_self).2.2.2)).elim
  | @user W a k m u n =>
    cases hs : s.steps with
    | nil => simp [Isr.Replay.see, hs] at h
    | cons p l =>
      obtain rfl := a p (by simp [hs])
      simp only [Isr.Replay.see, hs] at h
      obtain rfl := Option.some.inj h
      exact fin (fun q hq => a q (by simp [hs, hq])) k m
  | @idle W l P u e a k m lk ni k1 k2 k3 k4 =>
    simp only [Isr.Replay.see, e] at h
    split at h
    · rename_i hx; cases hx
      obtain rfl := Option.some.inj h
      exact fin a k m
    · rename_i hx; cases hx
    · cases h

theorem Inv.see (i : Inv K prec off L s) (nh : s.callHook = false ∧ s.transferHook = false) (hk : Keeps K e) (hw : WeakOn prec (Time off (L ++ [e]))) (h : s.see prec off e = some s') :
    Inv K prec off (L ++ [e]) s' := by
  cases e with
  | did c r =>
    have hx : (c.isr || s.user) = true ∧ r = (c.answer prec off s.clock s.σ).1 ∧ { s with σ := (c.answer prec off s.clock s.σ).2 } = s' := by
      simp only [Isr.Replay.see] at h
      split at h
      · rename_i hx
        simp only [Bool.and_eq_true, decide_eq_true_eq] at hx
        have ha : s.after c = s.steps := by cases c <;> simp [Isr.Replay.after, nh.2]
        rw [ha] at h
        exact ⟨hx.1.1, hx.2, Option.some.inj h⟩
      · cases h
    obtain ⟨h1, h2, rfl⟩ := hx
    by_cases hq : ∃ t, c = .fromIsr t
    · obtain ⟨t, rfl⟩ := hq
      exact i.isr hk h2
    · have hu : s.user = true := by
        rcases Bool.or_eq_true _ _ ▸ h1 with h | h
        · cases c <;> first | exact absurd ⟨_, rfl⟩ hq | cases h
        · exact h
      refine i.did hk hw ?_ h2
      have no : ∀ {p l}, s.steps = p :: l → p.user = false → False := by
        intro p l e h1
        cases p <;> simp_all [Isr.Replay.user, Isr.Phase.user]
      cases i with
      | entered e => exact (no e (by simp)).elim
      | looking e => exact (no e (by simp)).elim
      | irq e => exact (no e (by simp)).elim
      | due e => exact (no e (by simp)).elim
      | immed e => exact (no e (by simp)).elim
      | idle e => exact (no e (by simp)).elim
      | user a => exact a
  | clock now => exact i.clock hw h
  | step => exact i.step h
  | called t => exact i.called h
  | stepped => exact i.stepped h
  | hooked t =>
    simp only [Isr.Replay.see, nh.1, Bool.and_false, Bool.false_eq_true, if_false] at h
    split at h <;> cases h
  | transferring t => simp [Isr.Replay.see, nh.2] at h

theorem WeakOn.snoc (hw : WeakOn prec (Time off (L ++ [e]))) : WeakOn prec (Time off L) :=
  fun a b c ha hb hc => hw a b c (ha.snoc e) (hb.snoc e) (hc.snoc e)

theorem inv_of (h : Isr.Replays prec off (.start false false) L s) (hk : ∀ e ∈ L, Keeps K e) (hw : WeakOn prec (Time off L)) : Inv K prec off L s := by
  generalize hx : Isr.Replay.start false false = s0 at h
  induction h with
  | nil => subst hx; exact .start
  | see r h ih => exact (ih (fun e he => hk e (by simp [he])) hw.snoc).see (by subst hx; exact r.hooks) (hk _ (by simp)) hw h
  | look _ h ih => exact (ih hk hw).look h

theorem WeakOn.prefix {P Q : List Seen} (hw : WeakOn prec (Time off (P ++ Q))) : WeakOn prec (Time off P) :=
  fun a b c ha hb hc => hw a b c (ha.prefix Q) (hb.prefix Q) (hc.prefix Q)

theorem replays_split {P Q : List Seen} {s0 : Isr.Replay} (h : Isr.Replays prec off s0 L s) (hL : L = P ++ e :: Q) :
    ∃ s1 s2, Isr.Replays prec off s0 P s1 ∧ s1.see prec off e = some s2 := by
  induction h generalizing Q with
  | nil => simp at hL
  | @see s1 s2 l x h1 h2 ih =>
    rcases List.eq_nil_or_concat Q with rfl | ⟨Q', y, rfl⟩
    · obtain ⟨k1, k2⟩ := List.append_inj' hL rfl
      obtain rfl : x = e := by simpa using k2
      subst k1
      exact ⟨s1, s2, h1, h2⟩
    · have hL' : l ++ [x] = (P ++ e :: Q') ++ [y] := by simpa using hL
      obtain ⟨k1, -⟩ := List.append_inj' hL' rfl
      exact ih k1
  | look _ _ ih => exact ih hL

/-- Everything there is to know at an entry. -/
theorem at_entry {P Q : List Seen} (h : Isr.Replays prec off (.start false false) L s) (hk : ∀ e ∈ L, Keeps K e) (hw : WeakOn prec (Time off L))
    (hL : L = P ++ e :: Q) : ∃ s1 s2, Inv K prec off P s1 ∧ s1.see prec off e = some s2 := by
  obtain ⟨s1, s2, h1, h2⟩ := replays_split h hL
  subst hL
  exact ⟨s1, s2, inv_of h1 (fun e he => hk e (by simp [he])) hw.prefix, h2⟩

/-- If user code runs. -/
theorem Inv.running (i : Inv K prec off L s) (hu : s.user = true) : ∃ W, (∀ p ∈ s.steps, p = .running) ∧ Core K prec off L s [] [] W ∧
    W.map (·.2) = s.σ.due ∧ s.σ.cur = lastCalled L ∧ ∀ P, ¬ Looking P L := by
  have no : ∀ {p l}, s.steps = p :: l → p.user = false → False := by
    intro p l e h1
    cases p <;> simp_all [Isr.Replay.user, Isr.Phase.user]
  cases i with
  | entered e => exact (no e (by simp)).elim
  | looking e => exact (no e (by simp)).elim
  | irq e => exact (no e (by simp)).elim
  | due e => exact (no e (by simp)).elim
  | immed e => exact (no e (by simp)).elim
  | idle e => exact (no e (by simp)).elim
  | user a k m u n => exact ⟨_, a, k, m, u, n⟩

/-- If a task is about to be called. -/
theorem Inv.about {l : List Isr.Phase} (i : Inv K prec off L s) (hs : s.steps = .chosen t :: l) : ∃ P, Looking P L ∧
    ((K t = .irq ∧ t ≠ .null ∧ ∃ W, Core K prec off L s [t] [] W) ∨
      NoIrq K P ∧ ((∃ x W, x.2.task = t ∧ prec s.clock x.2.time = false ∧ Core K prec off L s [] [] (x :: W)) ∨
        NoDue prec off L ∧ ((K t = .immed ∧ t ≠ .null ∧ ∃ W, Core K prec off L s [] [t] W) ∨
          t = s.σ.idle ∧ s.σ.immed = [] ∧ ∃ W, Core K prec off L s [] [] W))) := by
  have no : ∀ {p l}, s.steps = p :: l → (∀ u, p ≠ .chosen u) → False := by
    intro p l e h1
    rw [hs] at e
    cases e
    exact h1 _ rfl
  have yes : ∀ {u l}, s.steps = .chosen u :: l → u = t := by
    intro u l e
    rw [hs] at e
    cases e
    rfl
  cases i with
  | entered e => exact (no e (by simp)).elim
  | looking e => exact (no e (by simp)).elim
  | user a => exact absurd (a (.chosen t) (by simp [hs])) (by simp)
  | irq e a k m lk k1 k2 =>
    obtain rfl := yes e
    exact ⟨_, lk, .inl ⟨k1, k2, _, k⟩⟩
  | due e a k m lk ni k1 => exact ⟨_, lk, .inr ⟨ni, .inl ⟨_, _, yes e, k1, k⟩⟩⟩
  | immed e a k m lk ni k1 k2 k3 =>
    obtain rfl := yes e
    exact ⟨_, lk, .inr ⟨ni, .inr ⟨k3, .inl ⟨k1, k2, _, k⟩⟩⟩⟩
  | idle e a k m lk ni k1 k2 k3 =>
    obtain rfl := yes e
    exact ⟨_, lk, .inr ⟨ni, .inr ⟨k3, .inr ⟨k1, k2, _, k⟩⟩⟩⟩

/-- At a call. -/
theorem at_called {P Q : List Seen} (h : Isr.Replays prec off (.start false false) L s) (hk : ∀ e ∈ L, Keeps K e) (hw : WeakOn prec (Time off L))
    (hL : L = P ++ .called t :: Q) : ∃ s1 : Isr.Replay, t ≠ .null ∧ ∃ P', Looking P' P ∧
    ((K t = .irq ∧ ∃ W, Core K prec off P s1 [t] [] W) ∨
      NoIrq K P' ∧ ((K t = .due ∧ ∃ x W, x.2.task = t ∧ prec s1.clock x.2.time = false ∧ Core K prec off P s1 [] [] (x :: W)) ∨
        NoDue prec off P ∧ ((K t = .immed ∧ ∃ W, Core K prec off P s1 [] [t] W) ∨
          K t = .idle ∧ t = s1.σ.idle ∧ s1.σ.immed = [] ∧ ∃ W, Core K prec off P s1 [] [] W))) := by
  obtain ⟨s1, s2, i, hs⟩ := at_entry h hk hw hL
  have hx : ∃ l, s1.steps = .chosen t :: l ∧ t ≠ .null := by
    simp only [Isr.Replay.see] at hs
    split at hs
    · rename_i u l hx
      split at hs
      · rename_i hy
        simp only [Bool.and_eq_true, decide_eq_true_eq] at hy
        obtain ⟨⟨rfl, hy⟩, -⟩ := hy
        exact ⟨l, hx, hy⟩
      · cases hs
    · rename_i u l hx
      exact (i.noHook hx).elim
    · cases hs
  obtain ⟨l, hx, ht⟩ := hx
  obtain ⟨P', lk, k⟩ := i.about hx
  refine ⟨s1, ht, P', lk, ?_⟩
  rcases k with ⟨k1, -, k2⟩ | ⟨ni, ⟨x, W, k1, k2, k3⟩ | ⟨nd, ⟨k1, -, k2⟩ | ⟨k1, k2, W, k3⟩⟩⟩
  · exact .inl ⟨k1, k2⟩
  · exact .inr ⟨ni, .inl ⟨k1 ▸ (k3.wait.at_ x (by simp)).2.2.1, x, W, k1, k2, k3⟩⟩
  · exact .inr ⟨ni, .inr ⟨nd, .inl ⟨k1, k2⟩⟩⟩
  · refine .inr ⟨ni, .inr ⟨nd, .inr ⟨?_, k1, k2, W, k3⟩⟩⟩
    rcases k3.kidle with h | h
    · exact absurd (k1.trans h) ht
    · rw [k1, h]

/-- At a call of the scheduler. -/
theorem at_did {P Q : List Seen} {c : Req} (h : Isr.Replays prec off (.start false false) L s) (hk : ∀ e ∈ L, Keeps K e) (hw : WeakOn prec (Time off L))
    (hL : L = P ++ .did c r :: Q) : ∃ s1 : Isr.Replay, Inv K prec off P s1 ∧ r = (c.answer prec off s1.clock s1.σ).1 ∧
      (c.isr = true ∨ s1.user = true) := by
  obtain ⟨s1, s2, i, hs⟩ := at_entry h hk hw hL
  simp only [Isr.Replay.see] at hs
  split at hs
  · rename_i hx
    simp only [Bool.and_eq_true, decide_eq_true_eq, Bool.or_eq_true] at hx
    exact ⟨s1, i, hx.2, hx.1.1⟩
  · cases hs

theorem orderly (h : Isr.Replays prec off (.start false false) L s) (hk : ∀ e ∈ L, Keeps K e) (hw : WeakOn prec (Time off L)) : Orderly prec off K L where
  calls P t Q hL := by
    obtain ⟨-, -, P', lk, -⟩ := at_called h hk hw hL
    exact ⟨P', lk⟩
  user P c r Q hL hP := by
    obtain ⟨s1, i, -, hx⟩ := at_did h hk hw hL
    obtain ⟨P', hP⟩ := hP
    rcases hx with hx | hx
    · cases c <;> first | exact ⟨_, rfl⟩ | cases hx
    · obtain ⟨-, -, -, -, -, n⟩ := i.running hx
      exact absurd hP (n P')
  immed P c t r Q hL hc := by
    obtain ⟨s1, i, hr, hx⟩ := at_did h hk hw hL
    have hx : s1.user = true := by
      rcases hx with hx | hx
      · rcases hc with rfl | rfl <;> cases hx
      · exact hx
    obtain ⟨W, -, k, -⟩ := i.running hx
    refine ⟨s1.σ.immed, by simpa using k.immeds, ?_⟩
    have hr : r = (s1.σ.schedule t).1.val := by rcases hc with rfl | rfl <;> exact hr
    have := k.nImm
    unfold Agenda.schedule at hr
    split at hr
    · exact .inl ⟨by assumption, hr⟩
    · exact .inr ⟨by omega, hr⟩
  immedCall P t Q hL kt := by
    obtain ⟨s1, ht, P', lk, k⟩ := at_called h hk hw hL
    rcases k with ⟨k1, -⟩ | ⟨-, ⟨k1, -⟩ | ⟨-, ⟨k1, W, k⟩ | ⟨k1, -⟩⟩⟩ <;> (try (rw [kt] at k1; cases k1; done))
    exact ⟨s1.σ.immed, by simpa using k.immeds⟩
  irq P t r Q hL := by
    obtain ⟨s1, i, hr, -⟩ := at_did h hk hw hL
    have hr : r = (s1.σ.interrupt t).1.val := hr
    unfold Agenda.interrupt at hr
    have one : ∀ {pm W}, Core K prec off P s1 [] pm W → ∃ l, irq P = runs K .irq P ++ l ∧
        ((∀ P', ¬ Looking P' P) → l.length < 7 ∧ r = SErr.val .none ∨ l.length = 7 ∧ r = SErr.val .full) ∧
        (l.length ≤ 7 ∧ r = SErr.val .none ∨ (l.length = 7 ∨ l.length = 8) ∧ r = SErr.val .full) := by
      intro pm W k
      have := k.nIrq
      have hh : s1.σ.irq.length < 7 ∧ r = SErr.val .none ∨ s1.σ.irq.length = 7 ∧ r = SErr.val .full := by
        split at hr
        · exact .inl ⟨by assumption, hr⟩
        · exact .inr ⟨by omega, hr⟩
      refine ⟨s1.σ.irq, by simpa using k.irqs, fun _ => hh, ?_⟩
      rcases hh with ⟨h1, h2⟩ | ⟨h1, h2⟩
      · exact .inl ⟨by omega, h2⟩
      · exact .inr ⟨.inl h1, h2⟩
    cases i with
    | user _ k => exact one k
    | entered _ _ k => exact one k
    | looking _ _ k => exact one k
    | due _ _ k => exact one k
    | immed _ _ k => exact one k
    | idle _ _ k => exact one k
    | @irq W l P' u e a k m lk =>
      have := k.nIrq
      refine ⟨u :: s1.σ.irq, by simpa using k.irqs, fun hn => absurd lk (hn P'), ?_⟩
      split at hr
      · exact .inl ⟨by simp; omega, hr⟩
      · exact .inr ⟨.inr (by simp; omega), hr⟩
  irqCall P t Q hL kt := by
    obtain ⟨s1, ht, P', lk, k⟩ := at_called h hk hw hL
    rcases k with ⟨k1, W, k⟩ | ⟨-, ⟨k1, -⟩ | ⟨-, ⟨k1, -⟩ | ⟨k1, -⟩⟩⟩ <;> (try (rw [kt] at k1; cases k1; done))
    exact ⟨s1.σ.irq, by simpa using k.irqs⟩
  due P t Q hL kt := by
    obtain ⟨s1, ht, P', lk, k⟩ := at_called h hk hw hL
    rcases k with ⟨k1, -⟩ | ⟨-, ⟨k1, x, W, rfl, k2, k⟩ | ⟨-, ⟨k1, -⟩ | ⟨k1, -⟩⟩⟩ <;> (try (rw [kt] at k1; cases k1; done))
    exact ⟨x.1, x.2.time, k.wait.first, k.clock ▸ k2⟩
  irqFirst P t Q P' hL kt lk' := by
    obtain ⟨s1, ht, P'', lk, k⟩ := at_called h hk hw hL
    obtain rfl := looking_unique lk lk'
    rcases k with ⟨k1, -⟩ | ⟨ni, -⟩
    · exact absurd k1 kt
    · exact ni
  dueFirst P t Q hL kt := by
    obtain ⟨s1, ht, P', lk, k⟩ := at_called h hk hw hL
    rcases k with ⟨k1, -⟩ | ⟨-, ⟨k1, -⟩ | ⟨nd, -⟩⟩
    · rw [k1] at kt; simp at kt
    · rw [k1] at kt; simp at kt
    · exact nd
  idle P t Q hL kt := by
    obtain ⟨s1, ht, P', lk, k⟩ := at_called h hk hw hL
    rcases k with ⟨k1, -⟩ | ⟨-, ⟨k1, -⟩ | ⟨-, ⟨k1, -⟩ | ⟨k1, k2, k3, W, k⟩⟩⟩ <;> (try (rw [kt] at k1; cases k1; done))
    have := k.immeds
    rw [k3] at this
    exact ⟨by simpa [NoImmed] using this, k2.trans k.idle⟩
  nothing P Q P' hL lk' := by
    obtain ⟨s1, s2, i, hs⟩ := at_entry h hk hw hL
    have hx : ∃ l, s1.steps = .chosen .null :: l ∨ s1.steps = .running :: l := by
      simp only [Isr.Replay.see] at hs
      split at hs
      · rename_i l hx; exact ⟨l, .inl hx⟩
      · rename_i l hx; exact ⟨l, .inr hx⟩
      · cases hs
    obtain ⟨l, hx | hx⟩ := hx
    · obtain ⟨P'', lk, k⟩ := i.about hx
      obtain rfl := looking_unique lk lk'
      rcases k with ⟨-, k1, -⟩ | ⟨ni, ⟨x, W, k1, -, k⟩ | ⟨nd, ⟨-, k1, -⟩ | ⟨k1, k2, W, k⟩⟩⟩
      · exact absurd rfl k1
      · exact absurd k1 (k.wait.at_ x (by simp)).2.2.2
      · exact absurd rfl k1
      · have := k.immeds
        rw [k2] at this
        exact ⟨ni, nd, by simpa [NoImmed] using this, k.idle ▸ k1.symm⟩
    · obtain ⟨-, -, -, -, -, n⟩ := i.running (by simp [Isr.Replay.user, hx])
      exact absurd lk' (n P')
  defer P c t x r Q hL hc := by
    obtain ⟨s1, i, hr, hx⟩ := at_did h hk hw hL
    have hx : s1.user = true := by
      rcases hx with hx | hx
      · rcases hc with rfl | rfl <;> cases hx
      · exact hx
    obtain ⟨W, -, k, m, -⟩ := i.running hx
    have hb : (bag P).length = s1.σ.due.length := by rw [k.wait.bag.length_eq, ← m]; simp
    have hn := k.nDue
    have hm : s1.σ.due.length = W.length := by rw [← m]; simp
    have hr : ∃ T, r = (s1.σ.defer prec t T).1.val := by rcases hc with rfl | rfl <;> exact ⟨_, hr⟩
    obtain ⟨T, hr⟩ := hr
    unfold Agenda.defer at hr
    split at hr
    · exact .inl ⟨by omega, hr⟩
    · exact .inr ⟨by omega, hr⟩
  remove P t r Q hL := by
    obtain ⟨s1, i, hr, hx⟩ := at_did h hk hw hL
    have hx : s1.user = true := by
      rcases hx with hx | hx
      · cases hx
      · exact hx
    obtain ⟨W, -, k, m, -⟩ := i.running hx
    have hr : r = (s1.σ.cancel t).1.val := hr
    have hb : t ∈ bag P ↔ ∃ d ∈ s1.σ.due, d.task = t := by
      rw [k.wait.bag.mem_iff, ← m]
      constructor
      · intro hy
        obtain ⟨x, hz, e⟩ := List.mem_map.1 hy
        exact ⟨x.2, List.mem_map.2 ⟨x, hz, rfl⟩, e⟩
      · rintro ⟨d, hd, e⟩
        obtain ⟨x, hz, e'⟩ := List.mem_map.1 hd
        exact List.mem_map.2 ⟨x, hz, by rw [e', e]⟩
    rw [hr]
    unfold Agenda.cancel
    by_cases hc : ∃ d ∈ s1.σ.due, d.task = t
    · rw [if_pos (hb.2 hc)]; simp only [hc, if_true]
    · rw [if_neg (fun h => hc (hb.1 h))]; simp only [hc, if_false]
  next P r Q hL := by
    obtain ⟨s1, i, hr, hx⟩ := at_did h hk hw hL
    have hx : s1.user = true := by
      rcases hx with hx | hx
      · cases hx
      · exact hx
    obtain ⟨W, -, k, m, -⟩ := i.running hx
    have hr : r = s1.σ.next := hr
    cases W with
    | nil =>
      left
      refine ⟨?_, ?_⟩
      · have : s1.σ.due = [] := by simpa using m.symm
        rw [hr, Agenda.next, this]
      · have := k.wait.bag
        simpa using this
    | cons x W =>
      right
      have : s1.σ.due = x.2 :: W.map (·.2) := by simpa using m.symm
      obtain rfl : r = x.2.task := by rw [hr, Agenda.next, this]
      exact ⟨x.1, x.2.time, k.wait.bag.mem_iff.2 (by simp), k.wait.first⟩
  current P r Q hL := by
    obtain ⟨s1, i, hr, hx⟩ := at_did h hk hw hL
    have hx : s1.user = true := by
      rcases hx with hx | hx
      · cases hx
      · exact hx
    obtain ⟨W, -, k, m, u, -⟩ := i.running hx
    exact (show r = s1.σ.cur from hr).trans u
  getIdle P r Q hL := by
    obtain ⟨s1, i, hr, hx⟩ := at_did h hk hw hL
    have hx : s1.user = true := by
      rcases hx with hx | hx
      · cases hx
      · exact hx
    obtain ⟨W, -, k, -⟩ := i.running hx
    exact (show r = s1.σ.idle from hr).trans k.idle

end Mu.CS.Story
