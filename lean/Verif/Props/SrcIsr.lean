import Verif.Lemmas.SrcIsrCode
import Verif.Props.SrcProgram

/-! # C134: interrupts between any two memory accesses of a program around the parsed scheduler -/

namespace Mu.CS.Isr

open Act Conc

variable {A : Arch} {X : AExt} {U : User} {prec : CVal → CVal → Bool} {off : CVal → CVal → CVal}
variable {Gd : List Seen → Prop} {T : Tale U prec off Gd}
variable {h h' : Heap}

/-- What is safe stays safe from one moment to the next. -/
theorem Step.safe {α : Type} {s s' : Act α × Heap} (st : Step A X U s s') {Q : α → Heap → Prop} (w : s.1.safe (env A X T) s.2 Q) :
    s'.1.safe (env A X T) s'.2 Q := by
  cases st with
  | mem e =>
    obtain ⟨-, v, h2, e', w⟩ := w _ (.nil _)
    rw [e] at e'
    obtain ⟨rfl, rfl⟩ := Prod.mk.inj (Except.ok.inj e')
    exact w
  | pick b => exact w b
  | outside o => exact safe_rel w (.snoc (.nil _) o)

theorem Steps.safe {α : Type} {s s' : Act α × Heap} (st : Steps A X U s s') {Q : α → Heap → Prop} (w : s.1.safe (env A X T) s.2 Q) :
    s'.1.safe (env A X T) s'.2 Q := by
  induction st with
  | nil => exact w
  | snoc _ st ih => exact st.safe ih

/-- What is safe does not fault. -/
theorem safe_fine {α : Type} {a : Act α} {Q : α → Heap → Prop} (w : a.safe (env A X T) h Q) : Fine h a := by
  cases a with
  | done a => trivial
  | fail e => exact w.1
  | mem f k =>
    obtain ⟨-, v, h2, e, -⟩ := w h (.nil _)
    exact ⟨v, h2, e⟩
  | pick k => trivial

/-- After `mu_sched_init`. -/
theorem Holds.init (H : Honest A X U prec off) {Y : Ext} {n : Nat} {r : CVal} {h0 : Heap} (v : h0.SchedVars) (hi : U.inv h0)
    (hl : U.log h0 = []) (hk : U.Hooks h0)
    (e : sem A Y prog (n + 3) .mu_sched_init h0 [] = .ok (r, h)) (ht : T.holds [] U.start) : Holds T U.start h h := by
  obtain ⟨h1', hd, ix, e1, q, o⟩ := C128_init A Y n v
  rw [e] at e1
  obtain ⟨rfl, rfl⟩ := Prod.mk.inj (Except.ok.inj e1)
  obtain ⟨i, l⟩ := H.frame _ _ o hi
  have slots : ∀ i : Nat, i < 8 → (h.at (.glob .s_irq_store) i).isSome = true := by
    intro i hi
    rw [Heap.isSome_at]
    have := q.vars.irq
    omega
  obtain ⟨x, hx⟩ := Option.isSome_iff_exists.mp (slots (hd % 8) (Nat.mod_lt _ (by omega)))
  have hlog : T.holds (U.log h) U.start := by rw [l, hl]; exact ht
  have full : Full h := by
    intro i hi hu
    have hl : i < (h.cells (.glob .s_irq_store)).length := by have := q.vars.irq; omega
    have he : h.at (.glob .s_irq_store) (i : Nat) = some ((h.cells (.glob .s_irq_store))[i]) := by
      simp [Heap.at, List.getElem?_eq_getElem hl]
    rw [he] at hu
    exact q.vars.defd _ (by simp [SchedVar]) _ (List.getElem_mem hl) (Option.some.inj hu)
  refine ⟨⟨[], ⟨hd, ⟨.idle, .idle, []⟩, x, none, .undef⟩, rfl, hlog, i, ⟨q.mask, ?_, ?_, q.irqStore, ?_, ?_, ?_, ?_, ?_⟩, rfl, ?_, full, fun _ _ _ _ => rfl, ?_, ?_⟩,
    ⟨hd, ix, q⟩, ⟨?_, ?_, .inl rfl, .inl rfl⟩⟩
  · have := q.head
    simpa [irqPlace, Nat.mod_eq_of_lt q.hdLt] using this
  · have := q.tail
    simpa [irqPlace] using this
  · show 0 < 8
    decide
  · simp
  · simpa [irqPlace] using hx
  · simpa [irqPlace] using slots
  · simp
  · simp [Replay.at]
  · rw [o.cell _ _ (by simp [SchedVar])]; exact hk.1
  · rw [o.cell _ _ (by simp [SchedVar])]; exact hk.2
  · simp [User.start, Replay.start]
  · simp [User.start, Replay.start]

/-- Logs without `mu_sched_reset`. -/
def plain (U : User) (prec : CVal → CVal → Bool) (off : CVal → CVal → CVal) : Tale U prec off (fun l => ∃ s, Replays prec off U.start l s) where
  holds := Replays prec off U.start
  stale := false
  isr := .see
  sound h := ⟨_, h⟩
  hooks h := h.hooks

instance : (plain U prec off).Full := ⟨rfl, fun h g _ => .see h g, .look⟩

/-- **C134, interrupts at any point**: `mu_sched_init` is called, then user code runs, calls the scheduler, tasks are called from
within `mu_sched_step` and call the scheduler themselves, to any depth; between any two memory accesses of all this - in the
middle of `mu_sched_step`, of `mu_spsc_get`, of a task - interrupts call `mu_sched_from_isr`.  At every moment the log is right,
and what comes next is not a fault. -/
theorem C134_interrupted (hu : U.resets = false) (H : Honest A X U prec off) {Y : Ext} {n k : Nat} {r : CVal} {h0 : Heap} (v : h0.SchedVars) (hi : U.inv h0)
    (hl : U.log h0 = []) (hk : U.Hooks h0)
    (e : sem A Y prog (k + 3) .mu_sched_init h0 [] = .ok (r, h)) {a a' : Act CVal} (c : Code (semA A X prog n) U a)
    (run : Steps A X U (a, h) (a', h')) : (∃ s, Replays prec off U.start (U.log h') s) ∧ Fine h' a' := by
  have w := run.safe (code_safe (T := plain U prec off) (fun x => by rw [hu] at x; cases x) H n a c _ _ _ (Holds.init H v hi hl hk e (.nil _)) rfl)
  exact ⟨safe_good w (.nil _), safe_fine w⟩

/-- **C134, in the end**: when the main program has returned, no step is left unfinished. -/
theorem C134_finished (hu : U.resets = false) (H : Honest A X U prec off) {Y : Ext} {n k : Nat} {r x : CVal} {h0 : Heap} (v : h0.SchedVars) (hi : U.inv h0)
    (hl : U.log h0 = []) (hk : U.Hooks h0)
    (e : sem A Y prog (k + 3) .mu_sched_init h0 [] = .ok (r, h)) {a : Act CVal} (c : Code (semA A X prog n) U a)
    (run : Steps A X U (a, h) (.done x, h')) : ∃ s, Replays prec off U.start (U.log h') s ∧ s.steps = [] := by
  have w := run.safe (code_safe (T := plain U prec off) (fun x => by rw [hu] at x; cases x) H n a c _ _ _ (Holds.init H v hi hl hk e (.nil _)) rfl)
  obtain ⟨-, s', m', i, hs⟩ := w h' (.nil _)
  obtain ⟨irq, q, -, i⟩ := i.here
  exact ⟨_, i.log, hs⟩

/-! ## What a right log says -/

/-- On the agenda, or taken off it and about to be called - perhaps while the call hook runs. -/
def Replay.owed (s : Replay) (t : CVal) : Nat := s.σ.waiting t + s.steps.count (.chosen t) + s.steps.count (.hooked t)

variable {s s' : Replay}

/-- A call that returns ends no step. -/
theorem after_fits {c : Req} (hf : s.fits c = true) : s.after c = s.steps ∨ ∃ u, s.steps = .transferring u :: s.after c := by
  cases c with
  | transfer u =>
    simp only [Replay.fits, Bool.or_eq_true, Bool.not_eq_true', decide_eq_true_eq] at hf
    simp only [Replay.after]
    cases hh : s.transferHook with
    | false => exact .inl rfl
    | true =>
      rw [hh] at hf
      refine .inr ⟨u, ?_⟩
      cases hs : s.steps with
      | nil => simp [hs] at hf
      | cons p l => simp [hs] at hf; simp [hf]
  | _ => exact .inl rfl

theorem after_count {c : Req} (hf : s.fits c = true) (t : CVal) :
    (s.after c).count (.chosen t) = s.steps.count (.chosen t) ∧ (s.after c).count (.hooked t) = s.steps.count (.hooked t) := by
  rcases after_fits hf with e | ⟨u, e⟩ <;> rw [e] <;> simp [List.count_cons]

theorem see_owed {t : CVal} (ht : t ≠ .null) {e : Seen} (hs : s.see prec off e = some s') (hi : s.σ.idle ≠ t)
    (he : ∀ r, e ≠ .did (.setIdle t) r) :
    s'.σ.idle ≠ t ∧ ∃ k, (if e = .called t then 1 else 0) + s'.owed t + k = (if e.scheduled t then 1 else 0) + s.owed t ∧
      (e.dropped t = false → k = 0) := by
  obtain ⟨σ, st, clk, ch, th⟩ := s
  simp only at hi
  cases e with
  | did c r =>
    simp only [Replay.see] at hs
    split at hs
    · rename_i hc
      obtain rfl : _ = s' := Option.some.inj hs
      have hr : r = (c.answer prec off clk σ).1 := by
        have := (Bool.and_eq_true _ _ ▸ hc).2
        simpa using this
      subst hr
      have hfit : (Replay.mk σ st clk ch th).fits c = true := by simp at hc; exact hc.2
      obtain ⟨hA1, hA2⟩ := after_count hfit t
      simp only at hA1 hA2
      generalize (Replay.mk σ st clk ch th).after c = st' at hA1 hA2 ⊢
      have plain : ∀ {σ' : Agenda} {u : CVal} {x : SErr}, σ'.idle = σ.idle ∧ σ'.waiting t = (if u = t ∧ x = .none then 1 else 0) + σ.waiting t →
          σ'.idle ≠ t ∧ ∃ k, 0 + (Replay.mk σ' st' clk ch th).owed t + k =
            (if (decide (u = t) && decide (x.val = SErr.val .none)) = true then 1 else 0) + (Replay.mk σ st clk ch th).owed t ∧ (false = false → k = 0) := by
        intro σ' u x ⟨h1, h2⟩
        refine ⟨h1 ▸ hi, 0, ?_, fun _ => rfl⟩
        simp only [Replay.owed, h2, Bool.and_eq_true, decide_eq_true_eq, SErr.val_none, hA1, hA2]
        omega
      cases c with
      | immed u => exact plain (waiting_schedule σ u t)
      | transfer u => exact plain (waiting_schedule σ u t)
      | fromIsr u => exact plain (waiting_interrupt σ u t)
      | deferUntil u time => exact plain (waiting_defer σ u time t)
      | deferFor u delay => exact plain (waiting_defer σ u (off clk delay) t)
      | remove u =>
        obtain ⟨h1, h2, h3⟩ := waiting_cancel σ u t
        refine ⟨h1 ▸ hi, σ.waiting t - (σ.cancel u).2.waiting t, ?_, ?_⟩
        · simp only [Replay.owed, Req.answer, Seen.scheduled, hA1, hA2, reduceCtorEq, if_false, Bool.false_eq_true]
          omega
        · intro hd
          have : u ≠ t := by simpa [Seen.dropped] using hd
          rw [h3 this]
          omega
      | reset =>
        refine ⟨hi, σ.waiting t, ?_, fun hd => by simp [Seen.dropped] at hd⟩
        simp [Replay.owed, Req.answer, Seen.scheduled, Agenda.reset, Agenda.waiting, hA1, hA2]
        omega
      | setIdle u =>
        refine ⟨fun hu => he .undef (by rw [← show u = t from hu]; rfl), 0, ?_, fun _ => rfl⟩
        simp [Replay.owed, Req.answer, Seen.scheduled, Agenda.waiting, hA1, hA2]
      | _ => exact ⟨hi, 0, by simp [Replay.owed, Req.answer, Seen.scheduled, hA1, hA2], fun _ => rfl⟩
    · cases hs
  | clock now =>
    simp only [Replay.see] at hs
    split at hs
    · rename_i l
      obtain rfl : _ = s' := Option.some.inj hs
      obtain ⟨h1, h2⟩ := owed_choose (prec := prec) (now := now) ht hi
      refine ⟨h2 ▸ hi, 0, ?_, fun _ => rfl⟩
      simp only [Replay.owed, Seen.scheduled, List.count_cons, reduceCtorEq, if_false, Bool.false_eq_true, beq_iff_eq, Phase.chosen.injEq]
      omega
    · split at hs
      · obtain rfl : _ = s' := Option.some.inj hs
        exact ⟨hi, 0, by simp [Replay.owed, Seen.scheduled], fun _ => rfl⟩
      · cases hs
  | step =>
    simp only [Replay.see] at hs
    split at hs
    · obtain rfl : _ = s' := Option.some.inj hs
      exact ⟨hi, 0, by simp [Replay.owed, Seen.scheduled], fun _ => rfl⟩
    · cases hs
  | called u =>
    simp only [Replay.see] at hs
    have key : ∀ {w : CVal} {l : List Phase} {p : Phase}, w = u → p = .chosen w ∨ p = .hooked w →
        st = p :: l → some (Replay.mk σ (.running :: l) clk ch th) = some s' → s'.σ.idle ≠ t ∧ ∃ k, (if Seen.called u = .called t then 1 else 0) + s'.owed t + k =
          (if (Seen.called u).scheduled t then 1 else 0) + (Replay.mk σ st clk ch th).owed t ∧ ((Seen.called u).dropped t = false → k = 0) := by
      rintro w l p rfl hp rfl hs
      obtain rfl : _ = s' := Option.some.inj hs
      refine ⟨hi, 0, ?_, fun _ => rfl⟩
      rcases hp with rfl | rfl <;>
        simp only [Replay.owed, Seen.scheduled, List.count_cons, reduceCtorEq, if_false, Bool.false_eq_true, beq_iff_eq, Phase.chosen.injEq, Phase.hooked.injEq, Seen.called.injEq] <;> omega
    split at hs
    · rename_i w l
      split at hs
      · rename_i hw
        exact key (by simp at hw; exact hw.1.1) (.inl rfl) rfl hs
      · cases hs
    · rename_i w l
      split at hs
      · rename_i hw
        exact key hw (.inr rfl) rfl hs
      · cases hs
    · cases hs
  | hooked u =>
    simp only [Replay.see] at hs
    split at hs
    · rename_i w l
      split at hs
      · rename_i hw
        obtain rfl : w = u := by simp at hw; exact hw.1.1
        obtain rfl : _ = s' := Option.some.inj hs
        refine ⟨hi, 0, ?_, fun _ => rfl⟩
        simp only [Replay.owed, Seen.scheduled, List.count_cons, reduceCtorEq, if_false, Bool.false_eq_true, beq_iff_eq, Phase.chosen.injEq, Phase.hooked.injEq]
        omega
      · cases hs
    · cases hs
  | transferring u =>
    simp only [Replay.see] at hs
    split at hs
    · obtain rfl : _ = s' := Option.some.inj hs
      exact ⟨hi, 0, by simp [Replay.owed, Seen.scheduled], fun _ => rfl⟩
    · cases hs
  | stepped =>
    simp only [Replay.see] at hs
    split at hs
    · obtain rfl : _ = s' := Option.some.inj hs
      refine ⟨hi, 0, ?_, fun _ => rfl⟩
      simp [Replay.owed, Seen.scheduled, List.count_cons, Agenda.waiting, Ne.symm ht]
    · obtain rfl : _ = s' := Option.some.inj hs
      refine ⟨hi, 0, ?_, fun _ => rfl⟩
      simp [Replay.owed, Seen.scheduled, List.count_cons, Agenda.waiting]
    · cases hs

theorem look_owed (t : CVal) (hs : s.look = some s') : s'.owed t = s.owed t ∧ s'.σ.idle = s.σ.idle := by
  obtain ⟨σ, st, clk, ch, th⟩ := s
  simp only [Replay.look] at hs
  split at hs
  · split at hs
    · rename_i u irq hx
      obtain rfl : _ = s' := Option.some.inj hs
      refine ⟨?_, rfl⟩
      simp only [Replay.owed, Agenda.waiting, List.count_cons, hx, beq_iff_eq, Phase.chosen.injEq, reduceCtorEq, if_false]
      omega
    · obtain rfl : _ = s' := Option.some.inj hs
      exact ⟨by simp [Replay.owed], rfl⟩
  · cases hs

theorem replays_owed {t : CVal} (ht : t ≠ .null) {l : List Seen} (hs : Replays prec off s l s') (hi : s.σ.idle ≠ t)
    (he : ∀ r, .did (.setIdle t) r ∉ l) :
    s'.σ.idle ≠ t ∧ ∃ k, l.countP (fun e => e = .called t) + s'.owed t + k = l.countP (Seen.scheduled t) + s.owed t ∧
      ((∀ e ∈ l, e.dropped t = false) → k = 0) := by
  induction hs with
  | nil => exact ⟨hi, 0, by simp, fun _ => rfl⟩
  | see _ h1 ih =>
    obtain ⟨hi1, k, hk, hk0⟩ := ih fun r hr => he r (by simp [hr])
    obtain ⟨hi2, k', hk', hk0'⟩ := see_owed ht h1 hi1 fun r h' => he r (by simp [h'])
    refine ⟨hi2, k + k', ?_, fun hd => ?_⟩
    · simp only [List.countP_append, List.countP_cons, List.countP_nil, decide_eq_true_eq]
      omega
    · rw [hk0 (fun e h' => hd e (by simp [h'])), hk0' (hd _ (by simp))]
  | look _ h1 ih =>
    obtain ⟨hi1, k, hk, hk0⟩ := ih he
    obtain ⟨h2, h3⟩ := look_owed t h1
    exact ⟨h3 ▸ hi1, k, by rw [h2]; exact hk, hk0⟩

/-- **C134, no task lost, none called twice**: at every moment, whatever interrupts there have been, a task that has never been
made the idle task has been called as often as it has been scheduled with success - by user code or by an interrupt - less
those that wait or are about to be called, and less those that were removed by `mu_sched_remove_deferred_task`. -/
theorem C134_accounts (hu : U.resets = false) (H : Honest A X U prec off) {Y : Ext} {n k : Nat} {r : CVal} {h0 : Heap} (v : h0.SchedVars) (hi : U.inv h0)
    (hl : U.log h0 = []) (hk : U.Hooks h0)
    (e : sem A Y prog (k + 3) .mu_sched_init h0 [] = .ok (r, h)) {a a' : Act CVal} (c : Code (semA A X prog n) U a)
    (run : Steps A X U (a, h) (a', h')) {t : CVal} (ht : t ≠ .null) (hn : ∀ r, .did (.setIdle t) r ∉ U.log h') :
    ∃ s, Replays prec off U.start (U.log h') s ∧
      (U.log h').countP (fun e => e = .called t) + s.owed t ≤ (U.log h').countP (Seen.scheduled t) ∧
      ((∀ e ∈ U.log h', e.dropped t = false) →
        (U.log h').countP (fun e => e = .called t) + s.owed t = (U.log h').countP (Seen.scheduled t)) := by
  obtain ⟨⟨s, hs⟩, -⟩ := C134_interrupted hu H v hi hl hk e c run
  obtain ⟨-, k, hk, hk0⟩ := replays_owed ht hs (by simp [User.start, Replay.start, Ne.symm ht]) hn
  have hst : U.start.owed t = 0 := by simp [Replay.owed, User.start, Replay.start, Agenda.waiting]
  refine ⟨s, hs, by omega, fun hd => ?_⟩
  have := hk0 hd
  omega

/-! ## An interrupt is answered promptly -/

/-- How far an interrupt's task has come, `k` steps having been entered since. -/
def Ahead (s : Replay) (t : CVal) (k : Nat) : Prop :=
  (s.steps.head? = some (.chosen t) ∧ k ≤ 7) ∨
    ∃ p : Nat, s.σ.irq[p]? = some t ∧ p + k ≤ 6 + (if s.steps.head? = some .entered then 1 else 0)

theorem answer_irq {σ : Agenda} {clk : CVal} {c : Req} (hc : c ≠ .reset) : ∃ l, (c.answer prec off clk σ).2.irq = σ.irq ++ l := by
  cases c with
  | reset => exact absurd rfl hc
  | fromIsr u =>
    simp only [Req.answer, Agenda.interrupt]
    split
    exacts [⟨[u], rfl⟩, ⟨[], by simp⟩]
  | immed u =>
    simp only [Req.answer, Agenda.schedule]
    split <;> exact ⟨[], by simp⟩
  | transfer u =>
    simp only [Req.answer, Agenda.schedule]
    split <;> exact ⟨[], by simp⟩
  | deferUntil u x =>
    simp only [Req.answer, Agenda.defer]
    split <;> exact ⟨[], by simp⟩
  | deferFor u x =>
    simp only [Req.answer, Agenda.defer]
    split <;> exact ⟨[], by simp⟩
  | _ => exact ⟨[], by simp [Req.answer, Agenda.cancel]⟩

theorem choose_irq {σ : Agenda} {now : CVal} : (σ.choose prec now).irq = σ.irq := by
  unfold Agenda.choose Agenda.queued
  split
  · split
    · split <;> rfl
    · split
      · dsimp only; split <;> rfl
      · rfl
  · split <;> rfl

/-- The first that is seen of a task that is called: the call hook, or the task. -/
def firstSeen (hook : Bool) (t : CVal) : Seen := if hook then .hooked t else .called t

theorem see_ahead {t : CVal} (ht : t ≠ .null) {k : Nat} (a : Ahead s t k) {e : Seen} (hs : s.see prec off e = some s')
    (hr : ∀ r, e ≠ .did .reset r) (hc : e ≠ firstSeen s.callHook t) : Ahead s' t (k + if e = .step then 1 else 0) := by
  obtain ⟨σ, st, clk, ch, th⟩ := s
  cases e with
  | did c r =>
    simp only [Replay.see] at hs
    split at hs
    · rename_i hx
      have hfit : (Replay.mk σ st clk ch th).fits c = true := by simp at hx; exact hx.1.2
      have hd := after_fits hfit
      obtain rfl : _ = s' := Option.some.inj hs
      generalize (Replay.mk σ st clk ch th).after c = st' at hd ⊢
      simp only at hd
      obtain ⟨l, hl⟩ := answer_irq (prec := prec) (off := off) (σ := σ) (clk := clk) (c := c) fun h => hr r (by rw [h])
      have up : ∀ p : Nat, σ.irq[p]? = some t → (c.answer prec off clk σ).2.irq[p]? = some t := by
        intro p a1
        rw [hl, List.getElem?_append_left (List.getElem?_eq_some_iff.mp a1).1]
        exact a1
      rcases hd with rfl | ⟨u, rfl⟩
      · rcases a with a | ⟨p, a1, a2⟩
        · exact .inl a
        · exact .inr ⟨p, up p a1, a2⟩
      · rcases a with ⟨a, -⟩ | ⟨p, a1, a2⟩
        · simp at a
        · simp only [List.head?_cons, Option.some.injEq, reduceCtorEq, if_false] at a2
          refine .inr ⟨p, up p a1, ?_⟩
          simp only [reduceCtorEq, if_false]
          omega
    · cases hs
  | clock now =>
    simp only [Replay.see] at hs
    split at hs
    · obtain rfl : _ = s' := Option.some.inj hs
      rcases a with ⟨a, -⟩ | ⟨p, a1, a2⟩
      · simp at a
      · exact .inr ⟨p, by simpa only [choose_irq] using a1, by simpa using a2⟩
    · split at hs
      · obtain rfl : _ = s' := Option.some.inj hs
        exact a
      · cases hs
  | step =>
    simp only [Replay.see] at hs
    split at hs
    · rename_i hu
      obtain rfl : _ = s' := Option.some.inj hs
      rcases a with ⟨a, -⟩ | ⟨p, a1, a2⟩
      · exfalso
        have a : st.head? = some (.chosen t) := a
        cases st with
        | nil => cases a
        | cons x st =>
          obtain rfl : x = .chosen t := by simpa using a
          simp [Replay.user, Phase.user] at hu
      · refine .inr ⟨p, a1, ?_⟩
        have : st.head? ≠ some .entered := by
          intro hx
          cases st with
          | nil => cases hx
          | cons x st =>
            obtain rfl : x = .entered := by simpa using hx
            simp [Replay.user, Phase.user] at hu
        simp only [this, if_false] at a2
        simp only [List.head?_cons, if_true]
        omega
    · cases hs
  | called u =>
    simp only [Replay.see] at hs
    split at hs
    · rename_i w l
      split at hs
      · rename_i hw
        obtain ⟨⟨rfl, -⟩, rfl⟩ : (w = u ∧ u ≠ .null) ∧ ch = false := by simpa using hw
        obtain rfl : _ = s' := Option.some.inj hs
        rcases a with ⟨a, -⟩ | ⟨p, a1, a2⟩
        · obtain rfl : w = t := by simpa using a
          exact absurd rfl hc
        · exact .inr ⟨p, a1, by simpa using a2⟩
      · cases hs
    · rename_i w l
      split at hs
      · obtain rfl : _ = s' := Option.some.inj hs
        rcases a with ⟨a, -⟩ | ⟨p, a1, a2⟩
        · simp at a
        · exact .inr ⟨p, a1, by simpa using a2⟩
      · cases hs
    · cases hs
  | hooked u =>
    simp only [Replay.see] at hs
    split at hs
    · rename_i w l
      split at hs
      · rename_i hw
        obtain ⟨⟨rfl, -⟩, rfl⟩ : (w = u ∧ u ≠ .null) ∧ ch = true := by simpa using hw
        obtain rfl : _ = s' := Option.some.inj hs
        rcases a with ⟨a, -⟩ | ⟨p, a1, a2⟩
        · obtain rfl : w = t := by simpa using a
          exact absurd rfl hc
        · exact .inr ⟨p, a1, by simpa using a2⟩
      · cases hs
    · cases hs
  | transferring u =>
    simp only [Replay.see] at hs
    split at hs
    · rename_i hu
      obtain rfl : _ = s' := Option.some.inj hs
      rcases a with ⟨a, -⟩ | ⟨p, a1, a2⟩
      · have a : st.head? = some (.chosen t) := a
        simp [Replay.user, a, Phase.user] at hu
      · refine .inr ⟨p, a1, ?_⟩
        have : st.head? ≠ some .entered := fun hx => by simp [Replay.user, hx, Phase.user] at hu
        simp only [this, if_false] at a2
        simp only [List.head?_cons, Option.some.injEq, reduceCtorEq, if_false]
        omega
    · cases hs
  | stepped =>
    simp only [Replay.see] at hs
    have key : ∀ x l, st = x :: l → x ≠ .chosen t → x ≠ .entered → Ahead ⟨{ σ with cur := .null }, l, clk, ch, th⟩ t k := by
      rintro x l rfl h1 h2
      rcases a with ⟨a, -⟩ | ⟨p, a1, a2⟩
      · exact absurd (by simpa using a) h1
      · refine .inr ⟨p, a1, ?_⟩
        have : (x :: l).head? ≠ some .entered := by simpa using h2
        simp only [this, if_false] at a2
        omega
    split at hs
    · obtain rfl : _ = s' := Option.some.inj hs
      exact key _ _ rfl (by simp [Ne.symm ht]) (by simp)
    · obtain rfl : _ = s' := Option.some.inj hs
      exact key _ _ rfl (by simp) (by simp)
    · cases hs

theorem look_ahead {t : CVal} {k : Nat} (a : Ahead s t k) (hs : s.look = some s') : Ahead s' t k := by
  obtain ⟨σ, st, clk, ch, th⟩ := s
  simp only [Replay.look] at hs
  split at hs
  · split at hs
    · rename_i u irq hx
      obtain rfl : _ = s' := Option.some.inj hs
      rcases a with ⟨a, -⟩ | ⟨p, a1, a2⟩
      · simp at a
      · rw [show σ.irq = u :: irq from hx] at a1
        simp only [List.head?_cons, if_true] at a2
        cases p with
        | zero =>
          obtain rfl : u = t := by simpa using a1
          exact .inl ⟨rfl, by omega⟩
        | succ p =>
          refine .inr ⟨p, by simpa using a1, ?_⟩
          simp only [List.head?_cons, Option.some.injEq, reduceCtorEq, if_false]
          omega
    · rename_i hx
      rcases a with ⟨a, -⟩ | ⟨p, a1, a2⟩
      · simp at a
      · rw [show σ.irq = [] from hx] at a1
        simp at a1
  · cases hs

theorem Replays.ahead {t : CVal} (ht : t ≠ .null) {l : List Seen} (hs : Replays prec off s l s') (a : Ahead s t 0)
    (hr : ∀ r, .did .reset r ∉ l) (hc : firstSeen s.callHook t ∉ l) : Ahead s' t (l.countP (fun e => e = .step)) := by
  induction hs with
  | nil => exact a
  | see h0 h1 ih =>
    have := see_ahead ht (ih (fun r h => hr r (by simp [h])) (fun h => hc (by simp [h]))) h1 (fun r h => hr r (by simp [h]))
      (fun h => hc (by rw [← h0.hooks.1, ← h]; simp))
    simpa [List.countP_append, List.countP_cons] using this
  | look _ h1 ih => exact look_ahead (ih hr hc) h1

theorem Replays.split {l1 l2 : List Seen} (hs : Replays prec off s (l1 ++ l2) s') :
    ∃ s1, Replays prec off s l1 s1 ∧ Replays prec off s1 l2 s' := by
  generalize hl : l1 ++ l2 = l at hs
  induction hs generalizing l2 with
  | nil =>
    obtain ⟨rfl, rfl⟩ := List.append_eq_nil_iff.mp hl
    exact ⟨_, .nil _, .nil _⟩
  | @see sa sb l e h0 h1 ih =>
    rcases List.eq_nil_or_concat l2 with rfl | ⟨l2', x, rfl⟩
    · rw [List.append_nil] at hl
      exact ⟨_, hl ▸ .see h0 h1, .nil _⟩
    · rw [List.concat_eq_append, ← List.append_assoc] at hl
      obtain ⟨e1, e2⟩ := List.append_inj' hl rfl
      obtain rfl : x = e := by simpa using e2
      obtain ⟨s1, a, b⟩ := ih e1
      rw [List.concat_eq_append]
      exact ⟨s1, a, .see b h1⟩
  | look h0 h1 ih =>
    obtain ⟨s1, a, b⟩ := ih hl
    exact ⟨s1, a, .look b h1⟩

/-- One entry, with looks before and after it. -/
theorem Replays.single {e : Seen} (hs : Replays prec off s [e] s') : ∃ sa sb : Replay, sa.see prec off e = some sb ∧ Replays prec off sb [] s' := by
  generalize hl : [e] = l at hs
  induction hs with
  | nil => cases hl
  | @see sa sb l x h0 h1 ih =>
    cases l with
    | nil =>
      obtain rfl : e = x := by simpa using hl
      exact ⟨_, _, h1, .nil _⟩
    | cons y l => simp at hl
  | look h0 h1 ih =>
    obtain ⟨sa, sb, a, b⟩ := ih hl
    exact ⟨sa, sb, a, .look b h1⟩

theorem interrupt_ahead {sa sb : Replay} {t : CVal} (h : sa.see prec off (.did (.fromIsr t) (SErr.val .none)) = some sb) : Ahead sb t 0 := by
  simp only [Replay.see] at h
  split at h
  · rename_i hc
    obtain rfl := Option.some.inj h
    simp only [Req.answer, Req.isr, Bool.true_or, Bool.true_and, decide_eq_true_eq, Agenda.interrupt] at hc ⊢
    split at hc
    · rename_i hl
      refine .inr ⟨sa.σ.irq.length, ?_, ?_⟩
      · simp [hl]
      · dsimp only
        omega
    · simp [SErr.val] at hc
  · cases h

/-- **C134, an interrupt is answered promptly**: if an interrupt has scheduled a task with success, then by the time the program
enters `mu_sched_step` for the eighth time after that, the task has been called - or the call hook with it, if there is one -
whatever the program and other interrupts have done in between. -/
theorem C134_prompt (hu : U.resets = false) (H : Honest A X U prec off) {Y : Ext} {n k : Nat} {r : CVal} {h0 : Heap} (v : h0.SchedVars) (hi : U.inv h0)
    (hl : U.log h0 = []) (hk : U.Hooks h0)
    (e : sem A Y prog (k + 3) .mu_sched_init h0 [] = .ok (r, h)) {a a' : Act CVal} (c : Code (semA A X prog n) U a)
    (run : Steps A X U (a, h) (a', h')) {t : CVal} (ht : t ≠ .null) {l1 l2 : List Seen}
    (hlog : U.log h' = l1 ++ .did (.fromIsr t) (.int 0) :: l2) (hr : ∀ r, .did .reset r ∉ l2) (h8 : 8 ≤ l2.countP (fun e => e = .step)) :
    (if U.callHook = none then .called t else .hooked t) ∈ l2 := by
  obtain ⟨⟨s, hs⟩, -⟩ := C134_interrupted hu H v hi hl hk e c run
  rw [hlog] at hs
  obtain ⟨s1, hs1, hs⟩ := Replays.split hs
  obtain ⟨s2, h1, h2⟩ := Replays.split (l1 := [_]) (l2 := l2) hs
  obtain ⟨sa, sb, h3, h4⟩ := h1.single
  have hh : (if U.callHook = none then .called t else .hooked t) = firstSeen s2.callHook t := by
    rw [h1.hooks.1, hs1.hooks.1]
    show _ = firstSeen U.callHook.isSome t
    generalize U.callHook = x
    cases x <;> rfl
  rw [hh]
  by_contra hc
  have a1 := h4.ahead ht (interrupt_ahead h3) (by simp) (by simp)
  rcases h2.ahead ht a1 hr hc with ⟨-, h5⟩ | ⟨p, -, h5⟩
  · omega
  · split at h5 <;> omega

/-! ## A program

The functions of the tasks, the clock, the main program and the interrupt write their log into a variable of the user, as the
digits of a number.  The main program schedules a task and calls `mu_sched_step` nine times; during the first step, after it has
found the interrupt queue empty, there is an interrupt. -/

def isrNote (d : Nat) (h : Heap) : C (CVal × Heap) :=
  match h.at (.obj 2) 0 with
  | some (.int n) => if 0 ≤ n then .ok (.undef, h.upd (.obj 2) 0 (.int (d + 16 * n))) else .error .oob
  | _ => .error .oob

/-- What the digits mean. -/
def isrEntry : Nat → Seen
  | 1 => .step
  | 2 => .called (.ptr (.obj 0) 0)
  | 3 => .called (.ptr (.obj 1) 0)
  | 4 => .clock (.int 5)
  | 5 => .stepped
  | 6 => .did (.immed (.ptr (.obj 0) 0)) (SErr.val .none)
  | 7 => .did (.immed (.ptr (.obj 0) 0)) (SErr.val .full)
  | 8 => .did (.immed (.ptr (.obj 0) 0)) (SErr.val .notFound)
  | _ => .did (.fromIsr (.ptr (.obj 1) 0)) (SErr.val .none)

def isrAnswer (r : CVal) : Nat := if r = SErr.val .none then 6 else if r = SErr.val .full then 7 else 8

def isrExt : AExt where
  fn f h args :=
    match f, args with
    | .mu_time_precedes, [a, b] => .ok (.ofBool (demoPrec a b), h)
    | .mu_time_offset, [a, b] => .ok (demoOff a b, h)
    | .mu_time_now, [] => do
      let (_, h) ← isrNote 4 h
      .ok (.int 5, h)
    | _, _ => .error .ptr
  cb _ _ args :=
    match args with
    | [.ptr (.obj 0) 0] => .mem (isrNote 2) fun _ => .done .undef
    | [.ptr (.obj 1) 0] => .mem (isrNote 3) fun _ => .done .undef
    | _ => .fail .oob

def isrStep (S : Fn → List CVal → Act CVal) (k : Act CVal) : Act CVal :=
  .mem (isrNote 1) fun _ => (S .mu_sched_step []).bind fun _ => .mem (isrNote 5) fun _ => k

def isrSteps (S : Fn → List CVal → Act CVal) : Nat → Act CVal
  | 0 => .done .undef
  | n + 1 => isrStep S (isrSteps S n)

def isrMain (S : Fn → List CVal → Act CVal) : Act CVal :=
  (S .mu_sched_immed [.ptr (.obj 0) 0]).bind fun r => .mem (isrNote (isrAnswer r)) fun _ => isrSteps S 9

def isrUser : User where
  log h :=
    match h.at (.obj 2) 0 with
    | some (.int n) => (Nat.digits 16 n.toNat).reverse.map isrEntry
    | _ => []
  inv h := (∃ n : Nat, h.at (.obj 2) 0 = some (.int n)) ∧ h.at (.obj 0) 0 = some (.fn 1) ∧ h.at (.obj 1) 0 = some (.fn 2)
  task t := t = .ptr (.obj 0) 0 ∨ t = .ptr (.obj 1) 0
  code _ := True
  callHook := none
  transferHook := none

theorem isr_note {d : Nat} (hd : 0 < d) (hd' : d < 16) {e : Seen} (he : isrEntry d = e) : isrUser.Does [e] (isrNote d) := by
  subst he
  rintro h ⟨⟨m, hx⟩, h0, h1⟩
  refine ⟨.undef, h.upd (.obj 2) 0 (.int (d + 16 * (m : Int))), by simp [isrNote, hx], ?_⟩
  have h2 : (h.upd (.obj 2) 0 (.int (d + 16 * (m : Int)))).at (.obj 2) 0 = some (.int ((d + 16 * m : Nat) : Int)) := by
    rw [Heap.at_upd_same rfl (by simp [hx])]; simp
  refine ⟨?_, ⟨⟨_, h2⟩, ?_, ?_⟩, ?_⟩
  · exact Heap.Only.upd (.refl _ _) (by simp [Free, SchedVar])
  · rw [Heap.at_upd_sep (by simp)]; exact h0
  · rw [Heap.at_upd_sep (by simp)]; exact h1
  · simp only [isrUser, hx, h2, Int.toNat_natCast]
    rw [Nat.digits_add 16 (by omega) d m hd' (by omega)]
    simp

theorem isr_honest : Honest .lp64 isrExt isrUser demoPrec demoOff where
  frame := by
    intro h h' o ⟨⟨n, hn⟩, h0, h1⟩
    have := o.cell (.obj 2) 0 (by simp [SchedVar])
    exact ⟨⟨⟨n, this.trans hn⟩, (o.cell _ _ (by simp [SchedVar])).trans h0, (o.cell _ _ (by simp [SchedVar])).trans h1⟩, by simp only [isrUser, this]⟩
  valid := by
    rintro h t ⟨-, h0, h1⟩ (rfl | rfl)
    exacts [⟨_, _, _, rfl, h0, trivial⟩, ⟨_, _, _, rfl, h1, trivial⟩]
  hook := fun _ _ _ e => nomatch e
  transfer := fun _ _ _ e => nomatch e
  task := by
    rintro n f t - (rfl | rfl)
    · exact ⟨_, _, rfl, isr_note (d := 2) (by omega) (by omega) rfl, fun _ => .done _⟩
    · exact ⟨_, _, rfl, isr_note (d := 3) (by omega) (by omega) rfl, fun _ => .done _⟩
  reads := by
    intro h i
    obtain ⟨v, h', e, a⟩ := isr_note (d := 4) (e := .clock (.int 5)) (by omega) (by omega) rfl h i
    refine ⟨.int 5, h', ?_, by simp, a⟩
    show (isrNote 4 h).bind _ = _
    rw [e]
    rfl
  precedes := fun h a b _ _ => rfl
  offset := fun h a d _ _ => rfl
  offsetDef := by
    intro a d ha hd
    simp only [demoOff]
    split <;> simp [ha]

theorem isr_code (S : Fn → List CVal → Act CVal) : Code S isrUser (isrMain S) := by
  have st : ∀ k, Code S isrUser k → Code S isrUser (isrStep S k) := fun k hk =>
    .step (isr_note (by omega) (by omega) rfl) (fun _ => isr_note (by omega) (by omega) rfl) (fun _ _ => hk)
  have sts : ∀ n, Code S isrUser (isrSteps S n) := by
    intro n
    induction n with
    | zero => exact .done _
    | succ n ih => exact st _ ih
  refine Code.call (c := .immed (.ptr (.obj 0) 0)) (.inr (.inl rfl)) (.inl rfl) ?_ fun _ _ _ => sts 9
  rintro r ⟨e, rfl⟩
  cases e
  · exact isr_note (d := 6) (by omega) (by omega) rfl
  · exact isr_note (d := 7) (by omega) (by omega) rfl
  · exact isr_note (d := 8) (by omega) (by omega) rfl

/-- Up to `n` moments of a program, without interrupts. -/
def isrFor {α : Type} : Nat → Act α × Heap → Act α × Heap
  | 0, s => s
  | n + 1, (.mem f k, h) =>
    match f h with
    | .ok (v, h') => isrFor n (k v, h')
    | .error _ => (.mem f k, h)
  | n + 1, (.pick k, h) => isrFor n (k true, h)
  | _ + 1, s => s

theorem isrFor_steps {α : Type} (n : Nat) (s0 s : Act α × Heap) (st : Steps A X U s0 s) : Steps A X U s0 (isrFor n s) := by
  induction n generalizing s with
  | zero => exact st
  | succ n ih =>
    obtain ⟨a, h⟩ := s
    cases a with
    | mem f k =>
      simp only [isrFor]
      split
      · rename_i v h' e
        exact ih _ (.snoc st (.mem e))
      · exact st
    | pick k => exact ih _ (.snoc st (.pick true))
    | done a => exact st
    | fail e => exact st

theorem isrFor_out {α : Type} (n : Nat) (a : Act α) (h : Heap) {v : α} {h' : Heap} (e : isrFor n (a, h) = (.done v, h')) : a.Out h (.ok (v, h')) := by
  induction n generalizing a h with
  | zero =>
    obtain ⟨rfl, rfl⟩ := Prod.mk.inj e
    exact .done
  | succ n ih =>
    cases a with
    | mem f k =>
      simp only [isrFor] at e
      split at e
      · rename_i x h1 e1
        exact .mem e1 (ih _ _ e)
      · cases (Prod.mk.inj e).1
    | pick k => exact .pick true (ih _ _ e)
    | done a =>
      obtain ⟨e1, rfl⟩ := Prod.mk.inj e
      cases e1
      exact .done
    | fail x => cases (Prod.mk.inj e).1

abbrev isrSem : Fn → List CVal → Act CVal := semA .lp64 isrExt prog 30

/-- Initialisation, `k` moments, the interrupt, and the rest. -/
def isrResult (k : Nat) : Option (Heap × Heap) :=
  match sem .lp64 progDemoFns prog 30 .mu_sched_init progDemo [] with
  | .ok (.undef, h1) =>
    let s := isrFor k (isrMain isrSem, h1)
    match isrFor 1000 (isrSem .mu_sched_from_isr [.ptr (.obj 1) 0], s.2) with
    | (.done (.int 0), h2) =>
      match isrNote 9 h2 with
      | .ok (_, h3) =>
        match isrFor 1000 (s.1, h3) with
        | (.done .undef, h4) => if h2.at (.obj 0) 0 = some (.fn 1) ∧ h2.at (.obj 1) 0 = some (.fn 2) then some (h1, h4) else none
        | _ => none
      | _ => none
    | _ => none
  | _ => none

theorem isr_result : (match isrResult 31 with
    | some (_, h) => decide (h.at (.obj 2) 0 = some (.int 0x619425135145145145145145145145))
    | none => false) = true := by decide +kernel

/-- The program runs, with an interrupt in the middle of a step; its log is what one expects, and the theorems apply to it. -/
theorem isr_demo : ∃ h1 h, sem .lp64 progDemoFns prog 30 .mu_sched_init progDemo [] = .ok (.undef, h1) ∧
    Code isrSem isrUser (isrMain isrSem) ∧ Steps .lp64 isrExt isrUser (isrMain isrSem, h1) (.done .undef, h) ∧
    isrUser.log h = [.did (.immed (.ptr (.obj 0) 0)) (.int 0), .step, .did (.fromIsr (.ptr (.obj 1) 0)) (.int 0), .clock (.int 5),
      .called (.ptr (.obj 0) 0), .stepped, .step, .called (.ptr (.obj 1) 0), .stepped] ++
      (List.replicate 7 [.step, .clock (.int 5), .stepped]).flatten ∧
    progDemo.SchedVars ∧ isrUser.inv progDemo ∧ isrUser.log progDemo = [] ∧
    (∃ s, Replays demoPrec demoOff isrUser.start (isrUser.log h) s ∧ s.steps = []) ∧
    ∃ l1 l2, isrUser.log h = l1 ++ .did (.fromIsr (.ptr (.obj 1) 0)) (.int 0) :: l2 ∧ l2.countP (fun e => e = .step) = 8 ∧
      .called (.ptr (.obj 1) 0) ∈ l2 := by
  have v : progDemo.SchedVars := by
    refine ⟨rfl, rfl, rfl, rfl, ?_⟩
    rintro b (rfl | rfl | rfl | rfl) <;> decide
  have i : isrUser.inv progDemo := ⟨⟨0, rfl⟩, rfl, rfl⟩
  have l : isrUser.log progDemo = [] := by
    have : progDemo.at (.obj 2) 0 = some (.int 0) := rfl
    simp [isrUser, this]
  have k := isr_result
  cases hr : isrResult 31 with
  | none => rw [hr] at k; cases k
  | some y =>
    obtain ⟨h1, h⟩ := y
    rw [hr] at k
    simp only [decide_eq_true_eq] at k
    unfold isrResult at hr
    split at hr
    · rename_i h1' e1
      simp only at hr
      split at hr
      · rename_i h2 e2
        split at hr
        · rename_i u h3 e3
          split at hr
          · rename_i h4 e4
            split at hr
            · rename_i hf
              obtain ⟨rfl, rfl⟩ := Prod.mk.inj (Option.some.inj hr)
              have s1 : Steps .lp64 isrExt isrUser (isrMain isrSem, h1') (isrFor 31 (isrMain isrSem, h1')) := isrFor_steps _ _ _ (.nil _)
              generalize isrFor 31 (isrMain isrSem, h1') = s at *
              have hn : ∃ n : Nat, h2.at (.obj 2) 0 = some (.int n) := by
                unfold isrNote at e3
                split at e3
                · rename_i n hx
                  split at e3
                  · rename_i hp
                    exact ⟨n.toNat, by rw [hx, Int.toNat_of_nonneg hp]⟩
                  · cases e3
                · cases e3
              obtain ⟨_, _, e5, a⟩ := isr_note (d := 9) (by omega) (by omega) rfl h2 ⟨hn, hf⟩
              rw [e3] at e5
              obtain ⟨rfl, rfl⟩ := Prod.mk.inj (Except.ok.inj e5)
              have s2 : Steps .lp64 isrExt isrUser (isrMain isrSem, h1') (s.1, h3) :=
                .snoc s1 (.outside (.isr (n := 30) (.inr (.inr rfl)) (isrFor_out _ _ _ e2) a))
              have s3 := isrFor_steps 1000 _ _ s2
              rw [e4] at s3
              have hlog : isrUser.log h4 = [.did (.immed (.ptr (.obj 0) 0)) (.int 0), .step] ++
                  .did (.fromIsr (.ptr (.obj 1) 0)) (.int 0) :: ([.clock (.int 5), .called (.ptr (.obj 0) 0), .stepped, .step,
                    .called (.ptr (.obj 1) 0), .stepped] ++ (List.replicate 7 [.step, .clock (.int 5), .stepped]).flatten) := by
                simp only [isrUser, k]
                simp [isrEntry, SErr.val, List.replicate]
              refine ⟨h1', h4, e1, isr_code _, s3, hlog, v, i, l, C134_finished (k := 27) rfl isr_honest v i l ⟨rfl, rfl⟩ e1 (isr_code _) s3,
                _, _, hlog, rfl, C134_prompt (k := 27) rfl isr_honest v i l ⟨rfl, rfl⟩ e1 (isr_code _) s3 (by simp) hlog ?_ (by decide)⟩
              intro r hm
              simp [List.replicate] at hm
            · cases hr
          · cases hr
        · cases hr
      · cases hr
    · cases hr

/-! ## A program with hooks

The call hook notes the task and schedules task 0; the transfer hook notes the task.  The main program transfers to task 0 and
calls `mu_sched_step` nine times; while the call hook runs for the first time, there is an interrupt. -/

def hookNote (d : Nat) (h : Heap) : C (CVal × Heap) :=
  match h.at (.obj 2) 0 with
  | some (.int n) => if 0 ≤ n then .ok (.undef, h.upd (.obj 2) 0 (.int (d + 32 * n))) else .error .oob
  | _ => .error .oob

def hookEntry : Nat → Seen
  | 10 => .hooked (.ptr (.obj 0) 0)
  | 11 => .transferring (.ptr (.obj 0) 0)
  | 12 => .did (.transfer (.ptr (.obj 0) 0)) (SErr.val .none)
  | 13 => .did (.transfer (.ptr (.obj 0) 0)) (SErr.val .full)
  | 14 => .did (.transfer (.ptr (.obj 0) 0)) (SErr.val .notFound)
  | 15 => .hooked (.ptr (.obj 1) 0)
  | 16 => .transferring (.ptr (.obj 1) 0)
  | 17 => .transferring .null
  | n => isrEntry n

/-- The call hook. -/
def hookCode (d : Nat) (S : Fn → List CVal → Act CVal) : Act CVal :=
  .mem (hookNote d) fun _ => (S .mu_sched_immed [.ptr (.obj 0) 0]).bind fun r => .mem (hookNote (isrAnswer r)) fun _ => .done .undef

def hookExt : AExt where
  fn f h args :=
    match f, args with
    | .mu_time_precedes, [a, b] => .ok (.ofBool (demoPrec a b), h)
    | .mu_time_offset, [a, b] => .ok (demoOff a b, h)
    | .mu_time_now, [] => do
      let (_, h) ← hookNote 4 h
      .ok (.int 5, h)
    | _, _ => .error .ptr
  cb S k args :=
    match k, args with
    | 3, [.ptr (.obj 0) 0] => hookCode 10 S
    | 3, [.ptr (.obj 1) 0] => hookCode 15 S
    | 4, [.ptr (.obj 0) 0] => .mem (hookNote 11) fun _ => .done .undef
    | 4, [.ptr (.obj 1) 0] => .mem (hookNote 16) fun _ => .done .undef
    | 4, [.null] => .mem (hookNote 17) fun _ => .done .undef
    | _, [.ptr (.obj 0) 0] => .mem (hookNote 2) fun _ => .done .undef
    | _, [.ptr (.obj 1) 0] => .mem (hookNote 3) fun _ => .done .undef
    | _, _ => .fail .oob

def hookStep (S : Fn → List CVal → Act CVal) (k : Act CVal) : Act CVal :=
  .mem (hookNote 1) fun _ => (S .mu_sched_step []).bind fun _ => .mem (hookNote 5) fun _ => k

def hookSteps (S : Fn → List CVal → Act CVal) : Nat → Act CVal
  | 0 => .done .undef
  | n + 1 => hookStep S (hookSteps S n)

def hookMain (S : Fn → List CVal → Act CVal) : Act CVal :=
  (S .mu_sched_transfer [.ptr (.obj 0) 0]).bind fun r => .mem (hookNote (isrAnswer r + 6)) fun _ => hookSteps S 9

def hookUser : User where
  log h :=
    match h.at (.obj 2) 0 with
    | some (.int n) => (Nat.digits 32 n.toNat).reverse.map hookEntry
    | _ => []
  inv := isrUser.inv
  task := isrUser.task
  code f := f = 1 ∨ f = 2
  callHook := some 3
  transferHook := some 4

theorem hook_note {d : Nat} (hd : 0 < d) (hd' : d < 32) {e : Seen} (he : hookEntry d = e) : hookUser.Does [e] (hookNote d) := by
  subst he
  rintro h ⟨⟨m, hx⟩, h0, h1⟩
  refine ⟨.undef, h.upd (.obj 2) 0 (.int (d + 32 * (m : Int))), by simp [hookNote, hx], ?_⟩
  have h2 : (h.upd (.obj 2) 0 (.int (d + 32 * (m : Int)))).at (.obj 2) 0 = some (.int ((d + 32 * m : Nat) : Int)) := by
    rw [Heap.at_upd_same rfl (by simp [hx])]; simp
  refine ⟨?_, ⟨⟨_, h2⟩, ?_, ?_⟩, ?_⟩
  · exact Heap.Only.upd (.refl _ _) (by simp [Free, SchedVar])
  · rw [Heap.at_upd_sep (by simp)]; exact h0
  · rw [Heap.at_upd_sep (by simp)]; exact h1
  · simp only [hookUser, hx, h2, Int.toNat_natCast]
    rw [Nat.digits_add 32 (by omega) d m hd' (by omega)]
    simp

theorem hook_immed (S : Fn → List CVal → Act CVal) : Code S hookUser
    ((S .mu_sched_immed [.ptr (.obj 0) 0]).bind fun r => .mem (hookNote (isrAnswer r)) fun _ => .done .undef) := by
  refine Code.call (c := .immed (.ptr (.obj 0) 0)) (.inr (.inl rfl)) (.inl rfl) ?_ fun _ _ _ => .done _
  rintro r ⟨e, rfl⟩
  cases e
  · exact hook_note (d := 6) (by omega) (by omega) rfl
  · exact hook_note (d := 7) (by omega) (by omega) rfl
  · exact hook_note (d := 8) (by omega) (by omega) rfl

theorem hook_honest : Honest .lp64 hookExt hookUser demoPrec demoOff where
  frame := by
    intro h h' o ⟨⟨n, hn⟩, h0, h1⟩
    have := o.cell (.obj 2) 0 (by simp [SchedVar])
    exact ⟨⟨⟨n, this.trans hn⟩, (o.cell _ _ (by simp [SchedVar])).trans h0, (o.cell _ _ (by simp [SchedVar])).trans h1⟩, by simp only [hookUser, this]⟩
  valid := by
    rintro h t ⟨-, h0, h1⟩ (rfl | rfl)
    exacts [⟨_, _, _, rfl, h0, .inl rfl⟩, ⟨_, _, _, rfl, h1, .inr rfl⟩]
  task := by
    rintro n f t (rfl | rfl) (rfl | rfl)
    · exact ⟨_, _, rfl, hook_note (d := 2) (by omega) (by omega) rfl, fun _ => .done _⟩
    · exact ⟨_, _, rfl, hook_note (d := 3) (by omega) (by omega) rfl, fun _ => .done _⟩
    · exact ⟨_, _, rfl, hook_note (d := 2) (by omega) (by omega) rfl, fun _ => .done _⟩
    · exact ⟨_, _, rfl, hook_note (d := 3) (by omega) (by omega) rfl, fun _ => .done _⟩
  hook := by
    intro n f t e ht
    obtain rfl : 3 = f := Option.some.inj e
    rcases ht with rfl | rfl
    · exact ⟨_, _, rfl, hook_note (d := 10) (by omega) (by omega) rfl, fun _ => hook_immed _⟩
    · exact ⟨_, _, rfl, hook_note (d := 15) (by omega) (by omega) rfl, fun _ => hook_immed _⟩
  transfer := by
    intro n f t e ht
    obtain rfl : 4 = f := Option.some.inj e
    rcases ht with rfl | rfl | rfl
    · exact ⟨_, _, rfl, hook_note (d := 17) (by omega) (by omega) rfl, fun _ => .done _⟩
    · exact ⟨_, _, rfl, hook_note (d := 11) (by omega) (by omega) rfl, fun _ => .done _⟩
    · exact ⟨_, _, rfl, hook_note (d := 16) (by omega) (by omega) rfl, fun _ => .done _⟩
  reads := by
    intro h i
    obtain ⟨v, h', e, a⟩ := hook_note (d := 4) (e := .clock (.int 5)) (by omega) (by omega) rfl h i
    refine ⟨.int 5, h', ?_, by simp, a⟩
    show (hookNote 4 h).bind _ = _
    rw [e]
    rfl
  precedes := fun h a b _ _ => rfl
  offset := fun h a d _ _ => rfl
  offsetDef := isr_honest.offsetDef

theorem hook_code (S : Fn → List CVal → Act CVal) : Code S hookUser (hookMain S) := by
  have st : ∀ k, Code S hookUser k → Code S hookUser (hookStep S k) := fun k hk =>
    .step (hook_note (by omega) (by omega) rfl) (fun _ => hook_note (by omega) (by omega) rfl) (fun _ _ => hk)
  have sts : ∀ n, Code S hookUser (hookSteps S n) := by
    intro n
    induction n with
    | zero => exact .done _
    | succ n ih => exact st _ ih
  refine Code.call (c := .transfer (.ptr (.obj 0) 0)) (.inr (.inl rfl)) (.inl rfl) ?_ fun _ _ _ => sts 9
  rintro r ⟨e, rfl⟩
  cases e
  · exact hook_note (d := 12) (by omega) (by omega) rfl
  · exact hook_note (d := 13) (by omega) (by omega) rfl
  · exact hook_note (d := 14) (by omega) (by omega) rfl

abbrev hookSem : Fn → List CVal → Act CVal := semA .lp64 hookExt prog 30

/-- The hooks are installed, by the functions of mu_task.c. -/
def hookDemo : Option Heap :=
  match sem .lp64 progDemoFns prog 30 .mu_task_install_call_hook progDemo [.fn 3] with
  | .ok (.undef, h) =>
    match sem .lp64 progDemoFns prog 30 .mu_task_install_transfer_hook h [.fn 4] with
    | .ok (.undef, h) => some h
    | _ => none
  | _ => none

/-- The hooks are installed; then initialisation, `k` moments, the interrupt, and the rest. -/
def hookResult (k : Nat) : Option (Heap × Heap) :=
  match hookDemo with
  | some h0 =>
    match sem .lp64 progDemoFns prog 30 .mu_sched_init h0 [] with
    | .ok (.undef, h1) =>
      let s := isrFor k (hookMain hookSem, h1)
      match isrFor 1000 (hookSem .mu_sched_from_isr [.ptr (.obj 1) 0], s.2) with
      | (.done (.int 0), h2) =>
        match hookNote 9 h2 with
        | .ok (_, h3) =>
          match isrFor 1000 (s.1, h3) with
          | (.done .undef, h4) => if h2.at (.obj 0) 0 = some (.fn 1) ∧ h2.at (.obj 1) 0 = some (.fn 2) then some (h1, h4) else none
          | _ => none
        | _ => none
      | _ => none
    | _ => none
  | _ => none

theorem hook_result : (match hookResult 88 with
    | some (_, h) => decide (h.at (.obj 2) 0 = some (.int 0x5b024524c2285e61942451845091461142451845091461142451845091461142451845))
    | none => false) = true := by decide +kernel

/-- The variables of the modules, and the user's, before initialisation. -/
theorem hook_start {h0 : Heap} (e : hookDemo = some h0) : h0 = (progDemo.upd (.glob .s_call_hook) 0 (.fn 3)).upd (.glob .s_transfer_hook) 0 (.fn 4) := by
  have h : hookDemo = some ((progDemo.upd (.glob .s_call_hook) 0 (.fn 3)).upd (.glob .s_transfer_hook) 0 (.fn 4)) := by rfl
  rw [h] at e
  exact (Option.some.inj e).symm

/-- The program with hooks runs, with an interrupt while the call hook runs; its log is what one expects, and the theorems apply
to it. -/
theorem hook_demo : ∃ h0 h1 h, hookDemo = some h0 ∧ sem .lp64 progDemoFns prog 30 .mu_sched_init h0 [] = .ok (.undef, h1) ∧
    Code hookSem hookUser (hookMain hookSem) ∧ Steps .lp64 hookExt hookUser (hookMain hookSem, h1) (.done .undef, h) ∧
    hookUser.log h = [.transferring (.ptr (.obj 0) 0), .did (.transfer (.ptr (.obj 0) 0)) (.int 0), .step, .clock (.int 5),
      .hooked (.ptr (.obj 0) 0), .did (.fromIsr (.ptr (.obj 1) 0)) (.int 0), .did (.immed (.ptr (.obj 0) 0)) (.int 0),
      .called (.ptr (.obj 0) 0), .stepped, .step, .hooked (.ptr (.obj 1) 0), .did (.immed (.ptr (.obj 0) 0)) (.int 0),
      .called (.ptr (.obj 1) 0), .stepped] ++
      (List.replicate 7 [.step, .clock (.int 5), .hooked (.ptr (.obj 0) 0), .did (.immed (.ptr (.obj 0) 0)) (.int 0),
        .called (.ptr (.obj 0) 0), .stepped]).flatten ∧
    h0.SchedVars ∧ hookUser.inv h0 ∧ hookUser.log h0 = [] ∧ hookUser.Hooks h0 ∧
    (∃ s, Replays demoPrec demoOff hookUser.start (hookUser.log h) s ∧ s.steps = []) ∧
    ∃ l1 l2, hookUser.log h = l1 ++ .did (.fromIsr (.ptr (.obj 1) 0)) (.int 0) :: l2 ∧ l2.countP (fun e => e = .step) = 8 ∧
      .hooked (.ptr (.obj 1) 0) ∈ l2 := by
  have k := hook_result
  cases hr : hookResult 88 with
  | none => rw [hr] at k; cases k
  | some y =>
    obtain ⟨h1, h⟩ := y
    rw [hr] at k
    simp only [decide_eq_true_eq] at k
    unfold hookResult at hr
    split at hr
    · rename_i h0 e0
      have v : h0.SchedVars := by
        rw [hook_start e0]
        refine ⟨rfl, rfl, rfl, rfl, ?_⟩
        rintro b (rfl | rfl | rfl | rfl) <;> decide
      have i : hookUser.inv h0 := by rw [hook_start e0]; exact ⟨⟨0, rfl⟩, rfl, rfl⟩
      have l : hookUser.log h0 = [] := by
        have : h0.at (.obj 2) 0 = some (.int 0) := by rw [hook_start e0]; rfl
        simp [hookUser, this]
      have hk : hookUser.Hooks h0 := by rw [hook_start e0]; exact ⟨rfl, rfl⟩
      split at hr
      · rename_i h1' e1
        simp only at hr
        split at hr
        · rename_i h2 e2
          split at hr
          · rename_i u h3 e3
            split at hr
            · rename_i h4 e4
              split at hr
              · rename_i hf
                obtain ⟨rfl, rfl⟩ := Prod.mk.inj (Option.some.inj hr)
                have s1 : Steps .lp64 hookExt hookUser (hookMain hookSem, h1') (isrFor 88 (hookMain hookSem, h1')) := isrFor_steps _ _ _ (.nil _)
                generalize isrFor 88 (hookMain hookSem, h1') = s at *
                have hn : ∃ n : Nat, h2.at (.obj 2) 0 = some (.int n) := by
                  unfold hookNote at e3
                  split at e3
                  · rename_i n hx
                    split at e3
                    · rename_i hp
                      exact ⟨n.toNat, by rw [hx, Int.toNat_of_nonneg hp]⟩
                    · cases e3
                  · cases e3
                obtain ⟨_, _, e5, a⟩ := hook_note (d := 9) (by omega) (by omega) rfl h2 ⟨hn, hf⟩
                rw [e3] at e5
                obtain ⟨rfl, rfl⟩ := Prod.mk.inj (Except.ok.inj e5)
                have s2 : Steps .lp64 hookExt hookUser (hookMain hookSem, h1') (s.1, h3) :=
                  .snoc s1 (.outside (.isr (n := 30) (.inr (.inr rfl)) (isrFor_out _ _ _ e2) a))
                have s3 := isrFor_steps 1000 _ _ s2
                rw [e4] at s3
                have hlog : hookUser.log h4 = [.transferring (.ptr (.obj 0) 0), .did (.transfer (.ptr (.obj 0) 0)) (.int 0), .step,
                    .clock (.int 5), .hooked (.ptr (.obj 0) 0)] ++ .did (.fromIsr (.ptr (.obj 1) 0)) (.int 0) ::
                    ([.did (.immed (.ptr (.obj 0) 0)) (.int 0), .called (.ptr (.obj 0) 0), .stepped, .step, .hooked (.ptr (.obj 1) 0),
                      .did (.immed (.ptr (.obj 0) 0)) (.int 0), .called (.ptr (.obj 1) 0), .stepped] ++
                    (List.replicate 7 [.step, .clock (.int 5), .hooked (.ptr (.obj 0) 0), .did (.immed (.ptr (.obj 0) 0)) (.int 0),
                      .called (.ptr (.obj 0) 0), .stepped]).flatten) := by
                  simp only [hookUser, k]
                  simp [hookEntry, isrEntry, SErr.val, List.replicate]
                refine ⟨h0, h1', h4, e0, e1, hook_code _, s3, hlog, v, i, l, hk, C134_finished (k := 27) rfl hook_honest v i l hk e1 (hook_code _) s3,
                  _, _, hlog, rfl, C134_prompt (k := 27) rfl hook_honest v i l hk e1 (hook_code _) s3 (by simp) hlog ?_ (by decide)⟩
                intro r hm
                simp [List.replicate] at hm
              · cases hr
            · cases hr
          · cases hr
        · cases hr
      · cases hr
    · cases hr

end Mu.CS.Isr
