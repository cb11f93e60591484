import Verif.Lemmas.SrcStory
import Verif.Props.SrcProgram
import Verif.Props.SrcIsr
import Mathlib.Tactic.ByContra

/-! # C140: what the log of a program shows

From the agendas of C131 and C134 to facts about the log alone (Spec/SrcStory.lean). -/

namespace Mu.CS.Story

variable {A : Arch} {K : CVal → Kind} {prec : CVal → CVal → Bool} {off : CVal → CVal → CVal} {h h' : Heap}

/-! ## A log without interrupts is a log with interrupts -/

/-- How far a step has come. -/
def phase : Phase → Isr.Phase
  | .looking => .looking
  | .chosen t => .chosen t
  | .running => .running

def lift (s : Replay) : Isr.Replay := ⟨s.σ, s.steps.map phase, s.clock, false, false⟩

theorem lift_user (s : Replay) : (lift s).user = s.user := by
  obtain ⟨σ, st, c⟩ := s
  cases st with
  | nil => rfl
  | cons p l => cases p <;> rfl

theorem lift_fits (s : Replay) (c : Req) : (lift s).fits c = true ∧ (lift s).after c = (lift s).steps := by
  cases c <;> exact ⟨rfl, rfl⟩

theorem lift_see {s s' : Replay} {e : Seen} {L : List Seen} (h : Isr.Replays prec off (.start false false) L (lift s)) (hs : s.see prec off e = some s') :
    Isr.Replays prec off (.start false false) (L ++ [e]) (lift s') := by
  cases e with
  | did c r =>
    refine h.see ?_
    simp only [Replay.see] at hs
    simp only [Isr.Replay.see, lift_user]
    split at hs
    · rename_i hx
      simp only [Bool.and_eq_true] at hx
      obtain rfl := Option.some.inj hs
      rw [if_pos (by simp only [hx.1, Bool.or_true, Bool.true_and, (lift_fits s c).1]; exact hx.2), (lift_fits s c).2]
      rfl
    · cases hs
  | clock now =>
    refine h.see ?_
    obtain ⟨σ, st, c⟩ := s
    cases st with
    | nil =>
      obtain rfl := Option.some.inj hs
      rfl
    | cons p l =>
      cases p with
      | looking => obtain rfl := Option.some.inj hs; rfl
      | chosen t => cases hs
      | running => obtain rfl := Option.some.inj hs; rfl
  | step =>
    simp only [Replay.see] at hs
    split at hs
    · rename_i hu
      have k := h.see (e := .step) (s2 := { lift s with steps := .entered :: (lift s).steps }) (by simp [Isr.Replay.see, lift_user, hu])
      split at hs
      · rename_i t l hx
        obtain rfl := Option.some.inj hs
        exact k.look (by simp [Isr.Replay.look, lift, hx, phase])
      · rename_i hx
        obtain rfl := Option.some.inj hs
        exact k.look (by simp [Isr.Replay.look, lift, hx, phase])
    · cases hs
  | called t =>
    refine h.see ?_
    obtain ⟨σ, st, c⟩ := s
    cases st with
    | nil => cases hs
    | cons p l =>
      cases p with
      | looking => cases hs
      | running => cases hs
      | chosen u =>
        simp only [Replay.see] at hs
        split at hs
        · rename_i hx
          obtain rfl := Option.some.inj hs
          simp only [Isr.Replay.see, lift, List.map_cons, phase]
          rw [if_pos (by simpa using hx)]
        · cases hs
  | stepped =>
    refine h.see ?_
    obtain ⟨σ, st, c⟩ := s
    cases st with
    | nil => cases hs
    | cons p l =>
      cases p with
      | looking => cases hs
      | running => obtain rfl := Option.some.inj hs; rfl
      | chosen u => cases u <;> first | cases hs; done | (obtain rfl := Option.some.inj hs; rfl)
  | hooked t => cases hs
  | transferring t => cases hs

theorem lift_replay {L L' : List Seen} {s s' : Replay} (h : Isr.Replays prec off (.start false false) L (lift s)) (hs : replay prec off s L' = some s') :
    Isr.Replays prec off (.start false false) (L ++ L') (lift s') := by
  induction L' generalizing L s with
  | nil =>
    obtain rfl := Option.some.inj hs
    simpa using h
  | cons e l ih =>
    simp only [replay] at hs
    split at hs
    · rename_i s1 hx
      have := ih (lift_see h hx) hs
      simpa using this
    · cases hs

/-- Without interrupts, the scheduler is never called while a step looks for a task. -/
theorem replay_at {s s' : Replay} {P Q : List Seen} {e : Seen} (hs : replay prec off s (P ++ e :: Q) = some s') :
    ∃ s1 s2, replay prec off s P = some s1 ∧ s1.see prec off e = some s2 := by
  induction P generalizing s with
  | nil =>
    simp only [List.nil_append, replay] at hs
    split at hs
    · rename_i s1 hx
      exact ⟨s, s1, rfl, hx⟩
    · cases hs
  | cons x P ih =>
    simp only [List.cons_append, replay] at hs ⊢
    split at hs
    · rename_i s1 hx
      exact ih hs
    · cases hs

/-- **C140, programs**: whatever a program around the scheduler does, if it schedules each task in one way only and if
`mu_time_precedes` orders the times it uses, then at every moment at which user code runs its log is orderly: and all the calls of
the scheduler are made outside the part of a step that looks for a task. -/
theorem C140_program {X : Ext} {U : User} (hu : Honest A X U prec off) (m : Moment A X U h) (hk : ∀ e ∈ U.log h, Keeps K e)
    (hw : WeakOn prec (Time off (U.log h))) :
    Orderly prec off K (U.log h) ∧ ∀ P c r Q, U.log h = P ++ .did c r :: Q → ∀ P', ¬ Looking P' P := by
  obtain ⟨s, hs, -⟩ := C131_moment hu m
  refine ⟨orderly (lift_replay (L := []) (.nil _) hs) hk hw, ?_⟩
  intro P c r Q hL
  rw [hL] at hs hk hw
  obtain ⟨s1, s2, h1, h2⟩ := replay_at hs
  have hx : s1.user = true := by
    simp only [Replay.see] at h2
    split at h2
    · rename_i hx
      simp only [Bool.and_eq_true] at hx
      exact hx.1
    · cases h2
  have i := inv_of (K := K) (lift_replay (L := []) (.nil _) h1) (fun e he => hk e (by simp at he; simp [he])) hw.prefix
  obtain ⟨-, -, -, -, -, n⟩ := i.running (by rw [lift_user]; exact hx)
  exact n

/-- **C140, with interrupts**: the same at every moment of a program (without hooks, and that does not call
mu_sched_reset) that is interrupted between any two accesses
to memory. -/
theorem C140_interrupted {X : AExt} {U : Isr.User} (H : Isr.Honest A X U prec off) {Y : Ext} {n k : Nat} {r : CVal} {h0 : Heap} (v : h0.SchedVars)
    (hi : U.inv h0) (hl : U.log h0 = []) (hh : U.Hooks h0)
    (hc : U.callHook = none) (ht : U.transferHook = none) (hu : U.resets = false) (e : sem A Y prog (k + 3) .mu_sched_init h0 [] = .ok (r, h)) {a a' : Act CVal}
    (c : Isr.Code (semA A X prog n) U a) (run : Isr.Steps A X U (a, h) (a', h')) (hk : ∀ e ∈ U.log h', Keeps K e)
    (hw : WeakOn prec (Time off (U.log h'))) : Orderly prec off K (U.log h') := by
  obtain ⟨⟨s, hs⟩, -⟩ := Isr.C134_interrupted hu H v hi hl hh e c run
  rw [show U.start = .start false false by simp [Isr.User.start, hc, ht]] at hs
  exact orderly hs hk hw

/-! ## The theorems apply -/

/-- If the only time in the log is 5. -/
theorem weak_five {L : List Seen} (h : ∀ T, Time demoOff L T → T = .int 5) : WeakOn demoPrec (Time demoOff L) := by
  intro a b c ha hb hc hp
  obtain rfl := h a ha
  obtain rfl := h b hb
  cases hp

/-- If nothing is deferred. -/
theorem time_clock {L : List Seen} (h : ∀ e ∈ L, ∀ t x r, e ≠ .did (.deferUntil t x) r ∧ e ≠ .did (.deferFor t x) r) {T : CVal} (ht : Time off L T) :
    .clock T ∈ L := by
  rcases ht with ht | ⟨n, t, ht | ⟨d, ht, -⟩⟩
  · exact ht
  · exact absurd rfl (h _ (List.mem_of_getElem? ht) t T _).1
  · exact absurd rfl (h _ (List.mem_of_getElem? ht) t d _).2

/-- The program of C131's example. -/
example : ∃ h, Moment .lp64 progDemoFns progDemoUser h ∧ (progDemoUser.log h).length = 13 ∧
    Orderly demoPrec demoOff (fun _ => .immed) (progDemoUser.log h) := by
  obtain ⟨h1, h, e, run, hl, v, i, l, -⟩ := prog_demo
  have m : Moment .lp64 progDemoFns progDemoUser h := .run (.init v i l rfl rfl e) run
  refine ⟨h, m, by simp [hl], (C140_program progDemo_honest m ?_ ?_).1⟩
  · rw [hl]
    simp [Keeps]
  · rw [hl]
    refine weak_five fun T hT => ?_
    have := time_clock (by simp) hT
    simpa using this

/-- The program of C134's example, with an interrupt in the middle of a step. -/
example : ∃ h, .did (.fromIsr (.ptr (.obj 1) 0)) (.int 0) ∈ Isr.isrUser.log h ∧
    Orderly demoPrec demoOff (fun t => if t = .ptr (.obj 1) 0 then .irq else .immed) (Isr.isrUser.log h) := by
  obtain ⟨h1, h, e, c, run, hl, v, i, l, -⟩ := Isr.isr_demo
  refine ⟨h, by simp [hl], Isr.isr_honest |> fun H => C140_interrupted (n := _) (k := 27) H v i l ⟨rfl, rfl⟩ rfl rfl rfl e c run ?_ ?_⟩
  · rw [hl]
    simp [Keeps, List.replicate]
  · rw [hl]
    refine weak_five fun T hT => ?_
    have := time_clock (by simp [List.replicate]) hT
    simpa [List.replicate] using this

/-- A log of a program that defers task 2 until 9 and task 3 for 2 from 5 on, schedules task 1 from an interrupt and task 0
immediately, and makes steps; 4 is the idle task.  It can be explained. -/
def storyDemo : List Seen :=
  let t (i : Nat) : CVal := .ptr (.obj i) 0
  [.did (.setIdle (t 4)) .undef, .did (.deferUntil (t 2) (.int 9)) (.int 0), .clock (.int 5), .did (.deferFor (t 3) (.int 2)) (.int 0),
    .did (.immed (t 0)) (.int 0), .did (.fromIsr (t 1)) (.int 0), .did .next (t 3),
    .step, .called (t 1), .did .current (t 1), .stepped,
    .step, .clock (.int 6), .called (t 0), .stepped,
    .step, .clock (.int 8), .called (t 3), .did .next (t 2), .stepped,
    .step, .clock (.int 8), .called (t 4), .stepped,
    .did (.remove (t 3)) (.int 2),
    .step, .clock (.int 9), .called (t 2), .did .reset .undef, .did .current .null, .stepped,
    .did (.setIdle .null) .undef, .step, .clock (.int 9), .stepped]

def storyKinds : CVal → Kind
  | .ptr (.obj 0) _ => .immed
  | .ptr (.obj 1) _ => .irq
  | .ptr (.obj 4) _ => .idle
  | _ => .due

example : Orderly demoPrec demoOff storyKinds storyDemo := by
  have hr : ∃ s, replay demoPrec demoOff .start storyDemo = some s := by
    have : (replay demoPrec demoOff .start storyDemo).isSome = true := by decide +kernel
    exact Option.isSome_iff_exists.1 this
  obtain ⟨s, hs⟩ := hr
  refine orderly (lift_replay (L := []) (.nil _) hs) ?_ ?_
  · simp [storyDemo, Keeps, storyKinds]
  · intro a b c ha hb hc hp
    have int : ∀ T, Time demoOff storyDemo T → ∃ i : Int, T = .int i := by
      rintro T (h | ⟨n, t, h | ⟨d, h, rfl⟩⟩)
      · simp [storyDemo] at h
        rcases h with h | h | h | h <;> exact ⟨_, h⟩
      · have := List.mem_of_getElem? h
        simp [storyDemo] at this
        exact ⟨9, this.2⟩
      · have hn : n = 3 := by
          have all : ∀ n < 35, n ≠ 3 → (match storyDemo[n]? with
              | some (.did (.deferFor _ _) _) => true
              | _ => false) = false := by decide
          have hl := DeferredAt.lt (off := demoOff) (.inr ⟨d, h, rfl⟩)
          by_contra h3
          have := all n hl h3
          rw [h] at this
          cases this
        subst hn
        have := List.mem_of_getElem? h
        simp [storyDemo] at this
        rw [this.2]
        exact ⟨7, rfl⟩
    obtain ⟨i, rfl⟩ := int a ha
    obtain ⟨j, rfl⟩ := int b hb
    obtain ⟨k, rfl⟩ := int c hc
    simp only [demoPrec, decide_eq_true_eq, decide_eq_false_iff_not] at hp ⊢
    omega

end Mu.CS.Story
