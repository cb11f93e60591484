import Verif.Props.SrcStory
import Verif.Props.SrcIsrReset
import Verif.Spec.SrcUnhook

/-! # C140, for programs with hooks -/

namespace Mu.CS.Story

open Isr

variable {K : CVal → Kind} {prec : CVal → CVal → Bool} {off : CVal → CVal → CVal} {h h' : Heap} {s s' : Isr.Replay}

/-- A step that calls the hook runs; there are no transfers. -/
def plainPhase : Isr.Phase → Option Isr.Phase
  | .transferring _ => none
  | .hooked _ => some .running
  | p => some p

/-- The state without hooks. -/
def flat (s : Isr.Replay) : Isr.Replay := ⟨s.σ, s.steps.filterMap plainPhase, s.clock, false, false⟩

/-- Without a call hook no step calls it. -/
def Calm (s : Isr.Replay) : Prop := s.callHook = false → ∀ t, .hooked t ∉ s.steps

theorem flat_user (i : Inside s.steps) (hu : s.user = true) : (flat s).user = true := by
  have := i.user hu
  unfold Isr.Replay.user flat
  simp only
  cases hx : s.steps.filterMap plainPhase with
  | nil => rfl
  | cons p l =>
    have hp : p ∈ s.steps.filterMap plainPhase := by rw [hx]; simp
    obtain ⟨q, hq, e⟩ := List.mem_filterMap.1 hp
    have hq := this q hq
    cases q <;> simp [plainPhase] at e <;> subst e <;> first | rfl | cases hq

theorem flat_clock (i : Inside s.steps) (hu : s.user = true) (now : CVal) : (flat s).see prec off (.clock now) = some (flat { s with clock := now }) := by
  have hf := flat_user i hu
  generalize hs : flat s = f at hf
  have h2 : flat { s with clock := now } = { f with clock := now } := by rw [← hs]; rfl
  rw [h2]
  obtain ⟨σ, st, clk, ch, th⟩ := f
  cases st with
  | nil => rfl
  | cons p l => cases p <;> first | rfl | cases hf

theorem see_flat (i : Inside s.steps) (cm : Calm s) {e : Seen} (hs : s.see prec off e = some s') :
    (Calm s' ∧ s'.callHook = s.callHook) ∧ ((unhook s.callHook [e] = [] ∧ flat s' = flat s) ∨
      ∃ e', unhook s.callHook [e] = [e'] ∧ (flat s).see prec off e' = some (flat s')) := by
  cases e with
  | did c r =>
    simp only [Isr.Replay.see] at hs
    split at hs
    · rename_i hx
      have hfit : s.fits c = true := by simp at hx; exact hx.1.2
      have hu : c.isr = true ∨ s.user = true := by simp at hx; exact hx.1.1
      have hr : r = (c.answer prec off s.clock s.σ).1 := by simp at hx; exact hx.2
      obtain rfl : _ = s' := Option.some.inj hs
      have ha : (s.after c).filterMap plainPhase = s.steps.filterMap plainPhase ∧ ∀ p ∈ s.after c, p ∈ s.steps := by
        rcases after_fits hfit with e | ⟨u, e⟩
        · rw [e]; exact ⟨rfl, fun _ h => h⟩
        · rw [e]; exact ⟨rfl, fun p h => by simp [h]⟩
      refine ⟨⟨fun hc t ht => by exact cm hc t (ha.2 _ ht), rfl⟩, .inr ⟨_, rfl, ?_⟩⟩
      have hfu : (c.isr || (flat s).user) = true := by
        rcases hu with hu | hu
        · simp [hu]
        · simp [flat_user i hu]
      have h1 : (flat s).fits c = true := by cases c <;> rfl
      have h2 : (flat s).after c = (flat s).steps := by cases c <;> rfl
      simp only [Isr.Replay.see, h2]
      rw [if_pos (by simp only [hfu, h1, Bool.true_and, Bool.and_true]; exact decide_eq_true hr)]
      simp only [flat, ha.1]
    · cases hs
  | clock now =>
    obtain ⟨σ, st, clk, ch, th⟩ := s
    simp only [Isr.Replay.see] at hs
    split at hs
    · obtain rfl : _ = s' := Option.some.inj hs
      refine ⟨⟨fun hc t ht => cm hc t (by simpa using ht), rfl⟩, .inr ⟨_, rfl, rfl⟩⟩
    · split at hs
      · rename_i hu
        obtain rfl : _ = s' := Option.some.inj hs
        exact ⟨⟨cm, rfl⟩, .inr ⟨_, rfl, flat_clock i hu now⟩⟩
      · cases hs
  | step =>
    simp only [Isr.Replay.see] at hs
    split at hs
    · rename_i hu
      obtain rfl : _ = s' := Option.some.inj hs
      refine ⟨⟨fun hc t ht => cm hc t (by simpa using ht), rfl⟩, .inr ⟨_, rfl, ?_⟩⟩
      simp only [Isr.Replay.see, if_pos (flat_user i hu)]
      rfl
    · cases hs
  | called u =>
    obtain ⟨σ, st, clk, ch, th⟩ := s
    simp only [Isr.Replay.see] at hs
    split at hs <;> first | (cases hs; done) | (split at hs <;> first | (cases hs; done) | skip)
    · rename_i v l hx
      obtain rfl : _ = s' := Option.some.inj hs
      obtain ⟨⟨rfl, hn⟩, hc⟩ : (v = u ∧ u ≠ .null) ∧ ch = false := by simpa using hx
      obtain rfl := hc
      refine ⟨⟨fun hc t ht => cm hc t (by simpa using ht), rfl⟩, .inr ⟨_, rfl, ?_⟩⟩
      simp [Isr.Replay.see, flat, plainPhase, hn]
    · rename_i v l hx
      obtain rfl : _ = s' := Option.some.inj hs
      cases ch with
      | false => exact absurd (by simp) (cm rfl v)
      | true => exact ⟨⟨fun hc => (by cases hc), rfl⟩, .inl ⟨rfl, rfl⟩⟩
  | hooked u =>
    obtain ⟨σ, st, clk, ch, th⟩ := s
    simp only [Isr.Replay.see] at hs
    split at hs <;> first | (cases hs; done) | (split at hs <;> first | (cases hs; done) | skip)
    rename_i v l hx
    obtain rfl : _ = s' := Option.some.inj hs
    obtain ⟨⟨rfl, hn⟩, rfl⟩ : (v = u ∧ u ≠ .null) ∧ ch = true := by simpa using hx
    refine ⟨⟨fun hc => (by cases hc), rfl⟩, .inr ⟨_, rfl, ?_⟩⟩
    simp [Isr.Replay.see, flat, plainPhase, hn]
  | transferring u =>
    simp only [Isr.Replay.see] at hs
    split at hs
    · obtain rfl : _ = s' := Option.some.inj hs
      exact ⟨⟨fun hc t ht => cm hc t (by simpa using ht), rfl⟩, .inl ⟨rfl, rfl⟩⟩
    · cases hs
  | stepped =>
    obtain ⟨σ, st, clk, ch, th⟩ := s
    simp only [Isr.Replay.see] at hs
    split at hs <;> first | (cases hs; done) | skip
    all_goals
      obtain rfl : _ = s' := Option.some.inj hs
      exact ⟨⟨fun hc t ht => cm hc t (by simp [ht]), rfl⟩, .inr ⟨_, rfl, rfl⟩⟩

theorem look_flat (c : Calm s) (hs : s.look = some s') : (Calm s' ∧ s'.callHook = s.callHook) ∧ (flat s).look = some (flat s') := by
  obtain ⟨σ, st, clk, ch, th⟩ := s
  simp only [Isr.Replay.look] at hs
  split at hs
  · split at hs
    · rename_i t q hq
      obtain rfl : _ = s' := Option.some.inj hs
      refine ⟨⟨fun hc t ht => c hc t (by simpa using ht), rfl⟩, ?_⟩
      simp [Isr.Replay.look, flat, plainPhase, hq]
    · rename_i hq
      obtain rfl : _ = s' := Option.some.inj hs
      refine ⟨⟨fun hc t ht => c hc t (by simpa using ht), rfl⟩, ?_⟩
      simp [Isr.Replay.look, flat, plainPhase, hq]
  · cases hs

theorem replays_flat {ch th : Bool} {L : List Seen} (hs : Isr.Replays prec off (.start ch th) L s) :
    (Inside s.steps ∧ Calm s ∧ s.callHook = ch) ∧ Isr.Replays prec off (.start false false) (unhook ch L) (flat s) := by
  induction hs with
  | nil => exact ⟨⟨fun p hp => (by cases hp), fun _ t ht => (by cases ht), rfl⟩, .nil _⟩
  | see _ hx ih =>
    obtain ⟨⟨i, c, hc⟩, r⟩ := ih
    obtain ⟨⟨c', hc'⟩, k⟩ := see_flat i c hx
    refine ⟨⟨see_inside i hx, c', hc'.trans hc⟩, ?_⟩
    rw [hc] at k
    rw [show ∀ a b, unhook ch (a ++ b) = unhook ch a ++ unhook ch b from fun a b => List.filterMap_append]
    rcases k with ⟨e, f⟩ | ⟨e', e, f⟩
    · rw [e, f, List.append_nil]; exact r
    · rw [e]; exact r.see f
  | look _ hx ih =>
    obtain ⟨⟨i, c, hc⟩, r⟩ := ih
    obtain ⟨⟨c', hc'⟩, k⟩ := look_flat c hx
    exact ⟨⟨look_inside i hx, c', hc'.trans hc⟩, r.look k⟩

/-- **C140, with interrupts and hooks**: the same at every moment of an interrupted program with a call hook, a transfer hook, or both
(that does not call mu_sched_reset), if a task counts as called from when the call hook is called with it. -/
theorem C140_hooks {A : Arch} {X : AExt} {U : Isr.User} (H : Isr.Honest A X U prec off) {Y : Ext} {n k : Nat} {r : CVal} {h0 : Heap} (v : h0.SchedVars)
    (hi : U.inv h0) (hl : U.log h0 = []) (hh : U.Hooks h0) (hu : U.resets = false)
    (e : sem A Y prog (k + 3) .mu_sched_init h0 [] = .ok (r, h)) {a a' : Act CVal}
    (c : Isr.Code (semA A X prog n) U a) (run : Isr.Steps A X U (a, h) (a', h'))
    (hk : ∀ e ∈ unhook U.callHook.isSome (U.log h'), Keeps K e)
    (hw : WeakOn prec (Time off (unhook U.callHook.isSome (U.log h')))) : Orderly prec off K (unhook U.callHook.isSome (U.log h')) := by
  obtain ⟨⟨s, hs⟩, -⟩ := Isr.C134_interrupted hu H v hi hl hh e c run
  exact orderly (replays_flat hs).2 hk hw

/-- The theorem applies to the program of C134's example with hooks. -/
example : ∃ h, .hooked (.ptr (.obj 1) 0) ∈ Isr.hookUser.log h ∧ .transferring (.ptr (.obj 0) 0) ∈ Isr.hookUser.log h ∧
    .called (.ptr (.obj 1) 0) ∈ unhook true (Isr.hookUser.log h) ∧
    Orderly demoPrec demoOff (fun t => if t = .ptr (.obj 1) 0 then .irq else .immed) (unhook true (Isr.hookUser.log h)) := by
  obtain ⟨h0, h1, h, e0, e, c, run, hl, v, i, l, hk, -⟩ := Isr.hook_demo
  refine ⟨h, by simp [hl], by simp [hl], by simp [hl, unhook], Isr.hook_honest |> fun H => C140_hooks (n := _) (k := 27) H v i l hk rfl e c run ?_ ?_⟩
  · rw [hl]
    simp [unhook, List.replicate, show Isr.hookUser.callHook.isSome = true from rfl]
    simp [Keeps]
  · rw [hl]
    refine weak_five fun T hT => ?_
    have := time_clock (by simp [unhook, List.replicate, show Isr.hookUser.callHook.isSome = true from rfl]) hT
    simpa [unhook, List.replicate, show Isr.hookUser.callHook.isSome = true from rfl] using this

/-! ## Hooks and calls -/

theorem see_paired {e : Seen} (t : CVal) (hc : s.callHook = true) (hs : s.see prec off e = some s') :
    s'.callHook = true ∧ s'.steps.count (.hooked t) + [e].count (.called t) = s.steps.count (.hooked t) + [e].count (.hooked t) := by
  cases e with
  | did c r =>
    simp only [Isr.Replay.see] at hs
    split at hs
    · rename_i hx
      have hfit : s.fits c = true := by simp at hx; exact hx.1.2
      obtain rfl : _ = s' := Option.some.inj hs
      refine ⟨hc, ?_⟩
      rcases after_fits hfit with e | ⟨u, e⟩
      · simp [e]
      · simp only [e]
        simp [List.count_cons]
    · cases hs
  | clock now =>
    obtain ⟨σ, st, clk, ch, th⟩ := s
    simp only [Isr.Replay.see] at hs
    split at hs
    · obtain rfl : _ = s' := Option.some.inj hs
      exact ⟨hc, by simp [List.count_cons]⟩
    · split at hs
      · obtain rfl : _ = s' := Option.some.inj hs
        exact ⟨hc, by simp⟩
      · cases hs
  | step =>
    simp only [Isr.Replay.see] at hs
    split at hs
    · obtain rfl : _ = s' := Option.some.inj hs
      exact ⟨hc, by simp [List.count_cons]⟩
    · cases hs
  | called u =>
    obtain ⟨σ, st, clk, ch, th⟩ := s
    simp only at hc
    subst hc
    simp only [Isr.Replay.see] at hs
    split at hs <;> first | (cases hs; done) | (split at hs <;> first | (cases hs; done) | skip)
    · rename_i v l hx
      simp at hx
    · rename_i v l hx
      obtain rfl : _ = s' := Option.some.inj hs
      subst hx
      refine ⟨rfl, ?_⟩
      simp [List.count_cons]
  | hooked u =>
    obtain ⟨σ, st, clk, ch, th⟩ := s
    simp only [Isr.Replay.see] at hs
    split at hs <;> first | (cases hs; done) | (split at hs <;> first | (cases hs; done) | skip)
    obtain rfl : _ = s' := Option.some.inj hs
    refine ⟨hc, ?_⟩
    simp [List.count_cons]
  | transferring u =>
    simp only [Isr.Replay.see] at hs
    split at hs
    · obtain rfl : _ = s' := Option.some.inj hs
      exact ⟨hc, by simp [List.count_cons]⟩
    · cases hs
  | stepped =>
    obtain ⟨σ, st, clk, ch, th⟩ := s
    simp only [Isr.Replay.see] at hs
    split at hs <;> first | (cases hs; done) | skip
    all_goals
      obtain rfl : _ = s' := Option.some.inj hs
      exact ⟨hc, by simp [List.count_cons]⟩

theorem look_paired (t : CVal) (hc : s.callHook = true) (hs : s.look = some s') :
    s'.callHook = true ∧ s'.steps.count (.hooked t) = s.steps.count (.hooked t) := by
  obtain ⟨σ, st, clk, ch, th⟩ := s
  simp only [Isr.Replay.look] at hs
  split at hs
  · split at hs
    all_goals
      obtain rfl : _ = s' := Option.some.inj hs
      exact ⟨hc, by simp [List.count_cons]⟩
  · cases hs

theorem retold_paired {th : Bool} {L : List Seen} {g : Stage} (t : CVal) (hs : Isr.Retold prec off (.start true th) L s g) :
    s.callHook = true ∧ L.count (.hooked t) = L.count (.called t) + s.steps.count (.hooked t) := by
  have entry : ∀ {s1 s2 : Isr.Replay} {L : List Seen} {e : Seen}, s1.see prec off e = some s2 →
      (s1.callHook = true ∧ L.count (.hooked t) = L.count (.called t) + s1.steps.count (.hooked t)) →
      s2.callHook = true ∧ (L ++ [e]).count (.hooked t) = (L ++ [e]).count (.called t) + s2.steps.count (.hooked t) := by
    intro s1 s2 L e hx ih
    obtain ⟨h1, h2⟩ := see_paired t ih.1 hx
    refine ⟨h1, ?_⟩
    simp only [List.count_append]
    omega
  induction hs with
  | nil => exact ⟨rfl, rfl⟩
  | see _ hx _ ih => exact entry hx ih
  | look _ hx ih =>
    obtain ⟨h1, h2⟩ := look_paired t ih.1 hx
    exact ⟨h1, by omega⟩
  | isr _ hx ih => exact entry hx ih
  | clear _ _ _ ih => exact ih
  | cleared _ ih => exact ih
  | reset _ ih => exact ⟨ih.1, by simpa using ih.2⟩

/-- **C140, the call hook**: in an interrupted program with a call hook, which may call mu_sched_reset, no task is called more often than
the hook was called with it; and when the program is finished, exactly as often. -/
theorem C140_hook_calls {A : Arch} {X : AExt} {U : Isr.User} (H : Isr.Honest A X U prec off) {Y : Ext} {n k f : Nat} {r : CVal} {h0 : Heap} (v : h0.SchedVars)
    (hi : U.inv h0) (hl : U.log h0 = []) (hh : U.Hooks h0) (hc : U.callHook = some f)
    (e : sem A Y prog (k + 3) .mu_sched_init h0 [] = .ok (r, h)) {a a' : Act CVal}
    (c : Isr.Code (semA A X prog n) U a) (run : Isr.Steps A X U (a, h) (a', h')) (t : CVal) :
    (U.log h').count (.called t) ≤ (U.log h').count (.hooked t) ∧
      ((∃ x, a' = .done x) → (U.log h').count (.called t) = (U.log h').count (.hooked t)) := by
  have hst : U.start = .start true U.transferHook.isSome := by simp [Isr.User.start, hc]
  constructor
  · obtain ⟨⟨s, g, hs⟩, -⟩ := Isr.C143_interrupted H v hi hl hh e c run
    rw [hst] at hs
    have := (retold_paired t hs).2
    omega
  · rintro ⟨x, rfl⟩
    obtain ⟨s, hs, h0⟩ := Isr.C143_finished H v hi hl hh e c run
    rw [hst] at hs
    have := (retold_paired t hs).2
    rw [h0] at this
    simpa using this.symm

example : ∃ h, (Isr.hookUser.log h).count (.called (.ptr (.obj 0) 0)) = 8 ∧
    (Isr.hookUser.log h).count (.called (.ptr (.obj 0) 0)) = (Isr.hookUser.log h).count (.hooked (.ptr (.obj 0) 0)) := by
  obtain ⟨h0, h1, h, e0, e, c, run, hl, v, i, l, hk, -⟩ := Isr.hook_demo
  refine ⟨h, ?_, (Isr.hook_honest |> fun H => C140_hook_calls (n := _) (k := 27) H v i l hk rfl e c run (.ptr (.obj 0) 0)).2 ⟨_, rfl⟩⟩
  rw [hl]
  decide

end Mu.CS.Story
