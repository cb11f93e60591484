import Verif.Lemmas.Preempt
import Verif.Model.ResetIsr
import Verif.Props.Sched

/-! # C85: the scheduler with interrupts at every point; C86: interrupts during `mu_sched_reset` -/

namespace Mu.Sched.Smp
open Spec

variable {T R : Type} [DecidableEq T] {cfg : Cfg T R}

/-- C85.  Start the scheduler, let the foreground run any code `p` (steps, nested steps, tasks and
hooks that use the scheduler), let the interrupt side call `mu_sched_from_isr` again and again, and
interleave the two arbitrarily, access by access to what they share (`as`).  Nothing faults, and what
can be seen, the calls and returns in their order, is what can be seen of a sequential execution
(`Reach`) in which every `mu_sched_from_isr` takes effect at one instant between its call and its
return and every `mu_sched_step` makes its choice at one instant between its call and the call of the
task.  Whenever the foreground is in user code, it also finds the state of that sequential execution:
whatever it does next, it gets the same answers. -/
theorem C85_linearizable (hw : cfg.Wf) {s : Sched T} (hb : Boot cfg s) {p : Prog T R}
    (hf : Foreground p) (as : List Act) :
    ∃ m, exec cfg (start s p) as = .ok m ∧ ∃ h sA P, Reach cfg sA h ∧ Looks m.log h P ∧
      ∀ code, m.mode = .user code → P.main = .running ∧ ∀ q : Prog T R, ∃ evs s1 s2,
        run cfg m.s q = .ok (evs, s1) ∧ run cfg sA q = .ok (evs, s2) := by
  obtain ⟨m, P, h, sA, L, L0, e1, e2⟩ := exec_ok hw as (start_ok hw hb hf)
  refine ⟨m, e1, h, sA, P, e2.reach, e2.looks, fun code hc => ?_⟩
  have hm := e2.mode
  rw [hc] at hm
  obtain ⟨m1, m2, -, -⟩ := hm
  subst m2
  refine ⟨m1, fun q => ?_⟩
  obtain ⟨s1, a1, -⟩ := run_refines hw q e2.rep
  obtain ⟨s2, a2, -⟩ := run_refines hw q e2.inv.rep
  exact ⟨_, s1, s2, a1, a2⟩

/-- What the foreground has still to do in a step. -/
def left : Mode T R → Nat
  | .user _ => 0
  | .step _ _ _ pc => Isr.dist pc + 1

omit [DecidableEq T] in
theorem isr_main_dist {now : T} {tf : Bool} {x r : Isr.M T}
    (h : Isr.main cfg now tf x = .ok r) (hc : x.pc ≠ .chosen) : Isr.dist r.pc < Isr.dist x.pc := by
  obtain ⟨s, pc, log⟩ := x
  cases pc with
  | get c =>
    cases c with
    | idle => cases h; simp [Isr.dist]
    | compare b => cases b <;> cases h <;> simp [Isr.dist]
    | loadTail k =>
      simp only [Isr.main, Spsc.micro] at h
      split at h <;> (cases h; simp [Isr.dist])
    | loadHead k =>
      simp only [Isr.main, Spsc.micro] at h
      split at h <;> (cases h; simp [Isr.dist])
    | loadSlot => cases h; simp [Isr.dist]
    | loadItem k =>
      simp only [Isr.main, Spsc.micro] at h
      cases hl : ldN s.irq.store k with
      | error e => rw [hl] at h; cases h
      | ok v => rw [hl] at h; cases h; simp [Isr.dist]
    | loadHead2 v => cases h; simp [Isr.dist]
    | storeHead v k => cases h; simp [Isr.dist]
  | fetch =>
    simp only [Isr.main] at h
    obtain ⟨⟨t, evs, s'⟩, e1, h⟩ := C.bind_eq_ok h
    simp only at h
    split at h <;> (cases h; simp [Isr.dist])
  | queue =>
    simp only [Isr.main] at h
    obtain ⟨⟨t, evs, s'⟩, e1, h⟩ := C.bind_eq_ok h
    simp only at h
    split at h <;> (cases h; simp [Isr.dist])
  | idle => cases h; simp [Isr.dist]
  | chosen => exact absurd rfl hc

omit [DecidableEq T] in
theorem main_left {tf : Bool} {m m1 : M T R} {now : T} {body next : Prog T R} {pc : Isr.Pc}
    (hm : m.mode = .step now body next pc) (h : main cfg tf m = .ok m1) :
    m1.mode = .user body ∨ m1.mode = .user next ∨
    ∃ pc', m1.mode = .step now body next pc' ∧ Isr.dist pc' < Isr.dist pc := by
  simp only [main, hm] at h
  split at h
  · split at h
    · cases h; exact .inl rfl
    · cases h; exact .inr (.inl rfl)
  · obtain ⟨r, e1, h⟩ := C.bind_eq_ok h
    cases h
    exact .inr (.inr ⟨r.pc, rfl, isr_main_dist e1 ‹_›⟩)

omit [DecidableEq T] in
theorem prod_mode {t : Val} {m m1 : M T R} (h : prod t m = .ok m1) : m1.mode = m.mode := by
  simp only [prod] at h
  obtain ⟨r, e1, h⟩ := C.bind_eq_ok h
  cases h; rfl

def isMain : Act → Bool
  | .main _ => true
  | .prod _ => false

omit [DecidableEq T] in
theorem step_returns {now : T} {body next : Prog T R} : ∀ (as : List Act) (m m' : M T R)
    (pc : Isr.Pc), m.mode = .step now body next pc → exec cfg m as = .ok m' →
    Isr.dist pc < as.countP isMain →
    ∃ a b m1, as = a ++ b ∧ exec cfg m a = .ok m1 ∧ (m1.mode = .user body ∨ m1.mode = .user next) := by
  intro as
  induction as with
  | nil => intro m m' pc _ _ hc; simp at hc
  | cons x as ih =>
    intro m m' pc hm he hc
    simp only [exec] at he
    obtain ⟨m1, e1, he⟩ := C.bind_eq_ok he
    have tailCase : ∀ pc', m1.mode = .step now body next pc' → Isr.dist pc' < as.countP isMain →
        ∃ a b m2, x :: as = a ++ b ∧ exec cfg m a = .ok m2 ∧
          (m2.mode = .user body ∨ m2.mode = .user next) := by
      intro pc' h1 h2
      obtain ⟨a, b, m2, e2, e3, e4⟩ := ih m1 m' pc' h1 he h2
      exact ⟨x :: a, b, m2, by rw [e2]; rfl, by simp only [exec, e1, C.ok_bind]; exact e3, e4⟩
    cases x with
    | prod t =>
      refine tailCase pc ((prod_mode e1).trans hm) ?_
      simpa [isMain] using hc
    | main tf =>
      rcases main_left hm e1 with h1 | h1 | ⟨pc', h1, h2⟩
      · exact ⟨[.main tf], as, m1, rfl, by simp only [exec, e1, C.ok_bind], .inl h1⟩
      · exact ⟨[.main tf], as, m1, rfl, by simp only [exec, e1, C.ok_bind], .inr h1⟩
      · refine tailCase pc' h1 ?_
        simp only [List.countP_cons, isMain, if_true] at hc
        omega

/-- C85.  A call of `mu_sched_step` gets to the call of the task (or to its return, if there is none)
within eleven actions of its own, however many actions of the interrupt side intervene. -/
theorem C85_step_bounded {now : T} {body next : Prog T R} {pc : Isr.Pc} {m m' : M T R}
    {as : List Act} (hm : m.mode = .step now body next pc) (he : exec cfg m as = .ok m')
    (hn : 11 ≤ as.countP isMain) :
    ∃ a b m1, as = a ++ b ∧ exec cfg m a = .ok m1 ∧ (m1.mode = .user body ∨ m1.mode = .user next) := by
  refine step_returns as m m' pc hm he ?_
  have : Isr.dist pc ≤ 10 := by
    cases pc with
    | get c => cases c <;> simp [Isr.dist]
    | _ => simp [Isr.dist]
  omega

def pleft : Spsc.PPc → Nat
  | .idle => 0
  | .storeTail .. => 1
  | .storeItem .. => 2
  | .loadSlot .. => 3
  | .loadHead .. => 4
  | .loadTail .. => 5

omit [DecidableEq T] in
theorem main_p {tf : Bool} {m m1 : M T R} (h : main cfg tf m = .ok m1) : m1.p = m.p := by
  unfold main at h
  split at h
  · split at h
    · obtain ⟨x, e1, h⟩ := C.bind_eq_ok h
      cases h; rfl
    · split at h
      · cases h; rfl
      · cases h; rfl
      · split at h
        · cases h; rfl
        · cases h; rfl
        · obtain ⟨x, e1, h⟩ := C.bind_eq_ok h
          cases h; rfl
  · split at h
    · split at h <;> (cases h; rfl)
    · obtain ⟨x, e1, h⟩ := C.bind_eq_ok h
      cases h; rfl

omit [DecidableEq T] in
theorem prod_left {t : Val} {m m1 : M T R} (h : prod t m = .ok m1) (hp : m.p ≠ .idle) :
    pleft m1.p < pleft m.p := by
  simp only [prod] at h
  obtain ⟨r, e1, h⟩ := C.bind_eq_ok h
  cases h
  revert e1 hp
  cases hpp : m.p with
  | idle => intro hp _; exact absurd rfl hp
  | loadTail u => intro _ e1; cases e1; simp [pleft]
  | loadHead u n =>
    intro _ e1
    simp only [Spsc.micro] at e1
    split at e1 <;> (cases e1; simp [pleft])
  | loadSlot u n => intro _ e1; cases e1; simp [pleft]
  | storeItem u n k =>
    intro _ e1
    simp only [Spsc.micro] at e1
    obtain ⟨x, e2, e1⟩ := C.bind_eq_ok e1
    cases e1; simp [pleft]
  | storeTail u n => intro _ e1; cases e1; simp [pleft]

/-- C85.  Likewise a call of `mu_sched_from_isr` returns within six actions of its own (the call and
five accesses), whatever the foreground does. -/
theorem C85_isr_bounded : ∀ (as : List Act) {m m' : M T R}, exec cfg m as = .ok m' →
    m.p ≠ .idle → 5 ≤ as.countP (fun a => !isMain a) →
    ∃ a b m1, as = a ++ b ∧ exec cfg m a = .ok m1 ∧ m1.p = .idle := by
  have key : ∀ (as : List Act) (m m' : M T R), exec cfg m as = .ok m' →
      pleft m.p ≤ as.countP (fun a => !isMain a) →
      ∃ a b m1, as = a ++ b ∧ exec cfg m a = .ok m1 ∧ m1.p = .idle := by
    intro as
    induction as with
    | nil =>
      intro m m' _ hc
      refine ⟨[], [], m, rfl, rfl, ?_⟩
      revert hc
      cases m.p <;> simp [pleft]
    | cons x as ih =>
      intro m m' he hc
      by_cases hi : m.p = .idle
      · exact ⟨[], x :: as, m, rfl, rfl, hi⟩
      · simp only [exec] at he
        obtain ⟨m1, e1, he⟩ := C.bind_eq_ok he
        have hlt : pleft m1.p ≤ as.countP (fun a => !isMain a) := by
          cases x with
          | main tf =>
            rw [main_p e1]
            simpa [isMain] using hc
          | prod t =>
            have := prod_left e1 hi
            rw [List.countP_cons_of_pos (by rfl)] at hc
            omega
        obtain ⟨a, b, m2, e2, e3, e4⟩ := ih m1 m' he hlt
        exact ⟨x :: a, b, m2, by rw [e2]; rfl, by simp only [exec, e1, C.ok_bind]; exact e3, e4⟩
  intro as m m' he hp hc
  refine key as m m' he (Nat.le_trans ?_ hc)
  cases m.p <;> simp [pleft]

end Mu.Sched.Smp

/-! ## Concrete executions -/

namespace Mu.Sched.Smp.Example
open Mu.Sched.Example (boot)
open Spec

abbrev cfg0 := Mu.Sched.Example.cfg0

/-- A step whose task queues another task; then a second step. -/
def prog : Prog Nat Nat := .setIdle 17 <| .step 4 (.immed 15 <| .current .done) <| .step 5 .done .done

example : Foreground prog := by simp [prog, Foreground]

/-- The step has found the queue empty when the put of task 21, begun before the step was called, is
completed: the idle task 17 runs, then 21 in the second step. -/
def sched : List Act :=
  [.main false, .prod 21, .prod 9, .main false, .main false, .main false, .prod 9, .prod 9, .main false,
   .prod 9, .main false, .prod 9, .main true, .main true] ++ List.replicate 20 (.main true)

def log : List (Obs Nat) :=
  [.main (.setIdleRet 17), .isrCall 21, .main .stepEnter, .main (.clock 4), .isrRet 21 .none,
   .main (.called 17), .main (.immedRet 15 .none), .main (.currentRet 17), .main .stepRet,
   .main .stepEnter, .main (.called 21), .main .stepRet]

theorem runs_so : (exec cfg0 (start boot prog) sched).map (·.log) = .ok log := by decide +kernel

/-- The sequential execution it looks like. -/
example : Looks log [.setIdleRet 17, .stepEnter, .clock 4, .sel .idle 17, .called 17, .isrRet 21 .none,
    .immedRet 15 .none, .currentRet 17, .stepRet, .stepEnter, .sel .irq 21, .called 21, .stepRet]
    PSt.start :=
  ⟨[.vis (.main (.setIdleRet 17)), .vis (.isrCall 21), .vis (.main .stepEnter),
    .choose [.clock 4, .sel .idle 17], .vis (.main (.clock 4)), .effect .none,
    .vis (.isrRet 21 .none), .vis (.main (.called 17)), .vis (.main (.immedRet 15 .none)),
    .vis (.main (.currentRet 17)), .vis (.main .stepRet), .vis (.main .stepEnter),
    .choose [.sel .irq 21], .vis (.main (.called 21)), .vis (.main .stepRet)], by decide, by decide⟩

end Mu.Sched.Smp.Example

/-! ## C86 -/

namespace Mu.Sched
open Spec

variable {T R : Type} [DecidableEq T] {cfg : Cfg T R}

/-- `mu_sched_from_isr` for each of the tasks, then `p`. -/
def isrsThen : List Val → Prog T R → Prog T R
  | [], p => p
  | t :: ts, p => .fromIsr t (isrsThen ts p)

def lputs (N : Nat) : List Val → List Val → List (Val × Err) × List Val
  | l, [] => ([], l)
  | l, t :: ts =>
    if l.length < N - 1 then
      ((t, .none) :: (lputs N (l ++ [t]) ts).1, (lputs N (l ++ [t]) ts).2)
    else ((t, .full) :: (lputs N l ts).1, (lputs N l ts).2)

omit [DecidableEq T] in
theorem isrAll_ok (ts : List Val) : ∀ {s : Sched T} {L : LSt T}, Rep cfg s L →
    ∃ s', isrAll s ts = .ok ((lputs cfg.maxIrq L.irq ts).1, s') ∧
      Rep cfg s' (Smp.setIrq L (lputs cfg.maxIrq L.irq ts).2) := by
  induction ts with
  | nil => intro s L h; exact ⟨s, rfl, h⟩
  | cons t ts ih =>
    intro s L h
    obtain ⟨s1, e1, e2⟩ := isr_ok (cfg := cfg) h t
    obtain ⟨s2, g1, g2⟩ := ih e2
    by_cases hc : L.irq.length < cfg.maxIrq - 1
    · have hl : lisr cfg L t = (.none, Smp.setIrq L (L.irq ++ [t])) := by
        simp [lisr, hc, Smp.setIrq]
      rw [hl] at e1 g1 g2
      refine ⟨s2, ?_, ?_⟩
      · simp only [isrAll, e1, C.ok_bind, g1, lputs, if_pos hc]; rfl
      · simp only [lputs, if_pos hc]; exact g2
    · have hl : lisr cfg L t = (.full, L) := by simp [lisr, hc]
      rw [hl] at e1 g1 g2
      refine ⟨s2, ?_, ?_⟩
      · simp only [isrAll, e1, C.ok_bind, g1, lputs, if_neg hc]
      · simp only [lputs, if_neg hc]; exact g2

omit [DecidableEq T] in
theorem lrun_isrsThen (p : Prog T R) (ts : List Val) : ∀ L : LSt T, lrun cfg L (isrsThen ts p) =
    ((lputs cfg.maxIrq L.irq ts).1.map (fun x => .isrRet x.1 x.2) ++
      (lrun cfg (Smp.setIrq L (lputs cfg.maxIrq L.irq ts).2) p).1,
     (lrun cfg (Smp.setIrq L (lputs cfg.maxIrq L.irq ts).2) p).2) := by
  induction ts with
  | nil => intro L; rfl
  | cons t ts ih =>
    intro L
    simp only [isrsThen, lrun, lisr, lputs]
    by_cases hc : L.irq.length < cfg.maxIrq - 1
    · simp only [if_pos hc, ih]; rfl
    · simp only [if_neg hc, ih]; rfl

/-- C86.  Interrupts may call `mu_sched_from_isr` at any point of `mu_sched_reset`.  Nothing faults,
and the outcome is that of an uninterrupted reset before which the first interrupts (`a`) and after
which the last ones (`c`) took place: they get the same answers, and whatever program is run afterwards
behaves the same.  The interrupts between the two stores of `mu_spsc_reset` (`b`) have no effect: their
tasks are discarded, even if `mu_sched_from_isr` reported success. -/
theorem C86_interrupted_reset (hw : cfg.Wf) {s : Sched T} {h : List (Ev T)} (hr : Reach cfg s h)
    (a b c : List Val) :
    ∃ ra rb rc s' s'', resetIsr s a b c = .ok ((ra, rb, rc), s') ∧
      rb.map (·.1) = b ∧
      run cfg s (isrsThen a (.reset (isrsThen c .done))) =
        .ok (ra.map (fun x => .isrRet x.1 x.2) ++ .resetRet :: rc.map (fun x => .isrRet x.1 x.2), s'') ∧
      ∀ q : Prog T R, ∃ evs t' t'', run cfg s' q = .ok (evs, t') ∧ run cfg s'' q = .ok (evs, t'') := by
  obtain ⟨L, hi⟩ := reach_inv hw hr
  obtain ⟨s1, a1, a2⟩ := isrAll_ok a hi.rep
  obtain ⟨d, hq⟩ := a2.irq
  -- between the stores
  have hq2 : Spsc.Rep { s1.irq with head := 0 } cfg.maxIrq 0 (s1.irq.store.take s1.irq.tail) := by
    have hlt : s1.irq.tail < cfg.maxIrq := by
      rw [hq.tail]; exact Nat.mod_lt _ (by have := hq.wf.two; omega)
    have hal := hq.wf.alloc
    have hlen : (s1.irq.store.take s1.irq.tail).length = s1.irq.tail := by
      rw [List.length_take]; omega
    refine ⟨⟨hq.wf.two, hq.wf.pow, hq.wf.mask, hq.wf.alloc⟩, by simp, ?_, by omega, ?_⟩
    · rw [hlen, Nat.zero_add, Nat.mod_eq_of_lt hlt]
    · intro i hx
      rw [hlen] at hx
      rw [Nat.zero_add, Nat.mod_eq_of_lt (by omega), List.getElem?_take, if_pos hx]
  obtain ⟨s2, b1, b2⟩ := isrAll_ok b (Smp.Rep.withIrq a2 hq2)
  obtain ⟨d2, hq3⟩ := b2.irq
  have hq4 : Spsc.Rep { s2.irq with tail := 0 } cfg.maxIrq 0 [] := by
    have hh : s2.irq.head = 0 := by
      have hkeep : ∀ (ts : List Val) (s s' : Sched T) r, isrAll s ts = .ok (r, s') →
          s'.irq.head = s.irq.head := by
        intro ts
        induction ts with
        | nil => intro s s' r hx; cases hx; rfl
        | cons t ts ih =>
          intro s s' r hx
          simp only [isrAll] at hx
          obtain ⟨⟨e, x1⟩, y1, hx⟩ := C.bind_eq_ok hx
          obtain ⟨⟨r', x2⟩, y2, hx⟩ := C.bind_eq_ok hx
          cases hx
          refine (ih _ _ _ y2).trans ?_
          simp only [fromIsr, Spsc.put] at y1
          split at y1
          · simp only [C.ok_bind, if_true] at y1; cases y1; rfl
          · obtain ⟨⟨e', q'⟩, y3, y1⟩ := C.bind_eq_ok y1
            obtain ⟨st, y4, y3⟩ := C.bind_eq_ok y3
            cases y3
            simp only [reduceCtorEq, if_false] at y1
            cases y1; rfl
      rw [hkeep _ _ _ _ b1]
    exact ⟨⟨hq3.wf.two, hq3.wf.pow, hq3.wf.mask, hq3.wf.alloc⟩, by simp [hh], by simp, by simp,
      by simp⟩
  obtain ⟨s3, c1, c2⟩ := isrAll_ok c (Smp.Rep.withIrq b2 hq4)
  have hlin := lrun_isrsThen (cfg := cfg) (.reset (isrsThen c (.done : Prog T R))) a L
  obtain ⟨s'', f1, f2⟩ := run_refines hw (isrsThen a (.reset (isrsThen c .done))) hi.rep
  rw [hlin] at f1 f2
  simp only [lrun, lrun_isrsThen, List.append_nil] at f1 f2
  have hfirst : ∀ (ts l : List Val), (lputs cfg.maxIrq l ts).1.map (·.1) = ts := by
    intro ts
    induction ts with
    | nil => intro l; rfl
    | cons t ts ih =>
      intro l
      simp only [lputs]
      split <;> simp [ih]
  refine ⟨_, (lputs cfg.maxIrq (s1.irq.store.take s1.irq.tail) b).1, (lputs cfg.maxIrq [] c).1,
    { s3 with immed := Queue.reset s3.immed, count := 0, curr := NULL }, s'', ?_, hfirst b _, f1,
    fun q => ?_⟩
  · simp only [resetIsr, a1, C.ok_bind]
    rw [b1]
    simp only [C.ok_bind]
    rw [c1]
    rfl
  · have hrep : Rep cfg { s3 with immed := Queue.reset s3.immed, count := 0, curr := NULL }
        (Smp.setIrq (lreset L) (lputs cfg.maxIrq [] c).2) := by
      refine ⟨c2.irq, Ring.reset c2.immed, c2.immedCap, rfl, Nat.zero_le _, c2.alloc, rfl, rfl, c2.idle⟩
    obtain ⟨t', g1, -⟩ := run_refines hw q hrep
    obtain ⟨t'', g2, -⟩ := run_refines hw q f2
    exact ⟨_, t', t'', g1, g2⟩

/-- C86, the limit: on another core a `mu_sched_from_isr` may be in progress while `mu_sched_reset`
runs.  Then something that was never queued since the reset can come out: here 11 is put and taken,
the put of 12 is under way (`tail` read) when the reset happens, and the next two gets deliver 11,
again, and 12. -/
theorem C86_concurrent_reset_stale : ∃ (q : Spsc.Spsc) (s1 s2 : Spsc.Sys),
    (Spsc.init ⟨0, 0, 0, []⟩ [0, 0, 0, 0] 4).2 = q ∧
    Spsc.exec (.start q) (List.replicate 6 (.prod 11) ++ List.replicate 7 (.cons true) ++
      List.replicate 4 (.prod 12)) = .ok s1 ∧
    s1.log = [.putRet 11 true, .getRet true 11] ∧
    Spsc.exec { s1 with q := (Spsc.reset s1.q).2 } (List.replicate 2 (.prod 0) ++
      List.replicate 14 (.cons true)) = .ok s2 ∧
    s2.log = [.putRet 11 true, .getRet true 11, .putRet 12 true, .getRet true 11, .getRet true 12] :=
  ⟨_, _, _, rfl, rfl, rfl, rfl, rfl⟩

end Mu.Sched

namespace Mu.Sched.Smp.Example

/-- Tasks 31 and 32 arrive between the two stores: the first is accepted, and gone afterwards. -/
example : (resetIsr (match run Mu.Sched.Example.cfg0 Mu.Sched.Example.boot
      (.fromIsr 1 (.fromIsr 2 (.immed 3 .done))) with
    | .ok x => x.2
    | .error _ => Mu.Sched.Example.boot) [] [31, 32] [33]).bind
      (fun x => (run Mu.Sched.Example.cfg0 x.2 (.step 1 .done (.step 2 .done .done))).map
        (fun y => (x.1, y.1))) =
    .ok (([], [(31, .none), (32, .full)], [(33, .none)]),
      [.stepEnter, .sel .irq 33, .called 33, .stepRet, .stepEnter, .clock 2, .sel .idle 0,
        .stepRet]) := by
  rfl

end Mu.Sched.Smp.Example
