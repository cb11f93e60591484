import Verif.Lemmas.SchedClock
import Verif.Props.Sched

/-! # C104, C105: wrapping clocks, periodic tasks -/

namespace Mu.Sched
open Spec

variable {T R T' R' : Type} [DecidableEq T] {cfg : Cfg T R} {cfg' : Cfg T' R'}

/-! ## C104 -/

/-- **C104, in general.**  Of the clock only the comparisons matter.  Let `f` translate the times of one
clock into times of another and `g` the delays, compatibly with `mu_time_offset`.  If in an execution
the clocks agree on the comparisons of each new time with the pending ones, then the same program with
the other clock does the same: the same calls in the same order with the same results. -/
theorem C104_only_comparisons_matter (hw : cfg.Wf) (hw' : cfg'.Wf) (f : T → T') (g : R → R')
    (hoff : ∀ a r, cfg'.offset (f a) (g r) = f (cfg.offset a r))
    (h1 : cfg'.maxIrq = cfg.maxIrq) (h2 : cfg'.maxImmed = cfg.maxImmed)
    (h3 : cfg'.maxDeferred = cfg.maxDeferred) {s s1 : Sched T} {s' : Sched T'} (hb : Boot cfg s)
    (hb' : Boot cfg' s') (p : Prog T R) {tr : List (Ev T)} (h : run cfg s p = .ok (tr, s1))
    (ha : Always (agree cfg cfg' f) (St.start T) tr) :
    ∃ s1', run cfg' s' (p.map f g) = .ok (tr.map (Ev.map f), s1') := by
  obtain ⟨s0, i, m, b1, b2, b3, rfl⟩ := hb
  obtain ⟨s0', i', m', b1', b2', b3', rfl⟩ := hb'
  obtain ⟨x, e1, -⟩ := run_refines hw p (init_rep hw b1 b2 b3)
  obtain ⟨x', e1', -⟩ := run_refines hw' (p.map f g) (init_rep hw' b1' b2' b3')
  rw [h] at e1
  obtain ⟨rfl, -⟩ := Prod.mk.inj (Except.ok.inj e1)
  refine ⟨x', e1'.trans ?_⟩
  have := lrun_map (cfg := cfg) (cfg' := cfg') f g hoff h1 h2 h3 p (σ := St.start T)
    (L := ⟨[], [], [], NULL, NULL⟩) ⟨rfl, rfl, rfl, List.Perm.refl _⟩ rfl ha
  rw [show (⟨[], [], [], NULL, NULL⟩ : LSt T') = LSt.map f ⟨[], [], [], NULL, NULL⟩ from rfl, this]

/-- **C104.**  A clock that wraps cannot be told from one that does not.  Take any program and an
execution of it with a clock that counts ticks for ever.  If whenever the clock is read or a task is
deferred, that time is within half of the range of a `w` bit counter from each pending time, then the
program does the same with a clock that shows only the low `w` bits (and compares by signed
difference): the same calls in the same order with the same results, all times cut to `w` bits. -/
theorem C104_wrapping_clock {w : Nat} (hpos : 0 < w) {P : Plat} {mi mm md : Nat}
    (hw : (unbounded P mi mm md).Wf) {s s1 : Sched Nat} {s' : Sched (BitVec w)}
    (hb : Boot (unbounded P mi mm md) s) (hb' : Boot (wrapping w P mi mm md) s') (p : Prog Nat Nat)
    {tr : List (Ev Nat)} (h : run (unbounded P mi mm md) s p = .ok (tr, s1))
    (hn : Always (near w) (St.start Nat) tr) :
    ∃ s1', run (wrapping w P mi mm md) s' (p.map (BitVec.ofNat w) (BitVec.ofNat w)) =
      .ok (tr.map (Ev.map (BitVec.ofNat w)), s1') :=
  C104_only_comparisons_matter (cfg' := wrapping w P mi mm md) hw ⟨hw.irq, hw.immed, hw.deferred⟩
    (BitVec.ofNat w) (BitVec.ofNat w)
    (fun a r => by simp [wrapping, unbounded, BitVec.ofNat_add]) rfl rfl rfl hb hb' p h
    (near_agree hpos tr _ hn)

/-- The bound is sharp: with a pending time half of the range in the past, the wrapped clock reads the
order the other way round. -/
theorem wrap_sharp {w : Nat} (hw : 0 < w) (a : Nat) :
    wrapPrecedes w (BitVec.ofNat w (a + 2 ^ (w - 1))) (BitVec.ofNat w a) = true := by
  have e2 : 2 ^ w = 2 * 2 ^ (w - 1) := by
    obtain ⟨k, rfl⟩ : ∃ k, w = k + 1 := ⟨w - 1, by omega⟩
    rw [Nat.pow_succ, Nat.add_sub_cancel]; omega
  have : BitVec.ofNat w a = BitVec.ofNat w (a + 2 * 2 ^ (w - 1)) := by
    rw [← e2]; apply BitVec.eq_of_toNat_eq; simp
  rw [this, wrap_ofNat hw (by have := Nat.two_pow_pos (w - 1); omega) (by omega)]
  have := Nat.two_pow_pos (w - 1)
  simp only [decide_eq_true_eq]; omega

/-! ## C105 -/

/-- The last clock reading. -/
def reading (L : Option Nat) : Ev Nat → Option Nat
  | .clock n => some n
  | _ => L

def lastReading (h : List (Ev Nat)) : Option Nat := h.foldl reading none

/-- The clock readings at which `t` is taken; `L` is the last reading before. -/
def runTimes (t : Val) : Option Nat → List (Ev Nat) → List Nat
  | _, [] => []
  | L, .sel _ u :: tr => (if u = t then L.toList else []) ++ runTimes t L tr
  | L, e :: tr => runTimes t (reading L e) tr

/-- What a periodic task `t` and its environment keep to, in a stretch of events: the clock does not go
back; `t` is only scheduled by deferring it, when it is not waiting already, to a time at
least `period` after the last clock reading (as `mu_sched_defer_for(t, period)` does). -/
def Periodic (t : Val) (period : Nat) : Option Nat → St Nat → List (Ev Nat) → Prop
  | _, _, [] => True
  | L, σ, e :: tr =>
    (match e with
      | .clock n => ∀ m, L = some m → m ≤ n
      | .deferRet u time .none =>
        u = t → (∃ n, L = some n ∧ n + period ≤ time) ∧ ∀ d ∈ σ.pend, d.task ≠ t
      | .immedRet u .none | .isrRet u .none | .setIdleRet u => u ≠ t
      | _ => True) ∧ Periodic t period (reading L e) (next σ e) tr

/-- What is maintained along the stretch; `r` is the time of the last run. -/
structure PInv (t : Val) (period : Nat) (L r : Option Nat) (σ : St Nat) : Prop where
  due : ∀ d ∈ σ.pend, d.task = t → ∀ r0, r = some r0 → r0 + period ≤ d.time
  past : ∀ r0, r = some r0 → ∃ n, L = some n ∧ r0 ≤ n
  now : ∀ n, σ.now = some n → L = some n
  irq : t ∉ σ.irq
  immed : t ∉ σ.immed
  idle : σ.idle ≠ t
  once : σ.pend.countP (fun d => decide (d.task = t)) ≤ 1

theorem periodic_aux {t : Val} {period : Nat} {P : Plat} {mi mm md : Nat} : ∀ (h : List (Ev Nat))
    (σ : St Nat) (L r : Option Nat), Always (legal (unbounded P mi mm md)) σ h →
    Periodic t period L σ h → PInv t period L r σ →
    (r.toList ++ runTimes t L h).IsChain (fun x y => x + period ≤ y) := by
  intro h
  induction h with
  | nil => intro σ L r _ _ _; cases r <;> simp [runTimes]
  | cons e h ih =>
    intro σ L r hl hp hi
    obtain ⟨hl1, hl⟩ := hl
    obtain ⟨hp1, hp⟩ := hp
    have keep : (∀ src u, e ≠ .sel src u) → PInv t period (reading L e) r (next σ e) →
        (r.toList ++ runTimes t L (e :: h)).IsChain (fun x y => x + period ≤ y) := by
      intro hne hi'
      have : runTimes t L (e :: h) = runTimes t (reading L e) h := by
        cases e <;> first | rfl | exact absurd rfl (hne _ _)
      rw [this]
      exact ih _ _ _ hl hp hi'
    cases e with
    | sel src u =>
      have hrt : runTimes t L (.sel src u :: h) = (if u = t then L.toList else []) ++ runTimes t L h := rfl
      rw [hrt]
      have hp : Periodic t period L (next σ (.sel src u)) h := hp
      by_cases hu : u = t
      · subst hu
        rw [if_pos rfl]
        cases src with
        | irq =>
          refine absurd ?_ hi.irq
          exact List.mem_of_mem_head? hl1.2
        | immed => exact absurd (List.mem_of_mem_head? hl1.2.2) hi.immed
        | idle => exact absurd hl1.2.2.2.symm hi.idle
        | deferred time =>
          obtain ⟨-, -, hm, n, hn, hd⟩ := hl1
          have hL := hi.now n hn
          have htn : time ≤ n := by simpa [unbounded] using hd
          have h0 : ∀ d ∈ σ.pend.erase ⟨time, u⟩, d.task ≠ u := by
            intro d hd' he
            have h1 : (σ.pend.erase ⟨time, u⟩).countP (fun d => decide (d.task = u)) = 0 := by
              have := hi.once
              rw [(List.perm_cons_erase hm).countP_eq, List.countP_cons] at this
              simp only [decide_true, if_true] at this
              omega
            rw [List.countP_eq_zero] at h1
            exact h1 d hd' (by simpa using he)
          have hi' : PInv u period L (some n) (next σ (.sel (.deferred time) u)) := by
            refine ⟨?_, ?_, hi.now, hi.irq, hi.immed, hi.idle, ?_⟩
            · intro d hd' he; exact absurd he (h0 d hd')
            · rintro r0 h; cases h; exact ⟨n, hL, Nat.le_refl _⟩
            · have : (σ.pend.erase ⟨time, u⟩).countP (fun d => decide (d.task = u)) = 0 := by
                rw [List.countP_eq_zero]; intro d hd'; simpa using h0 d hd'
              simp only [next]; omega
          have hc := ih _ _ _ hl hp hi'
          rw [hL] at hc ⊢
          cases r with
          | none => simpa using hc
          | some r0 =>
            simp only [Option.toList, List.cons_append, List.nil_append] at hc ⊢
            refine List.isChain_cons_cons.mpr ⟨?_, hc⟩
            have := hi.due _ hm rfl r0 rfl
            simp only at this
            omega
      · rw [if_neg hu, List.nil_append]
        refine ih _ _ _ hl hp ?_
        cases src with
        | irq => exact ⟨hi.due, hi.past, hi.now, fun h => hi.irq (List.mem_of_mem_tail h), hi.immed, hi.idle,
            hi.once⟩
        | immed => exact ⟨hi.due, hi.past, hi.now, hi.irq, fun h => hi.immed (List.mem_of_mem_tail h), hi.idle,
            hi.once⟩
        | idle => exact ⟨hi.due, hi.past, hi.now, hi.irq, hi.immed, hi.idle, hi.once⟩
        | deferred time =>
          refine ⟨fun d hd => hi.due d (List.mem_of_mem_erase hd), hi.past, hi.now, hi.irq, hi.immed, hi.idle, ?_⟩
          exact Nat.le_trans (List.Sublist.countP_le (List.erase_sublist)) hi.once
    | clock n =>
      refine keep (by simp) ⟨hi.due, ?_, ?_, hi.irq, hi.immed, hi.idle, hi.once⟩
      · intro r0 h0
        obtain ⟨m, e1, e2⟩ := hi.past r0 h0
        exact ⟨n, rfl, Nat.le_trans e2 (hp1 m e1)⟩
      · intro m h0; simpa [reading, next] using h0
    | stepEnter => exact keep (by simp) ⟨hi.due, hi.past, by simp [next], hi.irq, hi.immed, hi.idle, hi.once⟩
    | immedRet u er =>
      refine keep (by simp) ?_
      cases er with
      | none => exact ⟨hi.due, hi.past, hi.now, hi.irq, by
          simp only [next, List.mem_append, List.mem_singleton, not_or]
          exact ⟨hi.immed, Ne.symm hp1⟩, hi.idle, hi.once⟩
      | _ => exact ⟨hi.due, hi.past, hi.now, hi.irq, hi.immed, hi.idle, hi.once⟩
    | isrRet u er =>
      refine keep (by simp) ?_
      cases er with
      | none => exact ⟨hi.due, hi.past, hi.now, by
          simp only [next, List.mem_append, List.mem_singleton, not_or]
          exact ⟨hi.irq, Ne.symm hp1⟩, hi.immed, hi.idle, hi.once⟩
      | _ => exact ⟨hi.due, hi.past, hi.now, hi.irq, hi.immed, hi.idle, hi.once⟩
    | deferRet u time er =>
      refine keep (by simp) ?_
      cases er with
      | none =>
        refine ⟨?_, hi.past, hi.now, hi.irq, hi.immed, hi.idle, ?_⟩
        · intro d hd he r0 h0
          simp only [next, List.mem_append, List.mem_singleton] at hd
          rcases hd with hd | rfl
          · exact hi.due d hd he r0 h0
          · simp only at he
            obtain ⟨n, e1, e2⟩ := (hp1 he).1
            obtain ⟨m, e3, e4⟩ := hi.past r0 h0
            rw [e1] at e3
            cases e3
            simp only; omega
        · simp only [next, List.countP_append, List.countP_cons, List.countP_nil]
          by_cases hu : u = t
          · have : σ.pend.countP (fun d => decide (d.task = t)) = 0 := by
              rw [List.countP_eq_zero]; intro d hd; simpa using (hp1 hu).2 d hd
            rw [this]; split <;> simp
          · have := hi.once
            simp [hu]; exact this
      | _ => exact ⟨hi.due, hi.past, hi.now, hi.irq, hi.immed, hi.idle, hi.once⟩
    | removeRet u er =>
      refine keep (by simp) ⟨fun d hd => hi.due d (List.mem_filter.mp hd).1, hi.past, hi.now, hi.irq, hi.immed,
        hi.idle, ?_⟩
      exact Nat.le_trans (List.Sublist.countP_le List.filter_sublist) hi.once
    | resetRet =>
      refine keep (by simp) ⟨by simp [next], hi.past, hi.now, by simp [next], by simp [next], hi.idle,
        by simp [next]⟩
    | setIdleRet u =>
      exact keep (by simp) ⟨hi.due, hi.past, hi.now, hi.irq, hi.immed, hp1, hi.once⟩
    | _ => exact keep (by simp) ⟨hi.due, hi.past, hi.now, hi.irq, hi.immed, hi.idle, hi.once⟩

theorem foldl_reading_now : ∀ (h : List (Ev Nat)) (σ : St Nat) (L : Option Nat),
    (∀ n, σ.now = some n → L = some n) →
    ∀ n, (track σ h).now = some n → h.foldl reading L = some n := by
  intro h
  induction h with
  | nil => intro σ L h n hn; exact h n hn
  | cons e h ih =>
    intro σ L h0
    refine ih (next σ e) (reading L e) ?_
    intro n hn
    cases e with
    | clock m => simpa [next, reading] using hn
    | stepEnter => simp [next] at hn
    | sel s t => cases s <;> exact h0 n (by simpa [next] using hn)
    | immedRet u er => cases er <;> exact h0 n hn
    | isrRet u er => cases er <;> exact h0 n hn
    | deferRet u ti er => cases er <;> exact h0 n hn
    | _ => exact h0 n hn

/-- **C105.**  A task that schedules itself with `mu_sched_defer_for(t, period)` runs at most once per
period.  Take a stretch `h` of any history at the beginning of which `t` is waiting nowhere (for
instance while its first run is in progress) and in which `Periodic` is kept.  Then the clock readings
at which `t` is run are at least `period` apart, and the first is at least `period` after the last
reading before the stretch.  This is whatever other tasks and interrupts do. -/
theorem C105_at_least_period {P : Plat} {mi mm md : Nat} (hw : (unbounded P mi mm md).Wf)
    {s : Sched Nat} {h0 h : List (Ev Nat)} (hr : Reach (unbounded P mi mm md) s (h0 ++ h)) {t : Val}
    (hwait : waiting t (books h0) = 0) (hidle : (books h0).idle ≠ t) (period : Nat)
    (hp : Periodic t period (lastReading h0) (books h0) h) :
    ((lastReading h0).toList ++ runTimes t (lastReading h0) h).IsChain (fun x y => x + period ≤ y) := by
  obtain ⟨L, hi⟩ := reach_inv hw hr
  have hl := ((always_append _ _ _).mp hi.legal).2
  simp only [waiting, Nat.add_eq_zero_iff, List.count_eq_zero] at hwait
  refine periodic_aux h _ _ _ hl hp ⟨?_, ?_, ?_, hwait.1.1, hwait.2, hidle, ?_⟩
  · intro d hd he
    exact absurd (List.mem_map.mpr ⟨d, hd, he⟩) hwait.1.2
  · intro r0 h; exact ⟨r0, h, Nat.le_refl _⟩
  · exact foldl_reading_now h0 (St.start Nat) none (by simp [St.start])
  · have : (books h0).pend.countP (fun d => decide (d.task = t)) = 0 := by
      rw [List.countP_eq_zero]
      intro d hd he
      exact hwait.1.2 (List.mem_map.mpr ⟨d, hd, by simpa using he⟩)
    change (books h0).pend.countP _ ≤ 1
    omega

/-- **C105, the k-th run.**  It happens no earlier than `k` periods after the beginning. -/
theorem C105_kth_run {P : Plat} {mi mm md : Nat} (hw : (unbounded P mi mm md).Wf)
    {s : Sched Nat} {h0 h : List (Ev Nat)} (hr : Reach (unbounded P mi mm md) s (h0 ++ h)) {t : Val}
    (hwait : waiting t (books h0) = 0) (hidle : (books h0).idle ≠ t) (period : Nat)
    (hp : Periodic t period (lastReading h0) (books h0) h) {r0 : Nat} (hr0 : lastReading h0 = some r0)
    (k x : Nat) (hk : (runTimes t (lastReading h0) h)[k]? = some x) : r0 + (k + 1) * period ≤ x := by
  have hc := C105_at_least_period hw hr hwait hidle period hp
  rw [hr0] at hc hk
  simp only [Option.toList, List.cons_append, List.nil_append] at hc
  generalize runTimes t (some r0) h = l at hc hk
  have key : ∀ (l : List Nat) (r0 k : Nat), (r0 :: l).IsChain (fun x y => x + period ≤ y) →
      l[k]? = some x → r0 + (k + 1) * period ≤ x := by
    intro l
    induction l with
    | nil => intro r0 k _ h; simp at h
    | cons y l ih =>
      intro r0 k hc hk
      obtain ⟨h1, h2⟩ := List.isChain_cons_cons.mp hc
      cases k with
      | zero => simp at hk; subst hk; omega
      | succ k =>
        have := ih y k h2 (by simpa using hk)
        have e : (k + 1 + 1) * period = period + (k + 1) * period := by
          rw [Nat.add_mul (k + 1) 1]; omega
        omega
  exact key l r0 k hc hk

/-! ## Concrete cases -/

namespace Example

/-- A task that defers itself by 10 ticks each time it runs, one of the steps coming late. -/
def pprog : Prog Nat Nat :=
  .immed 21 <| .step 250 (.deferFor 21 250 10 .done) <| .step 255 .done <|
  .step 260 (.deferFor 21 260 10 .done) <| .step 285 (.deferFor 21 286 10 .done) <|
  .step 290 .done <| .step 296 .done .done

def ptrace : List (Ev Nat) :=
  [.immedRet 21 .none, .stepEnter, .clock 250, .sel .immed 21, .called 21,
   .clock 250, .deferRet 21 260 .none, .stepRet,
   .stepEnter, .clock 255, .sel .idle NULL, .stepRet,
   .stepEnter, .clock 260, .sel (.deferred 260) 21, .called 21,
   .clock 260, .deferRet 21 270 .none, .stepRet,
   .stepEnter, .clock 285, .sel (.deferred 270) 21, .called 21,
   .clock 286, .deferRet 21 296 .none, .stepRet,
   .stepEnter, .clock 290, .sel .idle NULL, .stepRet,
   .stepEnter, .clock 296, .sel (.deferred 296) 21, .called 21, .stepRet]

example : cfg0 = unbounded .lp64 4 2 3 := rfl

theorem pruns : (run cfg0 boot pprog).map (·.1) = .ok ptrace := by decide +kernel

/-- The stretch begins when the task has started to run for the first time, at 250. -/
example : waiting 21 (books (ptrace.take 5)) = 0 ∧ (books (ptrace.take 5)).idle ≠ 21 ∧
    lastReading (ptrace.take 5) = some 250 ∧
    runTimes 21 (some 250) (ptrace.drop 5) = [260, 285, 296] := by decide

example : Periodic 21 10 (some 250) (books (ptrace.take 5)) (ptrace.drop 5) := by
  simp [Periodic, ptrace, reading, books, track, next, St.start]

/-- The same program with a clock of eight bits, which wraps in between, does the same; the times are
near enough. -/
example : Always (near 8) (St.start Nat) ptrace := by
  simp [Always, near, ptrace, next, St.start]

def boot8 : Sched (BitVec 8) :=
  init (wrapping 8 .lp64 4 2 3) ⟨⟨9, 9, 9, [1]⟩, ⟨[3], 7, 7, 7⟩, List.replicate 3 ⟨77, 7⟩, 9, 9, 9⟩
    (List.replicate 4 0) (List.replicate 2 0)

example : Boot (wrapping 8 .lp64 4 2 3) boot8 := ⟨_, _, _, by decide, by decide, by decide, rfl⟩

example : (run (wrapping 8 .lp64 4 2 3) boot8 (pprog.map (BitVec.ofNat 8) (BitVec.ofNat 8))).map (·.1) =
    .ok (ptrace.map (Ev.map (BitVec.ofNat 8))) ∧
    (ptrace.map (Ev.map (BitVec.ofNat 8)))[14]? = some (.sel (.deferred 4#8) 21) := by decide +kernel

end Example

end Mu.Sched
