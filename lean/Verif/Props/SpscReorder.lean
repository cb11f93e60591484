import Verif.Lemmas.SpscReorder
import Verif.Props.Spsc

/-! # Property C101: mu_spsc when the compiler moves the accesses to `store[]` -/

namespace Mu.Spsc.Re
open Mu.Spsc Mu.Spsc.Spec

/-- **C101.**  However the accesses to `store[]` are moved, as long as the consumer is not active
between a store to `tail` and the late store of its item (`RunsOn`): the execution does not fault, and
there is an execution in source order in which every put and every get had the same result, except
that it may have completed one get more, the one that is in progress here. -/
theorem C101_same_results (q0 : Spsc) (store : List Val) (N : Nat)
    (hok : (init q0 store N).1 = .none) (halloc : N ≤ store.length) (sched : List Act)
    (hr : RunsOn (Sys.start (init q0 store N).2) sched) :
    ∃ s sched' s', exec (Sys.start (init q0 store N).2) sched = .ok s ∧
      Spsc.exec (Spsc.Sys.start (init q0 store N).2) sched' = .ok s' ∧
      putRets s'.log = putRets s.log ∧
      (getRets s'.log = getRets s.log ∨
        s.c ≠ .idle ∧ ∃ x, getRets s'.log = getRets s.log ++ [.getRet true x]) := by
  obtain ⟨s, a, h1, h2, as, h3⟩ := exec_sim sched (start_sim hok halloc) hr
  refine ⟨s, as, a, h1, h3, h2.puts.symm, ?_⟩
  have hg := h2.gets
  cases hc : s.c with
  | lateItem slot =>
    rw [hc] at hg
    obtain ⟨x, _, g⟩ := hg
    exact .inr ⟨by simp, x, g⟩
  | _ => rw [hc] at hg; exact .inl hg.symm

private theorem accepted_puts (l : List Ev) : accepted (putRets l) = accepted l := by
  induction l with
  | nil => rfl
  | cons e l ih =>
    cases e with
    | putRet x b => cases b <;> simp_all [accepted, putRets]
    | getRet b x => simp_all [accepted, putRets]

private theorem delivered_gets (l : List Ev) : delivered (getRets l) = delivered l := by
  induction l with
  | nil => rfl
  | cons e l ih =>
    cases e with
    | getRet b x => cases b <;> simp_all [delivered, getRets]
    | putRet x b => simp_all [delivered, getRets]

/-- **C101, FIFO.**  Hence the items delivered are a prefix of the items accepted, in order, and at
most `N - 1` items are in between, not counting one whose delivery is in progress. -/
theorem C101_fifo (q0 : Spsc) (store : List Val) (N : Nat)
    (hok : (init q0 store N).1 = .none) (halloc : N ≤ store.length) (sched : List Act)
    (hr : RunsOn (Sys.start (init q0 store N).2) sched) :
    ∃ s, exec (Sys.start (init q0 store N).2) sched = .ok s ∧
      delivered s.log <+: accepted s.log ∧
      (accepted s.log).length - (delivered s.log).length ≤ (if s.c = .idle then N - 1 else N) := by
  obtain ⟨s, as, a, h1, h2, h3, h4⟩ := C101_same_results q0 store N hok halloc sched hr
  obtain ⟨a', g1, g2, g3⟩ := C12_fifo_all_interleavings q0 store N hok halloc as
  obtain rfl : a' = a := Except.ok.inj (g1.symm.trans h2)
  have hN : 2 ≤ N := (init_rep hok halloc).wf.two
  have ha : accepted s.log = accepted a'.log := by
    rw [← accepted_puts s.log, ← h3, accepted_puts]
  refine ⟨s, h1, ?_, ?_⟩ <;> rcases h4 with h4 | ⟨hc, x, h4⟩
  · rw [ha, ← delivered_gets s.log, ← h4, delivered_gets]; exact g2
  · have : delivered a'.log = delivered s.log ++ [x] := by
      rw [← delivered_gets a'.log, h4, delivered_append, delivered_gets]; rfl
    rw [ha]
    exact (List.prefix_append _ _).trans (this ▸ g2)
  · rw [ha, ← delivered_gets s.log, ← h4, delivered_gets]
    split <;> omega
  · have : delivered a'.log = delivered s.log ++ [x] := by
      rw [← delivered_gets a'.log, h4, delivered_append, delivered_gets]; rfl
    rw [this] at g3
    simp only [List.length_append, List.length_cons, List.length_nil] at g3
    rw [ha, if_neg hc]
    omega

/-- The item is not lost either: with one more access the get in progress ends, and then the items
delivered are those of the execution in source order. -/
theorem C101_late_load (q0 : Spsc) (store : List Val) (N : Nat)
    (hok : (init q0 store N).1 = .none) (halloc : N ≤ store.length) (sched : List Act)
    (hr : RunsOn (Sys.start (init q0 store N).2) sched) (s : Sys)
    (hs : exec (Sys.start (init q0 store N).2) sched = .ok s) (slot : Nat)
    (hl : s.c = .lateItem slot) (tf moved : Bool) :
    ∃ x s', micro s (.cons tf moved) = .ok s' ∧ s'.log = s.log ++ [.getRet true x] ∧
      (accepted s.log)[(delivered s.log).length]? = some x := by
  obtain ⟨s1, a, h1, h2, as, h3⟩ := exec_sim sched (start_sim hok halloc) hr
  obtain rfl : s1 = s := Except.ok.inj (h1.symm.trans hs)
  have hg := h2.gets
  rw [hl] at hg
  obtain ⟨x, g1, g2⟩ := hg
  refine ⟨x, { s1 with c := .idle, log := s1.log ++ [.getRet true x] }, ?_, rfl, ?_⟩
  · simp only [micro, hl]
    rw [h2.store, ldN_some g1]; rfl
  · have ha : accepted s1.log = accepted a.log := by
      rw [← accepted_puts s1.log, h2.puts, accepted_puts]
    have hd : delivered a.log = delivered s1.log ++ [x] := by
      rw [← delivered_gets a.log, g2, delivered_append, delivered_gets]; rfl
    have := h2.inv.pre
    rw [hd] at this
    rw [ha, ← this, List.append_assoc, List.getElem?_append_right (Nat.le_refl _)]
    simp

/-- A schedule with all accesses moved that meets the hypotheses: the queue of two slots is emptied
with late loads and filled with late stores. -/
example : RunsOn (Sys.start (init ⟨0, 0, 0, []⟩ [0, 0] 2).2)
      (List.replicate 6 (.prod 7 true) ++ List.replicate 6 (.cons false true) ++
        List.replicate 6 (.prod 8 true) ++ [.cons false true]) ∧
    (exec (Sys.start (init ⟨0, 0, 0, []⟩ [0, 0] 2).2)
      (List.replicate 6 (.prod 7 true) ++ List.replicate 6 (.cons false true) ++
        List.replicate 6 (.prod 8 true) ++ [.cons false true])).map Sys.log =
      .ok [.putRet 7 true, .putRet 8 true, .getRet true 7] := by
  constructor
  · simp [RunsOn, List.replicate, micro, Sys.start, init, isPowerOfTwo, reset, stN, ldN]
  · decide

/-- **C101, the condition is needed.**  If the store to `tail` is moved before that of the item and the
consumer runs in between, it receives an item that was never put: here the old content 9 of the
storage, in place of 7. -/
theorem C101_store_order_matters :
    ∃ sched s, exec (Sys.start (init ⟨0, 0, 0, []⟩ [9, 9] 2).2) sched = .ok s ∧
      accepted s.log = [7] ∧ delivered s.log = [9] := by
  refine ⟨List.replicate 5 (.prod 7 true) ++ List.replicate 7 (.cons false false) ++ [.prod 7 true],
    ⟨⟨1, 1, 1, [7, 9]⟩, .idle, .idle, [.getRet true 9, .putRet 7 true]⟩, ?_, rfl, rfl⟩
  decide

end Mu.Spsc.Re
