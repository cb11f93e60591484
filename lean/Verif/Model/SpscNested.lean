import Verif.Model.Spsc

/-! # mu_spsc_put interrupted by a nested producer

`mu_spsc` is documented for one producer.  `mu_sched_from_isr` (mu_sched.c:164-170) is a call of
`mu_spsc_put`, so interrupts that nest give the queue two producers: a low priority handler is
stopped inside its put, and the high priority handler performs complete puts.  The actions are those
of `micro` (Model/Spsc.lean); nothing else moves meanwhile, since the main program is suspended by
both. -/

namespace Mu.Spsc

/-- At most `n` further actions of the put in progress (mu_spsc.c:69-76); stops when it returns. -/
def prodSteps : Nat → Sys → C Sys
  | 0, s => .ok s
  | n + 1, s => if s.p = .idle then .ok s else do
      let s ← micro s (.prod NULL)
      prodSteps n s

/-- Complete calls `mu_spsc_put(q, b)` (mu_spsc.c:67-79) for each of `bs`, and their results. -/
def puts (q : Spsc) : List Val → C (List Err × Spsc)
  | [] => .ok ([], q)
  | b :: bs => do
    let (e, q) ← put q b
    let (es, q) ← puts q bs
    .ok (e :: es, q)

/-- `mu_spsc_put(q, a)` (mu_spsc.c:67-79) stopped after its first `k` accesses to the shared
variables by a handler that puts `bs`, and then resumed.  The accesses are: 1 the load of `tail` on
line 69, 2 the load of `head` on line 71, 3 the load of `tail` on line 74, 4 the store of the item
on line 74, 5 the store of `tail` on line 75.  Result: what the interrupted put reported, what each
nested put returned, and the queue. -/
def putNested (q : Spsc) (a : Val) (k : Nat) (bs : List Val) : C (List Ev × List Err × Spsc) := do
  let s ← prodSteps k { q := q, p := .loadTail a, c := .idle, log := [] }
  let (es, q) ← puts s.q bs
  let s ← prodSteps 5 { s with q := q }
  .ok (s.log, es, s.q)

end Mu.Spsc
