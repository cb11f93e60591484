import Verif.Model.Sched

/-! # `mu_sched_reset` interrupted -/

namespace Mu.Sched

variable {T R : Type}

/-- `mu_sched_from_isr` for each of `ts`, mu_sched.c:164-170: the results, and the state. -/
def isrAll (s : Sched T) : List Val → C (List (Val × Err) × Sched T)
  | [] => .ok ([], s)
  | t :: ts => do
    let (e, s) ← fromIsr s t
    let (es, s) ← isrAll s ts
    .ok ((t, e) :: es, s)

/-- `mu_sched_reset`, mu_sched.c:98-103 with `mu_spsc_reset`, mu_spsc.c:56-60, interrupted by
`mu_sched_from_isr` (run to completion): for the tasks `a` before it touches the interrupt queue, `b`
between its stores to `head` and `tail`, `c` after them.  What it does afterwards (mu_sched.c:100-102)
touches nothing that `mu_sched_from_isr` uses, so that the interrupts in between are the same as `c`. -/
def resetIsr (s : Sched T) (a b c : List Val) :
    C ((List (Val × Err) × List (Val × Err) × List (Val × Err)) × Sched T) := do
  let (ra, s) ← isrAll s a
  let s := { s with irq := { s.irq with head := 0 } }
  let (rb, s) ← isrAll s b
  let s := { s with irq := { s.irq with tail := 0 } }
  let (rc, s) ← isrAll s c
  .ok ((ra, rb, rc), { s with immed := Queue.reset s.immed, count := 0, curr := NULL })

end Mu.Sched
