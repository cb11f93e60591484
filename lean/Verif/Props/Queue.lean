import Verif.Lemmas.Queue

/-! # Properties C06, C07: mu_queue

`2 * cap ≤ P.szMod` is not a restriction on real programs: storage for `cap` pointers occupies
`cap * sizeof(void *)` bytes, which must itself be a `size_t`, and pointers have at least two
bytes. -/

namespace Mu.Queue

/-- **C06.**  After `mu_queue_init` (of a struct with any previous content `q0`) every history of
calls returns exactly what the first-in first-out list bounded by `cap` returns. -/
theorem C06_queue_is_bounded_fifo (P : Plat) (q0 : Queue) (storage : List Val) (cap : Nat)
    (halloc : cap ≤ storage.length) (hs : 2 * cap ≤ P.szMod) (ops : List Op) :
    ∃ q', run P (init q0 storage cap) ops = .ok ((Spec.run cap [] ops).1, q') := by
  have h : Rep (init q0 storage cap) [] := Ring.init storage cap halloc
  obtain ⟨q', h1, _⟩ := run_refines (P := P) ops h hs
  exact ⟨q', h1⟩

/-- **C06, failing calls.**  After any history, a put that returns false and a get or peek that
returns false leave the whole queue object and its storage unchanged. -/
theorem C06_failed_calls_change_nothing (P : Plat) (q0 : Queue) (storage : List Val) (cap : Nat)
    (halloc : cap ≤ storage.length) (hs : 2 * cap ≤ P.szMod) (ops : List Op) (os : List Out)
    (q q' : Queue) (hrun : run P (init q0 storage cap) ops = .ok (os, q)) (e v : Val) :
    (step P q (.put e) = .ok (.bool false, q') → q' = q) ∧
    (step P q .get = .ok (.elem false v, q') → q' = q ∧ v = NULL) ∧
    (step P q .peek = .ok (.elem false v, q') → q' = q ∧ v = NULL) ∧
    (∀ b, step P q .peek = .ok (.elem b v, q') → q' = q) := by
  have h : Rep (init q0 storage cap) [] := Ring.init storage cap halloc
  obtain ⟨q1, h1, h2, h3, h4, h5⟩ := run_refines (P := P) ops h hs
  rw [hrun] at h1
  obtain ⟨-, rfl⟩ := Prod.mk.inj (Except.ok.inj h1)
  have h3' : q.capacity = cap := h3
  clear h1
  generalize (Spec.run (init q0 storage cap).capacity [] ops).2 = l at h2
  refine ⟨?_, ?_, ?_, ?_⟩
  · intro hp
    by_cases hf : l.length < q.capacity
    · obtain ⟨q2, hq, _⟩ := put_ok (P := P) h2 e (by omega) hf
      simp [step, hq] at hp
    · simp [step, put_full h2 e hf] at hp
      exact hp.symm
  · cases l with
    | nil => simp [step, get, access_nil h2]; intro a b; exact ⟨b.symm, a.symm⟩
    | cons x t => simp [step, get, access_cons (P := P) h2 (by omega)]
  · cases l with
    | nil => simp [step, peek, access_nil h2]; intro a b; exact ⟨b.symm, a.symm⟩
    | cons x t => simp [step, peek, access_cons (P := P) h2 (by omega)]
  · cases l with
    | nil => simp [step, peek, access_nil h2]; grind
    | cons x t => simp [step, peek, access_cons (P := P) h2 (by omega)]; grind

/-- **C07.**  For every capacity (0 included), no history faults (no access outside the storage
object, no division by zero), the slots at and beyond `cap` are never changed, and
`count ≤ capacity` throughout.  Since `storage` may have exactly `cap` slots, "no fault" means that
no slot with index ≥ cap is read or written. -/
theorem C07_queue_memory_safe (P : Plat) (q0 : Queue) (storage : List Val) (cap : Nat)
    (halloc : cap ≤ storage.length) (hs : 2 * cap ≤ P.szMod) (ops : List Op) :
    ∃ os q', run P (init q0 storage cap) ops = .ok (os, q') ∧
      q'.count ≤ q'.capacity ∧ q'.capacity = cap ∧ (0 < cap → q'.index < cap) ∧
      q'.storage.length = storage.length ∧ q'.storage.drop cap = storage.drop cap := by
  have h : Rep (init q0 storage cap) [] := Ring.init storage cap halloc
  obtain ⟨q', h1, h2, h3, h4, h5⟩ := run_refines (P := P) ops h hs
  refine ⟨_, q', h1, h2.le, h3, ?_, h4, h5⟩
  intro hc
  have := h2.idx
  have h3' : q'.capacity = cap := h3
  omega

/-- C07 with exactly `cap` slots of storage, including none at all. -/
theorem C07_queue_exact_storage (P : Plat) (q0 : Queue) (storage : List Val)
    (hs : 2 * storage.length ≤ P.szMod) (ops : List Op) :
    C.Safe (run P (init q0 storage storage.length) ops) := by
  obtain ⟨os, q', h, _⟩ := C07_queue_memory_safe P q0 storage storage.length (Nat.le_refl _) hs ops
  exact ⟨_, h⟩

/-- Non-vacuity: a wrapping history on a queue of capacity 2 (put fails when full), and capacity 0. -/
example : run Plat.lp64 (init ⟨[], 7, 7, 7⟩ [90, 91, 92] 2)
    [.put 5, .put 6, .put 7, .get, .put 8, .isFull, .get, .peek, .get, .get]
    = .ok ([.bool true, .bool true, .bool false, .elem true 5, .bool true, .bool true,
            .elem true 6, .elem true 8, .elem true 8, .elem false 0],
           ⟨[8, 6, 92], 2, 0, 1⟩) := by decide
example : (run Plat.lp64 (init ⟨[], 7, 7, 7⟩ [] 0) [.put 5, .get, .isEmpty, .isFull]).map Prod.fst
    = .ok [.bool false, .elem false 0, .bool true, .bool true] := by decide
example : 2 * 2 ≤ Plat.lp64.szMod := by decide

/-- The size hypothesis excludes a real defect of the index computation
`capacity + index - count`, which would only show for queues larger than half the address space:
with a 16 bit `size_t`, capacity 60000, index 59999 and count 1 the computed slot is 54462 instead
of 59998. -/
example : (let P := Plat.ip16
    let idx := P.szSub (P.sz (60000 + 59999)) 1
    if idx ≥ 60000 then P.szSub idx 60000 else idx) = 54462 := by decide

end Mu.Queue
