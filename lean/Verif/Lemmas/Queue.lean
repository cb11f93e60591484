import Verif.Lemmas.Ring
import Verif.Spec.Queue

namespace Mu.Queue

/-- `q` represents the list `l`. -/
def Rep (q : Queue) (l : List Val) : Prop := Ring q.storage q.capacity q.count q.index l

theorem put_full {P : Plat} {q : Queue} {l : List Val} (h : Rep q l) (e : Val)
    (hf : ¬ l.length < q.capacity) : put P q e = .ok (false, q) := by
  have h1 := h.len
  have h2 := h.le
  have : isFull q = true := by simp [isFull]; omega
  simp [put, this]

theorem put_ok {P : Plat} {q : Queue} {l : List Val} (h : Rep q l) (e : Val)
    (hs : 2 * q.capacity ≤ P.szMod) (hf : l.length < q.capacity) :
    ∃ q', put P q e = .ok (true, q') ∧ Rep q' (l ++ [e]) ∧ q'.capacity = q.capacity ∧
      q'.storage.length = q.storage.length ∧
      q'.storage.drop q.capacity = q.storage.drop q.capacity := by
  have h1 := h.len
  have h2 := h.le
  have h3 := h.alloc
  have h4 := h.idx
  have hfull : isFull q = false := by simp [isFull]; omega
  have hcap : ¬ q.capacity = 0 := by omega
  refine ⟨{ q with storage := q.storage.set q.index e, index := (q.index + 1) % q.capacity,
                   count := q.count + 1 }, ?_, ?_, rfl, ?_, ?_⟩
  · simp only [put, hfull, if_true, hcap, if_false]
    rw [stN_ok (by omega), Plat.sz_of_lt (by omega), Plat.sz_of_lt (by omega)]
    rfl
  · exact h.put (by omega) e
  · simp
  · rw [List.drop_set_of_lt (by omega)]

theorem access_nil {P : Plat} {q : Queue} (h : Rep q []) (f : Bool) :
    accessQueue P q f = .ok (false, NULL, q) := by
  have h1 : 0 = q.count := h.len
  have : isEmpty q = true := by simp [isEmpty, ← h1]
  simp [accessQueue, this]

theorem access_cons {P : Plat} {q : Queue} {x : Val} {t : List Val} (h : Rep q (x :: t))
    (hs : 2 * q.capacity ≤ P.szMod) (f : Bool) :
    accessQueue P q f = .ok (true, x, if f then { q with count := q.count - 1 } else q) := by
  have h1 := h.len
  have h2 := h.le
  have h3 := h.alloc
  have h4 := h.idx
  simp at h1
  have hE : isEmpty q = false := by simp [isEmpty]; omega
  simp only [accessQueue, hE, if_true]
  have hx := h.head
  rw [Plat.sz_of_lt (by omega), Plat.szSub_of_le (by omega) (by omega)]
  have hidx : (if q.capacity + q.index - q.count ≥ q.capacity then
      P.szSub (q.capacity + q.index - q.count) q.capacity else q.capacity + q.index - q.count)
      = if q.index + q.capacity - q.count < q.capacity then q.index + q.capacity - q.count
        else q.index - q.count := by
    split
    · rw [Plat.szSub_of_le (by omega) (by omega)]; split <;> omega
    · split <;> omega
  rw [hidx, ldN_some hx, Plat.szSub_of_le (by omega) (by omega)]
  rfl

theorem rep_pop {q : Queue} {x : Val} {t : List Val} (h : Rep q (x :: t)) :
    Rep { q with count := q.count - 1 } t := Ring.pop h

/-- One call: same answer as the bounded list, representation kept, nothing touched outside the
first `capacity` slots. -/
theorem step_refines {P : Plat} {q : Queue} {l : List Val} (h : Rep q l)
    (hs : 2 * q.capacity ≤ P.szMod) (op : Op) :
    ∃ q', step P q op = .ok ((Spec.step q.capacity l op).1, q') ∧
      Rep q' (Spec.step q.capacity l op).2 ∧ q'.capacity = q.capacity ∧
      q'.storage.length = q.storage.length ∧
      q'.storage.drop q.capacity = q.storage.drop q.capacity := by
  cases op with
  | put e =>
    by_cases hf : l.length < q.capacity
    · obtain ⟨q', h1, h2, h3, h4, h5⟩ := put_ok (P := P) h e hs hf
      refine ⟨q', ?_, ?_, h3, h4, h5⟩
      · simp [step, h1, Spec.step, hf]
      · simpa [Spec.step, hf] using h2
    · refine ⟨q, ?_, ?_, rfl, rfl, rfl⟩
      · simp [step, put_full h e hf, Spec.step, hf]
      · simpa [Spec.step, hf] using h
  | get =>
    cases l with
    | nil => exact ⟨q, by simp [step, get, access_nil h, Spec.step], h, rfl, rfl, rfl⟩
    | cons x t =>
      refine ⟨_, ?_, rep_pop h, rfl, rfl, rfl⟩
      simp [step, get, access_cons h hs, Spec.step]
  | peek =>
    cases l with
    | nil => exact ⟨q, by simp [step, peek, access_nil h, Spec.step], h, rfl, rfl, rfl⟩
    | cons x t =>
      refine ⟨q, ?_, h, rfl, rfl, rfl⟩
      simp [step, peek, access_cons h hs, Spec.step]
  | reset => exact ⟨_, rfl, Ring.reset h, rfl, rfl, rfl⟩
  | count => exact ⟨q, by simp [step, count, Spec.step, h.len], h, rfl, rfl, rfl⟩
  | capacity => exact ⟨q, by simp [step, capacity, Spec.step], h, rfl, rfl, rfl⟩
  | isEmpty =>
    refine ⟨q, ?_, h, rfl, rfl, rfl⟩
    have h1 := h.len
    cases l <;> simp at h1 <;> simp [step, isEmpty, Spec.step, ← h1]
  | isFull => exact ⟨q, by simp [step, isFull, Spec.step, h.len], h, rfl, rfl, rfl⟩

theorem run_refines {P : Plat} (ops : List Op) : ∀ {q : Queue} {l : List Val}, Rep q l →
    2 * q.capacity ≤ P.szMod →
    ∃ q', run P q ops = .ok ((Spec.run q.capacity l ops).1, q') ∧
      Rep q' (Spec.run q.capacity l ops).2 ∧ q'.capacity = q.capacity ∧
      q'.storage.length = q.storage.length ∧
      q'.storage.drop q.capacity = q.storage.drop q.capacity := by
  induction ops with
  | nil => intro q l h _; exact ⟨q, rfl, h, rfl, rfl, rfl⟩
  | cons op ops ih =>
    intro q l h hs
    obtain ⟨q1, h1, h2, h3, h4, h5⟩ := step_refines h hs op
    obtain ⟨q2, g1, g2, g3, g4, g5⟩ := ih h2 (by omega)
    rw [h3] at g1 g2 g5
    refine ⟨q2, ?_, g2, by omega, by omega, by rw [g5, h5]⟩
    simp [run, h1, g1, Spec.run]

end Mu.Queue
