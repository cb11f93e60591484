import Verif.Model.SpscNested
import Verif.Lemmas.Spsc

namespace Mu.Spsc

/-- results of complete puts with `room` free slots -/
theorem puts_rep (bs : List Val) : ∀ {q : Spsc} {N d : Nat} {l : List Val}, Rep q N d l →
    ∃ q', puts q bs = .ok ((List.replicate (min bs.length (N - 1 - l.length)) Err.none ++
        List.replicate (bs.length - (N - 1 - l.length)) Err.full), q') ∧
      Rep q' N d (l ++ bs.take (N - 1 - l.length)) ∧ q'.head = q.head ∧ q'.mask = q.mask := by
  induction bs with
  | nil => intro q N d l h; exact ⟨q, by simp [puts], by simpa using h, rfl, rfl⟩
  | cons b bs ih =>
    intro q N d l h
    have hp := put_rep h b
    by_cases hlt : l.length < N - 1
    · obtain ⟨q1, h1, h2⟩ := hp.1 hlt
      obtain ⟨q2, g1, g2, g3, g4⟩ := ih h2
      have hr : N - 1 - l.length = (N - 1 - (l ++ [b]).length) + 1 := by
        simp only [List.length_append, List.length_cons, List.length_nil]; omega
      refine ⟨q2, ?_, ?_, ?_, ?_⟩
      · simp only [puts, h1, C.ok_bind, g1]
        rw [hr]
        simp only [List.length_cons, Nat.add_min_add_right, List.replicate_succ, List.cons_append,
          Nat.add_sub_add_right]
      · rw [hr]; simpa using g2
      · rw [g3, h2.head, h.head]
      · rw [g4, h2.wf.mask, h.wf.mask]
    · obtain ⟨q2, g1, g2, g3, g4⟩ := ih h
      have h0 : N - 1 - l.length = 0 := by omega
      refine ⟨q2, ?_, ?_, g3, g4⟩
      · rw [h0] at g1 ⊢
        simp only [puts, hp.2 hlt, C.ok_bind, g1]
        simp [List.replicate_succ]
      · rw [h0] at g2 ⊢; simpa using g2

/-- moving `tail` back drops the newest items -/
theorem Rep.truncate {q : Spsc} {N d : Nat} {l m : List Val} (h : Rep q N d (l ++ m)) :
    Rep { q with tail := (d + l.length) % N } N d l := by
  have hl := h.len
  simp only [List.length_append] at hl
  refine ⟨⟨h.wf.two, h.wf.pow, h.wf.mask, h.wf.alloc⟩, h.head, rfl, by omega, ?_⟩
  intro i hi
  have := h.get i (by simp; omega)
  rw [List.getElem?_append_left hi] at this
  exact this

/-- storing over the slot of the `i`-th item replaces it -/
theorem Rep.set_mid {q : Spsc} {N d : Nat} {l : List Val} (h : Rep q N d l) (i : Nat) (x : Val)
    (hi : i < l.length) :
    Rep { q with store := q.store.set ((d + i) % N) x } N d (l.set i x) := by
  have hl := h.len
  have h2 := h.wf.two
  have h3 := h.wf.alloc
  refine ⟨⟨h.wf.two, h.wf.pow, h.wf.mask, by simpa using h.wf.alloc⟩, h.head, by simpa using h.tail,
    by simpa using h.len, ?_⟩
  intro j hj
  simp only [List.length_set] at hj
  by_cases hji : j = i
  · subst hji
    have : (d + j) % N < N := Nat.mod_lt _ (by omega)
    rw [List.getElem?_set_self (by omega), List.getElem?_set_self hi]
  · have := mod_ne (d := d) (N := N) (i := j) (j := i) (by omega) (by omega) hji
    rw [List.getElem?_set_ne (fun e => this e.symm), List.getElem?_set_ne (fun e => hji e.symm)]
    exact h.get j hj

end Mu.Spsc

namespace Mu.Spsc

/-- every put finds the queue full -/
theorem putNested_full {q : Spsc} {N d : Nat} {l : List Val} (h : Rep q N d l)
    (hfull : ¬ l.length < N - 1) (a : Val) (k : Nat) (hk : 1 ≤ k ∧ k ≤ 4) (bs : List Val) :
    ∃ q', putNested q a k bs = .ok ([.putRet a false], List.replicate bs.length .full, q') ∧
      Rep q' N d l := by
  have hl := h.len
  obtain ⟨q2, g1, g2, g3, g4⟩ := puts_rep bs h
  have h0 : N - 1 - l.length = 0 := by omega
  have he : ((q.tail + 1) &&& q.mask = q.head) := by rw [h.full_iff]; omega
  rw [h0] at g1 g2
  simp only [Nat.min_zero, List.replicate_zero, List.nil_append, Nat.sub_zero] at g1
  simp only [List.take_zero, List.append_nil] at g2
  refine ⟨q2, ?_, g2⟩
  obtain ⟨k1, k4⟩ := hk
  have : k = 1 ∨ k = 2 ∨ k = 3 ∨ k = 4 := by omega
  rcases this with rfl | rfl | rfl | rfl
  · simp [putNested, prodSteps, micro, g1, he, g3]
  all_goals simp [putNested, prodSteps, micro, g1, he]

/-- there is room for at least one item -/
theorem putNested_room {q : Spsc} {N d : Nat} {l : List Val} (h : Rep q N d l)
    (hlt : l.length < N - 1) (a : Val) (k : Nat) (hk : 1 ≤ k ∧ k ≤ 4) (bs : List Val) :
    ∃ q', putNested q a k bs = .ok ([.putRet a true],
        List.replicate (min bs.length (N - 1 - l.length)) Err.none ++
          List.replicate (bs.length - (N - 1 - l.length)) Err.full, q') ∧
      Rep q' N d (l ++ [if k = 3 then a else bs.headD a]) := by
  have h2 := h.wf.two
  have hne : ¬ ((q.tail + 1) &&& q.mask = q.head) := by rw [h.full_iff]; omega
  have hnx : (q.tail + 1) &&& q.mask = (d + (l.length + 1)) % N := by
    rw [h.wf.and, h.tail, mod_succ_mod, Nat.add_assoc]
  obtain ⟨r, hr⟩ : ∃ r, N - 1 - l.length = r + 1 := ⟨N - 1 - l.length - 1, by omega⟩
  obtain ⟨k1, k4⟩ := hk
  have hcases : (k = 1 ∨ k = 2) ∨ k = 3 ∨ k = 4 := by omega
  rcases hcases with hk | rfl | rfl
  · obtain ⟨q2, g1, g2, g3, g4⟩ := puts_rep bs h
    have hex : putNested q a k bs = .ok ([.putRet a true],
        List.replicate (min bs.length (N - 1 - l.length)) Err.none ++
          List.replicate (bs.length - (N - 1 - l.length)) Err.full,
        { q2 with store := q2.store.set q2.tail a, tail := (q.tail + 1) &&& q.mask }) := by
      rcases hk with rfl | rfl
      · simp [putNested, prodSteps, micro, g1, hne, g3, stN_ok g2.tail_lt]
      · simp [putNested, prodSteps, micro, g1, hne, stN_ok g2.tail_lt]
    refine ⟨_, hex, ?_⟩
    have hk3 : k ≠ 3 := by omega
    rw [if_neg hk3]
    have hlen := g2.len
    have g5 := g2.set_tail a (by omega)
    rw [hr] at g5
    cases bs with
    | nil =>
      simp only [List.take_nil, List.append_nil] at g5 g2
      have := g5.push a hlt (by simp [List.getElem?_set_self g2.tail_lt])
      have ht : q2.tail = q.tail := by rw [g2.tail, h.tail]
      simpa [ht, g4] using this
    | cons b bs =>
      simp only [List.take_succ_cons] at g5
      rw [show l ++ b :: bs.take r = (l ++ [b]) ++ bs.take r by simp] at g5
      have := g5.truncate
      simpa [hnx] using this
  · obtain ⟨q2, g1, g2, g3, g4⟩ := puts_rep bs h
    have hlen := g2.len
    have hal := g2.wf.alloc
    have hslot : q.tail < q2.store.length := by
      rw [h.tail]; exact Nat.lt_of_lt_of_le (Nat.mod_lt _ (by omega)) hal
    refine ⟨{ q2 with store := q2.store.set q.tail a, tail := (q.tail + 1) &&& q.mask },
      by simp [putNested, prodSteps, micro, g1, hne, stN_ok hslot], ?_⟩
    rw [hr] at g2
    simp only [if_true]
    cases bs with
    | nil =>
      simp only [List.take_nil, List.append_nil] at g2
      have ht : q2.tail = q.tail := by rw [g2.tail, h.tail]
      have := (g2.set_tail a (by omega)).push a hlt (by simp [List.getElem?_set_self g2.tail_lt])
      simpa [ht, g4] using this
    | cons b bs =>
      simp only [List.take_succ_cons] at g2
      have g5 := g2.set_mid l.length a (by simp)
      rw [← h.tail] at g5
      rw [show (l ++ b :: bs.take r).set l.length a = (l ++ [a]) ++ bs.take r by
        rw [List.set_append_right _ _ (Nat.le_refl _)]; simp] at g5
      have := g5.truncate
      simpa [hnx] using this
  · have h' := h.set_tail a (by omega : l.length < N)
    obtain ⟨q2, g1, g2, g3, g4⟩ := puts_rep bs h'
    cases hb : bs with
    | nil =>
      subst hb
      refine ⟨{ q with store := q.store.set q.tail a, tail := (q.tail + 1) &&& q.mask },
        by simp [putNested, prodSteps, micro, puts, hne, stN_ok h.tail_lt], ?_⟩
      have := h'.push a hlt (by simp [List.getElem?_set_self h.tail_lt])
      simpa using this
    | cons b bs' =>
      rw [← hb]
      refine ⟨{ q2 with tail := (q.tail + 1) &&& q.mask },
        by simp [putNested, prodSteps, micro, g1, hne, stN_ok h.tail_lt], ?_⟩
      rw [hr, hb] at g2
      simp only [List.take_succ_cons] at g2
      rw [show l ++ b :: bs'.take r = (l ++ [b]) ++ bs'.take r by simp] at g2
      have := g2.truncate
      rw [hb]
      simpa [hnx] using this

end Mu.Spsc
