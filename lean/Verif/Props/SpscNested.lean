import Verif.Lemmas.SpscNested

/-! # Property C93: a put interrupted by a nested producer -/

namespace Mu.Spsc

/-- **C93a.**  After any history of a queue of `N` slots, holding `l`: `mu_spsc_put(a)` is stopped
after `k` of its shared accesses (1 to 4 of them), an interrupt puts `bs`, and the put is resumed.
Nothing faults.  If the queue had room, the interrupted put succeeds, the nested puts succeed as
long as there was room before the interrupted put — and afterwards the queue behaves, for every
later history, as one that holds `l` and only ONE more item: the interrupted one when the
interruption falls between the second load of `tail` and the store of the item, otherwise the first
of the nested ones (the interrupted one if there are none). -/
theorem C93_nested_put (q0 : Spsc) (store : List Val) (N : Nat)
    (hok : (init q0 store N).1 = .none) (halloc : N ≤ store.length) (ops : List Op)
    (a : Val) (k : Nat) (hk : 1 ≤ k ∧ k ≤ 4) (bs : List Val)
    (hroom : (Spec.run N [] ops).2.length < N - 1) :
    ∃ os q q', run (init q0 store N).2 ops = .ok (os, q) ∧
      putNested q a k bs = .ok ([.putRet a true],
        List.replicate (min bs.length (N - 1 - (Spec.run N [] ops).2.length)) .none ++
        List.replicate (bs.length - (N - 1 - (Spec.run N [] ops).2.length)) .full, q') ∧
      ∀ later, ∃ q'', run q' later = .ok
        ((Spec.run N ((Spec.run N [] ops).2 ++ [if k = 3 then a else bs.headD a]) later).1, q'') := by
  obtain ⟨q, d, h1, h2⟩ := run_refines ops (init_rep hok halloc)
  obtain ⟨q', h3, h4⟩ := putNested_room h2 hroom a k hk bs
  refine ⟨_, q, q', h1, h3, fun later => ?_⟩
  obtain ⟨q'', _, h5, _⟩ := run_refines later h4
  exact ⟨q'', h5⟩

/-- **C93b.**  If the queue was full, the interrupted put and all nested puts report that, and the
queue is as before. -/
theorem C93_nested_put_full (q0 : Spsc) (store : List Val) (N : Nat)
    (hok : (init q0 store N).1 = .none) (halloc : N ≤ store.length) (ops : List Op)
    (a : Val) (k : Nat) (hk : 1 ≤ k ∧ k ≤ 4) (bs : List Val)
    (hroom : ¬ (Spec.run N [] ops).2.length < N - 1) :
    ∃ os q q', run (init q0 store N).2 ops = .ok (os, q) ∧
      putNested q a k bs = .ok ([.putRet a false], List.replicate bs.length .full, q') ∧
      ∀ later, ∃ q'', run q' later = .ok ((Spec.run N (Spec.run N [] ops).2 later).1, q'') := by
  obtain ⟨q, d, h1, h2⟩ := run_refines ops (init_rep hok halloc)
  obtain ⟨q', h3, h4⟩ := putNested_full h2 hroom a k hk bs
  refine ⟨_, q, q', h1, h3, fun later => ?_⟩
  obtain ⟨q'', _, h5, _⟩ := run_refines later h4
  exact ⟨q'', h5⟩

/-- the history of a series of puts -/
theorem spec_puts (N : Nat) (bs : List Val) : ∀ l : List Val, l.length ≤ N - 1 →
    Spec.run N l (bs.map .put) =
      ((List.replicate (min bs.length (N - 1 - l.length)) Err.none ++
          List.replicate (bs.length - (N - 1 - l.length)) Err.full).map Out.err,
        l ++ bs.take (N - 1 - l.length)) := by
  induction bs with
  | nil => intro l _; simp [Spec.run]
  | cons b bs ih =>
    intro l hl
    by_cases hlt : l.length < N - 1
    · have hr : N - 1 - l.length = (N - 1 - (l ++ [b]).length) + 1 := by
        simp only [List.length_append, List.length_cons, List.length_nil]; omega
      have := ih (l ++ [b]) (by simp; omega)
      rw [hr]
      simp [Spec.run, Spec.step, hlt, this, List.replicate_succ]
    · have h0 : N - 1 - l.length = 0 := by omega
      have := ih l hl
      rw [h0] at this ⊢
      simp [Spec.run, Spec.step, hlt, this, List.replicate_succ]

/-- **C93c.**  Between calls an interrupt does no harm: stopped before its first shared access
(`k = 0`) or after its last (`k ≥ 5`), the put and the nested puts behave as if made one after the
other, in that order. -/
theorem C93_between_calls (q0 : Spsc) (store : List Val) (N : Nat)
    (hok : (init q0 store N).1 = .none) (halloc : N ≤ store.length) (ops : List Op)
    (a : Val) (k : Nat) (hk : k = 0 ∨ 5 ≤ k) (bs : List Val) :
    ∃ os q r es q', run (init q0 store N).2 ops = .ok (os, q) ∧
      putNested q a k bs = .ok ([.putRet a r], es, q') ∧
      (let seq := if k = 0 then bs.map Op.put ++ [.put a] else .put a :: bs.map Op.put
       (Spec.run N (Spec.run N [] ops).2 seq).1 =
          (if k = 0 then es.map Out.err ++ [.err (if r then .none else .full)]
           else .err (if r then .none else .full) :: es.map Out.err) ∧
       ∀ later, ∃ q'', run q' later = .ok
          ((Spec.run N (Spec.run N (Spec.run N [] ops).2 seq).2 later).1, q'')) := by
  obtain ⟨q, d, h1, h2⟩ := run_refines ops (init_rep hok halloc)
  generalize (Spec.run N [] ops).2 = l at *
  have hl := h2.len
  have key : ∃ r es q' d', putNested q a k bs = .ok ([.putRet a r], es, q') ∧
      (let seq := if k = 0 then bs.map Op.put ++ [.put a] else .put a :: bs.map Op.put
       (Spec.run N l seq).1 =
          (if k = 0 then es.map Out.err ++ [.err (if r then .none else .full)]
           else .err (if r then .none else .full) :: es.map Out.err) ∧
       Rep q' N d' (Spec.run N l seq).2) := by
    rcases hk with rfl | hk
    · obtain ⟨q2, g1, g2, g3, g4⟩ := puts_rep bs h2
      have hs := spec_puts N bs l hl
      have happ : ∀ (xs : List Op) (m : List Val) (y : Op), Spec.run N m (xs ++ [y]) =
          ((Spec.run N m xs).1 ++ [(Spec.step N (Spec.run N m xs).2 y).1],
            (Spec.step N (Spec.run N m xs).2 y).2) := by
        intro xs
        induction xs with
        | nil => intro m y; rfl
        | cons x xs ih => intro m y; simp [Spec.run, ih]
      generalize hm : l ++ bs.take (N - 1 - l.length) = m at *
      have hml := g2.len
      by_cases hlt : m.length < N - 1
      · have hne : ¬ ((q2.tail + 1) &&& q2.mask = q2.head) := by rw [g2.full_iff]; omega
        refine ⟨true,
          List.replicate (min bs.length (N - 1 - l.length)) Err.none ++
            List.replicate (bs.length - (N - 1 - l.length)) Err.full,
          { q2 with store := q2.store.set q2.tail a, tail := (q2.tail + 1) &&& q2.mask }, d, ?_, ?_, ?_⟩
        · simp [putNested, prodSteps, micro, g1, hne, stN_ok g2.tail_lt]
        · simp only [if_true, happ, hs, Spec.step, hlt]
        · simp only [if_true, happ, hs, Spec.step, hlt]
          exact (g2.set_tail a (by omega)).push a hlt (by simp [List.getElem?_set_self g2.tail_lt])
      · have he : ((q2.tail + 1) &&& q2.mask = q2.head) := by rw [g2.full_iff]; omega
        refine ⟨false,
          List.replicate (min bs.length (N - 1 - l.length)) Err.none ++
            List.replicate (bs.length - (N - 1 - l.length)) Err.full,
          q2, d, ?_, ?_, ?_⟩
        · simp [putNested, prodSteps, micro, g1, he]
        · simp only [if_true, happ, hs, Spec.step, hlt]; rfl
        · simp only [if_true, happ, hs, Spec.step, hlt]; exact g2
    · obtain ⟨n, rfl⟩ : ∃ n, k = n + 5 := ⟨k - 5, by omega⟩
      have hk0 : ¬ (n + 5 = 0) := by omega
      have hid : ∀ (n : Nat) (s : Sys), s.p = .idle → prodSteps n s = .ok s := by
        intro n s hs; cases n <;> simp [prodSteps, hs]
      by_cases hlt : l.length < N - 1
      · have hne : ¬ ((q.tail + 1) &&& q.mask = q.head) := by rw [h2.full_iff]; omega
        have h3 := (h2.set_tail a (by omega)).push a hlt (by simp [List.getElem?_set_self h2.tail_lt])
        obtain ⟨q2, g1, g2, g3, g4⟩ := puts_rep bs h3
        have hs := spec_puts N bs (l ++ [a]) (by simp; omega)
        refine ⟨true,
          List.replicate (min bs.length (N - 1 - (l ++ [a]).length)) Err.none ++
            List.replicate (bs.length - (N - 1 - (l ++ [a]).length)) Err.full,
          q2, d, ?_, ?_, ?_⟩
        · simp only [] at g1
          simp [putNested, prodSteps, micro, hne, stN_ok h2.tail_lt, hid, g1]
        · simp [Spec.run, Spec.step, hlt, hs]
        · simp only [hk0, if_false, Spec.run, Spec.step, hlt, if_true, hs]; exact g2
      · have he : ((q.tail + 1) &&& q.mask = q.head) := by rw [h2.full_iff]; omega
        obtain ⟨q2, g1, g2, g3, g4⟩ := puts_rep bs h2
        have hs := spec_puts N bs l hl
        refine ⟨false,
          List.replicate (min bs.length (N - 1 - l.length)) Err.none ++
            List.replicate (bs.length - (N - 1 - l.length)) Err.full,
          q2, d, ?_, ?_, ?_⟩
        · simp [putNested, prodSteps, micro, he, hid, g1]
        · simp [Spec.run, Spec.step, hlt, hs]
        · simp only [hk0, if_false, Spec.run, Spec.step, hlt, hs]; exact g2
  obtain ⟨r, es, q', d', k1, k2, k3⟩ := key
  refine ⟨_, q, r, es, q', h1, k1, k2, fun later => ?_⟩
  obtain ⟨q'', _, h5, _⟩ := run_refines later k3
  exact ⟨q'', h5⟩

/-- Item 1 is in the queue of 3; the put of 7 is stopped by a handler that puts 8 and 9 (the latter
is refused only if there is no room).  All successes are reported, one item of three survives. -/
example :
    (do let (_, q) ← run (init ⟨9, 9, 9, []⟩ [0, 0, 0, 0] 4).2 [.put 1]
        let (r, es, q) ← putNested q 7 2 [8, 9]
        let (os, _) ← run q [.get, .get, .get]
        .ok (r, es, os)) =
    .ok ([.putRet 7 true], [.none, .none], [.item .none 1, .item .none 8, .item .empty 0]) ∧
    (do let (_, q) ← run (init ⟨9, 9, 9, []⟩ [0, 0, 0, 0] 4).2 [.put 1]
        let (r, es, q) ← putNested q 7 3 [8, 9]
        let (os, _) ← run q [.get, .get, .get]
        .ok (r, es, os)) =
    .ok ([.putRet 7 true], [.none, .none], [.item .none 1, .item .none 7, .item .empty 0]) := by
  decide

end Mu.Spsc
