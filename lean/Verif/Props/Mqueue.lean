import Verif.Lemmas.Mqueue

/-! # Properties C08–C10: mu_mqueue -/

namespace Mu.Mqueue

/-- **C08.**  After `mu_mqueue_init`, for every capacity, every choice of the two tasks (NULL or
not, even the same one) and every finite tree of re-entrant calls, the events (values returned and
tasks called, in order) are exactly those of the bounded FIFO list of the specification; no
execution faults, and no slot at or past the capacity is changed. -/
theorem C08_mqueue_is_bounded_fifo (P : Plat) (q0 : Mqueue) (storage : List Val) (cap : Nat)
    (onPut onGet : Val) (halloc : cap ≤ storage.length) (hs : 2 * cap ≤ P.szMod) (p : Prog) :
    ∃ q', run P (init q0 storage cap onPut onGet) p = .ok ((Spec.run cap onPut onGet [] p).1, q') ∧
      q'.storage.length = storage.length ∧ q'.storage.drop cap = storage.drop cap ∧
      q'.capacity = cap ∧ q'.count ≤ cap := by
  obtain ⟨q', h1, h2, h3⟩ := run_refines (P := P) p (init_rep q0 storage cap onPut onGet halloc) hs
  refine ⟨q', h1, h3.len, h3.rest, h3.cap, ?_⟩
  have := h2.le
  rw [h3.cap] at this
  exact this

/-- **C08, event by event.**  What an observer sees of a queue is accepted by the monitor of a bounded
FIFO list with notifications: elements leave in the order in which they entered, every successful put
and get is notified at once (if there is a task to notify), and returns for the element it stored or
fetched; when the calls have returned the list the monitor holds is the content of the queue. -/
theorem C08_conforms (P : Plat) (q0 q' : Mqueue) (storage : List Val) (cap : Nat)
    (onPut onGet : Val) (halloc : cap ≤ storage.length) (hs : 2 * cap ≤ P.szMod) (p : Prog)
    {tr : List Ev} (h : run P (init q0 storage cap onPut onGet) p = .ok (tr, q')) :
    ∃ l, Spec.replay cap onPut onGet ⟨[], []⟩ tr = some ⟨l, []⟩ ∧ l.length = count q' ∧
      Ring q'.storage cap q'.count q'.index l := by
  obtain ⟨q1, h1, h2, h3⟩ := run_refines (P := P) p (init_rep q0 storage cap onPut onGet halloc) hs
  rw [h] at h1
  obtain ⟨rfl, rfl⟩ := Prod.mk.inj (Except.ok.inj h1)
  have hcap : q'.capacity = cap := h3.cap
  refine ⟨_, spec_replay cap onPut onGet p [] [] (by simp) rfl, h2.len, ?_⟩
  unfold Rep at h2
  rw [hcap] at h2
  exact h2

/-- **C08, the element delivered by get is fixed before on_get runs**: in any state reached by
any tree of calls, if peek shows `x`, then get delivers `x` and returns true whatever calls `cb`
the on_get task makes before get returns (even reset, or refill and drain the queue). -/
theorem C08_get_delivers_oldest (P : Plat) (q0 q : Mqueue) (storage : List Val) (cap : Nat)
    (onPut onGet : Val) (halloc : cap ≤ storage.length) (hs : 2 * cap ≤ P.szMod)
    (p cb : Prog) (tr : List Ev) (hreach : run P (init q0 storage cap onPut onGet) p = .ok (tr, q))
    (x : Val) (qp : Mqueue) (hpeek : run P q (.peek .done) = .ok ([.peekRet true x], qp)) :
    qp = q ∧ ∃ t q', run P q (.get cb .done) = .ok (t ++ [.getRet true x], q') := by
  obtain ⟨q1, h1, h2, h3⟩ := run_refines (P := P) p (init_rep q0 storage cap onPut onGet halloc) hs
  rw [hreach] at h1
  obtain ⟨-, rfl⟩ := Prod.mk.inj (Except.ok.inj h1)
  have hcap : 2 * q.capacity ≤ P.szMod := by rw [h3.cap]; exact hs
  clear h1
  generalize (Spec.run _ _ _ [] p).2 = l at h2
  cases l with
  | nil => simp [run, access_nil h2] at hpeek
  | cons y l =>
    have hp := access_cons (P := P) (call := fun q => .ok ([], q)) h2 hcap false
    simp [run, hp] at hpeek
    obtain ⟨rfl, rfl⟩ := hpeek
    refine ⟨rfl, ?_⟩
    obtain ⟨q', g1, _⟩ := run_refines (P := P) (.get cb .done) h2 hcap
    refine ⟨.fetched y :: (if q.onGet = NULL then ([], l) else
        (.called q.onGet :: (Spec.run q.capacity q.onPut q.onGet l cb).1,
          (Spec.run q.capacity q.onPut q.onGet l cb).2)).1, q', ?_⟩
    rw [g1]
    simp [Spec.run]

/-- **C09a, where the notifications are.**  From any queue content `l` (with room for one more), a
put with a non-NULL on_put task: stores the element, then calls the task, whose own calls see the
content `l ++ [e]`, then returns true.  From content `x :: l`, a get removes the element, then
calls on_get, whose own calls see the content `l`, then returns true and `x`. -/
theorem C09_notification_order (P : Plat) (q : Mqueue) (l : List Val)
    (hs : 2 * q.capacity ≤ P.szMod) (e x : Val) (cb : Prog) :
    (Rep q l → l.length < q.capacity → q.onPut ≠ NULL →
      ∃ q', run P q (.put e cb .done) =
        .ok (.stored e :: .called q.onPut ::
          ((Spec.run q.capacity q.onPut q.onGet (l ++ [e]) cb).1 ++ [.putRet e true]), q')) ∧
    (Rep q (x :: l) → q.onGet ≠ NULL →
      ∃ q', run P q (.get cb .done) =
        .ok (.fetched x :: .called q.onGet ::
          ((Spec.run q.capacity q.onPut q.onGet l cb).1 ++ [.getRet true x]), q')) := by
  refine ⟨fun h hf hn => ?_, fun h hn => ?_⟩
  · obtain ⟨q', h1, _⟩ := run_refines (P := P) (.put e cb .done) h hs
    exact ⟨q', by rw [h1]; simp [Spec.run, hf, hn]⟩
  · obtain ⟨q', h1, _⟩ := run_refines (P := P) (.get cb .done) h hs
    exact ⟨q', by rw [h1]; simp [Spec.run, hn]⟩

/-- Number of events of a trace satisfying `f`. -/
def num (f : Ev → Bool) (t : List Ev) : Nat := t.countP f

/-- **C09b, exactly once.**  In every execution, for every non-NULL task `t`, the number of calls
of `t` equals the number of puts that returned true if `t` is the on_put task, plus the number of
gets that returned true if `t` is the on_get task.  NULL is never called. -/
theorem C09_notified_exactly_once (P : Plat) (q0 : Mqueue) (storage : List Val) (cap : Nat)
    (onPut onGet : Val) (halloc : cap ≤ storage.length) (hs : 2 * cap ≤ P.szMod) (p : Prog) :
    ∃ tr q', run P (init q0 storage cap onPut onGet) p = .ok (tr, q') ∧
      (∀ t, t ≠ NULL → num (fun e => decide (e = .called t)) tr =
        (if t = onPut then num (fun e => match e with | .putRet _ b => b | _ => false) tr else 0) +
        (if t = onGet then num (fun e => match e with | .getRet b _ => b | _ => false) tr else 0)) ∧
      Ev.called NULL ∉ tr := by
  obtain ⟨q', h1, _⟩ := C08_mqueue_is_bounded_fifo P q0 storage cap onPut onGet halloc hs p
  refine ⟨_, q', h1, ?_⟩
  clear h1
  have key : ∀ (p : Prog) (l : List Val),
      (∀ t, t ≠ NULL → num (fun e => decide (e = .called t)) (Spec.run cap onPut onGet l p).1 =
        (if t = onPut then num (fun e => match e with | .putRet _ b => b | _ => false)
          (Spec.run cap onPut onGet l p).1 else 0) +
        (if t = onGet then num (fun e => match e with | .getRet b _ => b | _ => false)
          (Spec.run cap onPut onGet l p).1 else 0)) ∧
      Ev.called NULL ∉ (Spec.run cap onPut onGet l p).1 := by
    intro p
    induction p with
    | done => intro l; simp [Spec.run, num]
    | put e cb next ih1 ih2 =>
      intro l
      simp only [Spec.run]
      by_cases hf : l.length < cap
      · simp only [hf, if_true]
        by_cases hn : onPut = NULL
        · simp only [hn, if_true, List.nil_append]
          rw [hn] at ih2
          obtain ⟨g1, g2⟩ := ih2 (l ++ [e])
          refine ⟨fun t ht => ?_, ?_⟩
          · have := g1 t ht
            simp only [num, List.countP_cons] at this ⊢
            simp [ht] at this ⊢
            exact this
          · simpa using g2
        · simp only [hn, if_false, List.cons_append]
          obtain ⟨f1, f2⟩ := ih1 (l ++ [e])
          obtain ⟨g1, g2⟩ := ih2 (Spec.run cap onPut onGet (l ++ [e]) cb).2
          refine ⟨fun t ht => ?_, ?_⟩
          · have g := g1 t ht
            have f := f1 t ht
            simp only [num, List.countP_cons, List.countP_append] at f g ⊢
            by_cases h1 : t = onPut <;> by_cases h2 : t = onGet <;>
              simp [h1, h2, eq_comm] at f g ⊢ <;> grind
          · simp only [List.mem_cons, List.mem_append, not_or]
            simp [f2, g2, Ne.symm hn]
      · simp only [hf, if_false]
        obtain ⟨g1, g2⟩ := ih2 l
        refine ⟨fun t ht => ?_, by simpa using g2⟩
        have := g1 t ht
        simp only [num, List.countP_cons] at this ⊢
        simpa using this
    | get cb next ih1 ih2 =>
      intro l
      cases l with
      | nil =>
        simp only [Spec.run]
        obtain ⟨g1, g2⟩ := ih2 []
        refine ⟨fun t ht => ?_, by simpa using g2⟩
        have := g1 t ht
        simp only [num, List.countP_cons] at this ⊢
        simpa using this
      | cons x l =>
        simp only [Spec.run]
        by_cases hn : onGet = NULL
        · simp only [hn, if_true, List.nil_append]
          rw [hn] at ih2
          obtain ⟨g1, g2⟩ := ih2 l
          refine ⟨fun t ht => ?_, ?_⟩
          · have := g1 t ht
            simp only [num, List.countP_cons] at this ⊢
            simp [ht] at this ⊢
            exact this
          · simpa using g2
        · simp only [hn, if_false, List.cons_append]
          obtain ⟨f1, f2⟩ := ih1 l
          obtain ⟨g1, g2⟩ := ih2 (Spec.run cap onPut onGet l cb).2
          refine ⟨fun t ht => ?_, ?_⟩
          · have g := g1 t ht
            have f := f1 t ht
            simp only [num, List.countP_cons, List.countP_append] at f g ⊢
            by_cases h1 : t = onPut <;> by_cases h2 : t = onGet <;>
              simp [h1, h2, eq_comm] at f g ⊢ <;> grind
          · simp only [List.mem_cons, List.mem_append, not_or]
            simp [f2, g2, Ne.symm hn]
    | reset next ih =>
      intro l
      obtain ⟨g1, g2⟩ := ih []
      simp only [Spec.run]
      refine ⟨fun t ht => ?_, by simpa using g2⟩
      have := g1 t ht
      simp only [num, List.countP_cons] at this ⊢
      simpa using this
    | _ =>
      rename_i next ih
      intro l
      obtain ⟨g1, g2⟩ := ih l
      simp only [Spec.run]
      refine ⟨fun t ht => ?_, by simpa using g2⟩
      have := g1 t ht
      simp only [num, List.countP_cons] at this ⊢
      simpa using this
  exact key p []

/-- **C10.**  In every execution, at every point of the trace, the number of elements stored minus
the number fetched since the last reset is between 0 and the capacity; every `mu_mqueue_count`
call returns exactly that number; a put fails only when it equals the capacity, and a get only
when it is 0; a put stores only below the capacity and a get fetches only above 0. -/
theorem C10_counting_semaphore (P : Plat) (q0 : Mqueue) (storage : List Val) (cap : Nat)
    (onPut onGet : Val) (halloc : cap ≤ storage.length) (hs : 2 * cap ≤ P.szMod) (p : Prog) :
    ∃ tr q', run P (init q0 storage cap onPut onGet) p = .ok (tr, q') ∧
      (count q' : Int) = Spec.tally 0 tr ∧
      ∀ pre post, tr = pre ++ post →
        (0 ≤ Spec.tally 0 pre ∧ Spec.tally 0 pre ≤ cap) ∧
        (∀ n, post.head? = some (.countRet n) → (n : Int) = Spec.tally 0 pre) ∧
        (∀ e, post.head? = some (.putRet e false) → Spec.tally 0 pre = cap) ∧
        (∀ v, post.head? = some (.getRet false v) → Spec.tally 0 pre = 0) ∧
        (∀ e, post.head? = some (.stored e) → Spec.tally 0 pre < cap) ∧
        (∀ e, post.head? = some (.fetched e) → 0 < Spec.tally 0 pre) := by
  obtain ⟨q', h1, h2, h3⟩ := run_refines (P := P) p (init_rep q0 storage cap onPut onGet halloc) hs
  obtain ⟨c1, c2, c3⟩ := spec_consistent cap onPut onGet p [] (by simp)
  refine ⟨_, q', h1, ?_, ?_⟩
  · have hl := h2.len
    simp only [count]
    rw [← hl]; exact c2
  · intro pre post htr
    have htr' : (Spec.run cap onPut onGet [] p).1 = pre ++ post := htr
    rw [htr'] at c1
    have hc : Consistent cap (Spec.tally 0 pre) post := consistent_split c1
    refine ⟨consistent_bounds hc, ?_, ?_, ?_, ?_, ?_⟩ <;>
      (intro n hn; cases post with
        | nil => simp at hn
        | cons ev t => simp at hn; subst hn; exact hc.2.1)

/-- Number of stored events equals number of puts that returned true in a complete execution. -/
theorem C10_returns_match_effects (P : Plat) (q0 : Mqueue) (storage : List Val) (cap : Nat)
    (onPut onGet : Val) (halloc : cap ≤ storage.length) (hs : 2 * cap ≤ P.szMod) (p : Prog) :
    ∃ tr q', run P (init q0 storage cap onPut onGet) p = .ok (tr, q') ∧
      num (fun e => match e with | .stored _ => true | _ => false) tr =
        num (fun e => match e with | .putRet _ b => b | _ => false) tr ∧
      num (fun e => match e with | .fetched _ => true | _ => false) tr =
        num (fun e => match e with | .getRet b _ => b | _ => false) tr := by
  obtain ⟨q', h1, _⟩ := C08_mqueue_is_bounded_fifo P q0 storage cap onPut onGet halloc hs p
  refine ⟨_, q', h1, ?_⟩
  clear h1
  generalize [] = l
  simp only [num]
  induction p generalizing l with
  | done => simp [Spec.run]
  | put e cb next ih1 ih2 =>
    simp only [Spec.run]
    by_cases hf : l.length < cap
    · simp only [hf, if_true]
      by_cases hn : onPut = NULL
      · have := ih2 (l ++ [e])
        simp only [hn, if_true, List.nil_append, List.countP_cons] at this ⊢
        grind
      · have f := ih1 (l ++ [e])
        have g := ih2 (Spec.run cap onPut onGet (l ++ [e]) cb).2
        simp only [hn, if_false, List.countP_cons, List.countP_append] at f g ⊢
        grind
    · have := ih2 l
      simp only [hf, if_false, List.countP_cons] at this ⊢
      grind
  | get cb next ih1 ih2 =>
    cases l with
    | nil =>
      have := ih2 []
      simp only [Spec.run, List.countP_cons] at this ⊢
      grind
    | cons x l =>
      simp only [Spec.run]
      by_cases hn : onGet = NULL
      · have := ih2 l
        simp only [hn, if_true, List.nil_append, List.countP_cons] at this ⊢
        grind
      · have f := ih1 l
        have g := ih2 (Spec.run cap onPut onGet l cb).2
        simp only [hn, if_false, List.countP_cons, List.countP_append] at f g ⊢
        grind
  | reset next ih =>
    have := ih []
    simp only [Spec.run, List.countP_cons] at this ⊢
    grind
  | _ =>
    rename_i next ih
    have := ih l
    simp only [Spec.run, List.countP_cons] at this ⊢
    grind

/-- Non-vacuity: capacity 2, on_put = task 7 which itself gets the element, on_get = task 8 which
peeks and counts; a nested execution. -/
example : (run Plat.lp64 (init ⟨[], 0, 0, 0, 0, 0⟩ [0, 0] 2 7 8)
    (.put 5 (.get (.count .done) (.count .done)) (.put 6 .done (.put 9 .done (.put 4 .done
      (.get (.peek .done) .done)))))).map Prod.fst
    = .ok [.stored 5, .called 7, .fetched 5, .called 8, .countRet 0, .getRet true 5, .countRet 0,
           .putRet 5 true, .stored 6, .called 7, .putRet 6 true, .stored 9, .called 7,
           .putRet 9 true, .putRet 4 false, .fetched 6, .called 8, .peekRet true 9,
           .getRet true 6] := by decide

/-- The monitor accepts that trace, and rejects it with two fetches exchanged, with a notification
left out, or with a put that claims success without storing. -/
example :
    Spec.replay 2 7 8 ⟨[], []⟩ [.stored 5, .called 7, .putRet 5 true, .stored 6, .called 7,
      .putRet 6 true, .fetched 5, .called 8, .peekRet true 6, .getRet true 5] = some ⟨[6], []⟩ ∧
    Spec.replay 2 7 8 ⟨[], []⟩ [.stored 5, .called 7, .putRet 5 true, .stored 6, .called 7,
      .putRet 6 true, .fetched 6] = none ∧
    Spec.replay 2 7 8 ⟨[], []⟩ [.stored 5, .putRet 5 true] = none ∧
    Spec.replay 2 7 8 ⟨[], []⟩ [.putRet 5 true] = none := by decide

end Mu.Mqueue
