import Verif.Lemmas.Ring
import Verif.Spec.Mqueue

namespace Mu.Mqueue

/-- `q` represents the list `l`. -/
def Rep (q : Mqueue) (l : List Val) : Prop := Ring q.storage q.capacity q.count q.index l

/-- What never changes: capacity, tasks, size of the storage and the slots past the capacity. -/
structure Same (q q' : Mqueue) : Prop where
  cap : q'.capacity = q.capacity
  onPut : q'.onPut = q.onPut
  onGet : q'.onGet = q.onGet
  len : q'.storage.length = q.storage.length
  rest : q'.storage.drop q.capacity = q.storage.drop q.capacity

theorem Same.refl (q : Mqueue) : Same q q := ⟨rfl, rfl, rfl, rfl, rfl⟩

theorem Same.trans {a b c : Mqueue} (h : Same a b) (g : Same b c) : Same a c := by
  refine ⟨g.cap.trans h.cap, g.onPut.trans h.onPut, g.onGet.trans h.onGet, g.len.trans h.len, ?_⟩
  have := g.rest
  rw [h.cap] at this
  rw [this, h.rest]

/-- The state just after the element has been stored, before on_put is called. -/
def stored (q : Mqueue) (e : Val) : Mqueue :=
  { q with storage := q.storage.set q.index e, index := (q.index + 1) % q.capacity,
           count := q.count + 1 }

theorem stored_rep {q : Mqueue} {l : List Val} (h : Rep q l) (e : Val)
    (hf : l.length < q.capacity) : Rep (stored q e) (l ++ [e]) ∧ Same q (stored q e) := by
  have h1 := h.len
  have h4 := h.idx
  refine ⟨Ring.put h (by omega) e, rfl, rfl, rfl, by simp [stored], ?_⟩
  simp only [stored]
  rw [List.drop_set_of_lt (by omega)]

theorem put_full {P : Plat} {call} {q : Mqueue} {l : List Val} (h : Rep q l) (e : Val)
    (hf : ¬ l.length < q.capacity) : put P call q e = .ok (false, [], q) := by
  have h1 := h.len
  have h2 := h.le
  have : isFull q = true := by simp [isFull]; omega
  simp [put, this]

theorem put_ok {P : Plat} {call} {q : Mqueue} {l : List Val} (h : Rep q l) (e : Val)
    (hs : 2 * q.capacity ≤ P.szMod) (hf : l.length < q.capacity) :
    put P call q e =
      if q.onPut ≠ NULL then do
        let (t, q') ← call (stored q e)
        .ok (true, .stored e :: .called q.onPut :: t, q')
      else .ok (true, [.stored e], stored q e) := by
  have h1 := h.len
  have h2 := h.le
  have h3 := h.alloc
  have h4 := h.idx
  have hfull : isFull q = false := by simp [isFull]; omega
  have hcap : ¬ q.capacity = 0 := by omega
  simp only [put, hfull, if_true, hcap, if_false]
  rw [stN_ok (by omega), Plat.sz_of_lt (by omega), Plat.sz_of_lt (by omega)]
  rfl

theorem access_nil {P : Plat} {call} {q : Mqueue} (h : Rep q []) (f : Bool) :
    accessQueue P call q f = .ok (false, NULL, [], q) := by
  have h1 : 0 = q.count := h.len
  have : isEmpty q = true := by simp [isEmpty, ← h1]
  simp [accessQueue, this]

theorem access_cons {P : Plat} {call} {q : Mqueue} {x : Val} {t : List Val} (h : Rep q (x :: t))
    (hs : 2 * q.capacity ≤ P.szMod) (f : Bool) :
    accessQueue P call q f =
      if f then
        if q.onGet ≠ NULL then do
          let (t, q') ← call { q with count := q.count - 1 }
          .ok (true, x, .fetched x :: .called q.onGet :: t, q')
        else .ok (true, x, [.fetched x], { q with count := q.count - 1 })
      else .ok (true, x, [], q) := by
  have h1 := h.len
  have h2 := h.le
  have h3 := h.alloc
  have h4 := h.idx
  simp at h1
  have hE : isEmpty q = false := by simp [isEmpty]; omega
  simp only [accessQueue, hE, if_true]
  have hx := h.head
  rw [Plat.sz_of_lt (by omega), Plat.szSub_of_le (by omega) (by omega)]
  have hidx : (if q.capacity + q.index - q.count ≥ q.capacity then
      P.szSub (q.capacity + q.index - q.count) q.capacity else q.capacity + q.index - q.count)
      = if q.index + q.capacity - q.count < q.capacity then q.index + q.capacity - q.count
        else q.index - q.count := by
    split
    · rw [Plat.szSub_of_le (by omega) (by omega)]; split <;> omega
    · split <;> omega
  rw [hidx, ldN_some hx, Plat.szSub_of_le (by omega) (by omega)]
  rfl

theorem rep_pop {q : Mqueue} {x : Val} {t : List Val} (h : Rep q (x :: t)) :
    Rep { q with count := q.count - 1 } t := Ring.pop h

theorem run_refines {P : Plat} (p : Prog) : ∀ {q : Mqueue} {l : List Val}, Rep q l →
    2 * q.capacity ≤ P.szMod →
    ∃ q', run P q p = .ok ((Spec.run q.capacity q.onPut q.onGet l p).1, q') ∧
      Rep q' (Spec.run q.capacity q.onPut q.onGet l p).2 ∧ Same q q' := by
  induction p with
  | done => intro q l h _; exact ⟨q, rfl, h, Same.refl q⟩
  | put e cb next ih1 ih2 =>
    intro q l h hs
    by_cases hf : l.length < q.capacity
    · obtain ⟨hr, hsame⟩ := stored_rep h e hf
      simp only [run, put_ok h e hs hf, Spec.run, hf, if_true]
      by_cases hn : q.onPut = NULL
      · obtain ⟨q2, g1, g2, g3⟩ := ih2 hr (by rw [hsame.cap]; exact hs)
        rw [hsame.cap, hsame.onPut, hsame.onGet] at g1 g2
        rw [hn] at g1 g2 ⊢
        simp only [ne_eq, not_true, if_false, C.ok_bind, g1]
        exact ⟨q2, by simp, g2, hsame.trans g3⟩
      · obtain ⟨q1, f1, f2, f3⟩ := ih1 hr (by rw [hsame.cap]; exact hs)
        have hs1 := hsame.trans f3
        obtain ⟨q2, g1, g2, g3⟩ := ih2 f2 (by rw [hs1.cap]; exact hs)
        rw [hs1.cap, hs1.onPut, hs1.onGet, hsame.cap, hsame.onPut, hsame.onGet] at g1 g2
        rw [hsame.cap, hsame.onPut, hsame.onGet] at f1
        simp only [hn, ne_eq, not_false_eq_true, if_true, if_false, C.ok_bind, f1, g1]
        exact ⟨q2, by simp, g2, hs1.trans g3⟩
    · obtain ⟨q2, g1, g2, g3⟩ := ih2 h hs
      simp only [run, put_full h e hf, Spec.run, hf, if_false, C.ok_bind, g1]
      exact ⟨q2, by simp, g2, g3⟩
  | get cb next ih1 ih2 =>
    intro q l h hs
    cases l with
    | nil =>
      obtain ⟨q2, g1, g2, g3⟩ := ih2 h hs
      simp only [run, access_nil h, Spec.run, C.ok_bind, g1]
      exact ⟨q2, by simp, g2, g3⟩
    | cons x l' =>
      have hr := rep_pop h
      have hsame : Same q { q with count := q.count - 1 } := ⟨rfl, rfl, rfl, rfl, rfl⟩
      simp only [run, access_cons h hs, Spec.run, if_true]
      by_cases hn : q.onGet = NULL
      · obtain ⟨q2, g1, g2, g3⟩ := ih2 hr hs
        rw [hsame.cap, hsame.onPut, hsame.onGet] at g1 g2
        rw [hn] at g1 g2
        simp only [hn] at g1 g2 ⊢
        simp only [ne_eq, not_true, if_false, if_true, C.ok_bind, g1]
        exact ⟨q2, by simp, g2, hsame.trans g3⟩
      · obtain ⟨q1, f1, f2, f3⟩ := ih1 hr hs
        have hs1 := hsame.trans f3
        obtain ⟨q2, g1, g2, g3⟩ := ih2 f2 (by rw [hs1.cap]; exact hs)
        rw [hs1.cap, hs1.onPut, hs1.onGet, hsame.cap, hsame.onPut, hsame.onGet] at g1 g2
        rw [hsame.cap, hsame.onPut, hsame.onGet] at f1
        simp only [hn, ne_eq, not_false_eq_true, if_true, if_false, C.ok_bind, f1, g1]
        exact ⟨q2, by simp, g2, hs1.trans g3⟩
  | peek next ih =>
    intro q l h hs
    obtain ⟨q2, g1, g2, g3⟩ := ih h hs
    cases l with
    | nil =>
      simp only [run, access_nil h, Spec.run, C.ok_bind, g1]
      exact ⟨q2, by simp, g2, g3⟩
    | cons x l' =>
      simp only [run, access_cons h hs, Spec.run, C.ok_bind, Bool.false_eq_true, if_false, g1]
      exact ⟨q2, by simp, g2, g3⟩
  | reset next ih =>
    intro q l h hs
    have hr : Rep (reset q) [] := Ring.reset h
    obtain ⟨q2, g1, g2, g3⟩ := ih hr hs
    have hsame : Same q (reset q) := ⟨rfl, rfl, rfl, rfl, rfl⟩
    rw [hsame.cap, hsame.onPut, hsame.onGet] at g1 g2
    exact ⟨q2, by simp [run, Spec.run, g1], g2, hsame.trans g3⟩
  | count next ih =>
    intro q l h hs
    obtain ⟨q2, g1, g2, g3⟩ := ih h hs
    exact ⟨q2, by simp [run, Spec.run, g1, count, h.len], g2, g3⟩
  | capacity next ih =>
    intro q l h hs
    obtain ⟨q2, g1, g2, g3⟩ := ih h hs
    exact ⟨q2, by simp [run, Spec.run, g1, capacity], g2, g3⟩
  | isEmpty next ih =>
    intro q l h hs
    obtain ⟨q2, g1, g2, g3⟩ := ih h hs
    refine ⟨q2, ?_, g2, g3⟩
    have h1 := h.len
    have : isEmpty q = decide (l = []) := by
      cases l <;> simp at h1 <;> simp [isEmpty, ← h1]
    simp [run, Spec.run, g1, this]
  | isFull next ih =>
    intro q l h hs
    obtain ⟨q2, g1, g2, g3⟩ := ih h hs
    refine ⟨q2, ?_, g2, g3⟩
    have : isFull q = decide (l.length = q.capacity) := by
      simp [isFull, h.len]; rfl
    simp [run, Spec.run, g1, this]

theorem init_rep (q0 : Mqueue) (storage : List Val) (cap : Nat) (a b : Val)
    (h : cap ≤ storage.length) : Rep (init q0 storage cap a b) [] := Ring.init storage cap h

/-! ## Facts about the specification -/

theorem tally_append (t t' : List Ev) (n : Int) :
    Spec.tally n (t ++ t') = Spec.tally (Spec.tally n t) t' := by
  induction t generalizing n with
  | nil => rfl
  | cons e t ih => cases e <;> simp [Spec.tally, ih]

/-- Every event of the trace is consistent with the tally at that point, which is between 0 and
the capacity. -/
def Consistent (cap : Nat) (n : Int) : List Ev → Prop
  | [] => 0 ≤ n ∧ n ≤ cap
  | e :: t => (0 ≤ n ∧ n ≤ cap) ∧
      (match e with
       | .countRet m => (m : Int) = n
       | .putRet _ false => n = cap
       | .getRet false _ => n = 0
       | .stored _ => n < cap
       | .fetched _ => 0 < n
       | .emptyRet b => (b = true ↔ n = 0)
       | .fullRet b => (b = true ↔ n = cap)
       | _ => True) ∧ Consistent cap (Spec.tally n [e]) t

theorem consistent_append {cap : Nat} {n : Int} {t t' : List Ev} (h : Consistent cap n t)
    (h' : Consistent cap (Spec.tally n t) t') : Consistent cap n (t ++ t') := by
  induction t generalizing n with
  | nil => exact h'
  | cons e t ih =>
    refine ⟨h.1, h.2.1, ih h.2.2 ?_⟩
    have := tally_append [e] t n
    simp only [List.singleton_append] at this
    rw [← this]; exact h'

theorem spec_consistent (cap : Nat) (a b : Val) (p : Prog) : ∀ l : List Val, l.length ≤ cap →
    Consistent cap l.length (Spec.run cap a b l p).1 ∧
    ((Spec.run cap a b l p).2.length : Int) = Spec.tally l.length (Spec.run cap a b l p).1 ∧
    (Spec.run cap a b l p).2.length ≤ cap := by
  induction p with
  | done => intro l h; simp [Spec.run, Consistent, Spec.tally]; omega
  | put e cb next ih1 ih2 =>
    intro l h
    simp only [Spec.run]
    by_cases hf : l.length < cap
    · simp only [hf, if_true]
      by_cases hn : a = NULL
      · simp only [hn, if_true, List.nil_append]
        obtain ⟨g1, g2, g3⟩ := ih2 (l ++ [e]) (by simp <;> omega)
        rw [hn] at g1 g2 g3
        simp only [List.length_append, List.length_cons, List.length_nil] at g1 g2
        push_cast at g1 g2
        try simp only [Int.zero_add] at g1 g2
        refine ⟨?_, ?_, g3⟩
        · simp only [Consistent, Spec.tally]
          refine ⟨by omega, by omega, by omega, trivial, g1⟩
        · simp only [Spec.tally]; exact g2
      · simp only [hn, if_false]
        obtain ⟨f1, f2, f3⟩ := ih1 (l ++ [e]) (by simp <;> omega)
        obtain ⟨g1, g2, g3⟩ := ih2 (Spec.run cap a b (l ++ [e]) cb).2 f3
        have hl : (((l ++ [e]).length : Nat) : Int) = (l.length : Int) + 1 := by simp
        rw [hl] at f1 f2
        rw [f2] at g1 g2
        refine ⟨?_, ?_, g3⟩
        · simp only [Consistent, Spec.tally, List.cons_append]
          refine ⟨by omega, by omega, by omega, trivial, ?_⟩
          refine consistent_append f1 ?_
          simp only [Consistent, Spec.tally]
          exact ⟨by omega, trivial, g1⟩
        · simp only [Spec.tally, List.cons_append]
          rw [tally_append]
          simp only [Spec.tally]; exact g2
    · simp only [hf, if_false]
      obtain ⟨g1, g2, g3⟩ := ih2 l h
      refine ⟨?_, ?_, g3⟩
      · simp only [Consistent, Spec.tally]
        exact ⟨by omega, by omega, g1⟩
      · simp only [Spec.tally]; exact g2
  | get cb next ih1 ih2 =>
    intro l h
    cases l with
    | nil =>
      simp only [Spec.run]
      obtain ⟨g1, g2, g3⟩ := ih2 [] h
      refine ⟨?_, ?_, g3⟩
      · simp only [Consistent, Spec.tally]
        exact ⟨by simp <;> omega, by simp, g1⟩
      · simp only [Spec.tally]; exact g2
    | cons x l' =>
      simp only [Spec.run]
      simp only [List.length_cons] at h
      have hl : (((x :: l').length : Nat) : Int) - 1 = (l'.length : Int) := by simp <;> omega
      by_cases hn : b = NULL
      · simp only [hn, if_true, List.nil_append]
        obtain ⟨g1, g2, g3⟩ := ih2 l' (by omega)
        rw [hn] at g1 g2 g3
        refine ⟨?_, ?_, g3⟩
        · simp only [Consistent, Spec.tally]
          rw [hl]
          refine ⟨by simp <;> omega, by simp <;> omega, by omega, trivial, g1⟩
        · simp only [Spec.tally]; rw [hl]; exact g2
      · simp only [hn, if_false]
        obtain ⟨f1, f2, f3⟩ := ih1 l' (by omega)
        obtain ⟨g1, g2, g3⟩ := ih2 (Spec.run cap a b l' cb).2 f3
        rw [f2] at g1 g2
        refine ⟨?_, ?_, g3⟩
        · simp only [Consistent, Spec.tally, List.cons_append]
          rw [hl]
          refine ⟨by simp <;> omega, by simp <;> omega, by omega, trivial, ?_⟩
          refine consistent_append f1 ?_
          simp only [Consistent, Spec.tally]
          exact ⟨by omega, trivial, g1⟩
        · simp only [Spec.tally, List.cons_append]
          rw [hl, tally_append]
          simp only [Spec.tally]; exact g2
  | peek next ih =>
    intro l h
    obtain ⟨g1, g2, g3⟩ := ih l h
    simp only [Spec.run, Consistent, Spec.tally]
    exact ⟨⟨by omega, trivial, g1⟩, g2, g3⟩
  | reset next ih =>
    intro l h
    obtain ⟨g1, g2, g3⟩ := ih [] (by simp)
    simp only [Spec.run, Consistent, Spec.tally]
    exact ⟨⟨by omega, trivial, g1⟩, g2, g3⟩
  | count next ih =>
    intro l h
    obtain ⟨g1, g2, g3⟩ := ih l h
    simp only [Spec.run, Consistent, Spec.tally]
    exact ⟨⟨by omega, trivial, g1⟩, g2, g3⟩
  | capacity next ih =>
    intro l h
    obtain ⟨g1, g2, g3⟩ := ih l h
    simp only [Spec.run, Consistent, Spec.tally]
    exact ⟨⟨by omega, trivial, g1⟩, g2, g3⟩
  | isEmpty next ih =>
    intro l h
    obtain ⟨g1, g2, g3⟩ := ih l h
    simp only [Spec.run, Consistent, Spec.tally]
    refine ⟨⟨by omega, ?_, g1⟩, g2, g3⟩
    cases l <;> simp; omega
  | isFull next ih =>
    intro l h
    obtain ⟨g1, g2, g3⟩ := ih l h
    simp only [Spec.run, Consistent, Spec.tally]
    refine ⟨⟨by omega, ?_, g1⟩, g2, g3⟩
    simp <;> omega

theorem consistent_split {cap : Nat} {n : Int} {t t' : List Ev} (h : Consistent cap n (t ++ t')) :
    Consistent cap (Spec.tally n t) t' := by
  induction t generalizing n with
  | nil => exact h
  | cons e t ih =>
    have := tally_append [e] t n
    simp only [List.singleton_append] at this
    rw [this]; exact ih h.2.2

theorem consistent_bounds {cap : Nat} {n : Int} {t : List Ev} (h : Consistent cap n t) :
    0 ≤ n ∧ n ≤ cap := by
  cases t with
  | nil => exact h
  | cons e t => exact h.1

/-! ## The two specifications agree -/

theorem replay_append (cap : Nat) (a b : Val) (m : Spec.Mon) (t t' : List Ev) :
    Spec.replay cap a b m (t ++ t') =
      (Spec.replay cap a b m t).bind fun m => Spec.replay cap a b m t' := by
  simp [Spec.replay, List.foldlM_append]

theorem replay_cons (cap : Nat) (a b : Val) (m : Spec.Mon) (e : Ev) (t : List Ev) :
    Spec.replay cap a b m (e :: t) =
      (Spec.next cap a b m e).bind fun m => Spec.replay cap a b m t := by
  simp [Spec.replay]

theorem replay_nil (cap : Nat) (a b : Val) (m : Spec.Mon) : Spec.replay cap a b m [] = some m := rfl

theorem next_stored {cap : Nat} {a b e : Val} {l : List Val} {s : List Spec.Frame}
    (hs : Spec.due s = false) (hl : l.length < cap) :
    Spec.next cap a b ⟨l, s⟩ (.stored e) = some ⟨l ++ [e], .put e (a = NULL) :: s⟩ := by
  simp [Spec.next, hs, hl]

theorem next_fetched {cap : Nat} {a b e : Val} {l : List Val} {s : List Spec.Frame}
    (hs : Spec.due s = false) :
    Spec.next cap a b ⟨e :: l, s⟩ (.fetched e) = some ⟨l, .get e (b = NULL) :: s⟩ := by
  simp [Spec.next, hs]

theorem next_put_called {cap : Nat} {a b e : Val} {l : List Val} {s : List Spec.Frame} :
    Spec.next cap a b ⟨l, .put e false :: s⟩ (.called a) = some ⟨l, .put e true :: s⟩ := by
  simp [Spec.next]

theorem next_get_called {cap : Nat} {a b e : Val} {l : List Val} {s : List Spec.Frame} :
    Spec.next cap a b ⟨l, .get e false :: s⟩ (.called b) = some ⟨l, .get e true :: s⟩ := by
  simp [Spec.next]

theorem next_put_ret {cap : Nat} {a b e : Val} {l : List Val} {s : List Spec.Frame} :
    Spec.next cap a b ⟨l, .put e true :: s⟩ (.putRet e true) = some ⟨l, s⟩ := by
  simp [Spec.next, Spec.due]

theorem next_get_ret {cap : Nat} {a b e : Val} {l : List Val} {s : List Spec.Frame} :
    Spec.next cap a b ⟨l, .get e true :: s⟩ (.getRet true e) = some ⟨l, s⟩ := by
  simp [Spec.next, Spec.due]

theorem spec_replay (cap : Nat) (a b : Val) (p : Prog) : ∀ (l : List Val) (s : List Spec.Frame),
    l.length ≤ cap → Spec.due s = false →
    Spec.replay cap a b ⟨l, s⟩ (Spec.run cap a b l p).1 = some ⟨(Spec.run cap a b l p).2, s⟩ := by
  induction p with
  | done => intro l s _ _; rfl
  | put e cb next ih1 ih2 =>
    intro l s hl hs
    simp only [Spec.run]
    by_cases hf : l.length < cap
    · by_cases hn : a = NULL
      · subst hn
        simp only [hf, if_true, List.nil_append, replay_cons, next_stored hs hf, Option.bind_some,
          decide_true, next_put_ret]
        exact ih2 (l ++ [e]) s (by simp; omega) hs
      · have hle : (l ++ [e]).length ≤ cap := by simp; omega
        have h1 := ih1 (l ++ [e]) (.put e true :: s) hle rfl
        have h2 := (spec_consistent cap a b cb (l ++ [e]) hle).2.2
        have h3 := ih2 _ s h2 hs
        simp only [hf, if_true, hn, if_false, replay_cons, List.cons_append, replay_append,
          next_stored hs hf, decide_false, next_put_called, Option.bind_some, h1, next_put_ret, h3]
    · have hc : l.length = cap := by omega
      have hx : Spec.next cap a b ⟨l, s⟩ (.putRet e false) = some ⟨l, s⟩ := by
        simp [Spec.next, hs, hc]
      rw [if_neg hf]
      simp only [replay_cons, hx, Option.bind_some]
      exact ih2 l s hl hs
  | get cb next ih1 ih2 =>
    intro l s hl hs
    cases l with
    | nil =>
      simp only [Spec.run, replay_cons, Spec.next, hs]
      simpa using ih2 [] s hl hs
    | cons x l =>
      have hle : l.length ≤ cap := by simp at hl; omega
      simp only [Spec.run]
      by_cases hn : b = NULL
      · subst hn
        simp only [if_true, List.nil_append, replay_cons, next_fetched hs, Option.bind_some,
          decide_true, next_get_ret]
        exact ih2 l s hle hs
      · have h1 := ih1 l (.get x true :: s) hle rfl
        have h2 := (spec_consistent cap a b cb l hle).2.2
        have h3 := ih2 _ s h2 hs
        simp only [hn, if_false, replay_cons, List.cons_append, replay_append,
          next_fetched hs, decide_false, next_get_called, Option.bind_some, h1, next_get_ret, h3]
  | reset next ih =>
    intro l s hl hs
    simp only [Spec.run, replay_cons, Spec.next, hs]
    simpa using ih [] s (by simp) hs
  | peek next ih =>
    intro l s hl hs
    simp only [Spec.run, replay_cons, Spec.next, hs]
    simpa using ih l s hl hs
  | count next ih =>
    intro l s hl hs
    simp only [Spec.run, replay_cons, Spec.next, hs]
    simpa using ih l s hl hs
  | capacity next ih =>
    intro l s hl hs
    simp only [Spec.run, replay_cons, Spec.next, hs]
    simpa using ih l s hl hs
  | isEmpty next ih =>
    intro l s hl hs
    simp only [Spec.run, replay_cons, Spec.next, hs]
    simpa using ih l s hl hs
  | isFull next ih =>
    intro l s hl hs
    simp only [Spec.run, replay_cons, Spec.next, hs]
    simpa using ih l s hl hs

end Mu.Mqueue
