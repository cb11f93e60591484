import Verif.Spec.Spsc

namespace Mu.Spsc

theorem init_ok_iff (q : Spsc) (store : List Val) (n : Nat) :
    (init q store n).1 = .none ↔ ∃ k, 1 ≤ k ∧ n = 2 ^ k := by
  unfold init
  by_cases h2 : n < 2
  · simp only [h2, true_or, if_true, reduceCtorEq, false_iff]
    rintro ⟨k, hk, rfl⟩
    have : 2 ^ 1 ≤ 2 ^ k := Nat.pow_le_pow_right (by decide) hk
    omega
  · have hp : isPowerOfTwo n = true ↔ n.isPowerOfTwo := by
      unfold isPowerOfTwo
      rw [beq_iff_eq]
      exact Nat.and_sub_one_eq_zero_iff_isPowerOfTwo (by omega)
    cases hc : isPowerOfTwo n with
    | false =>
      simp only [h2, false_or, if_true, reduceCtorEq, false_iff]
      rintro ⟨k, hk, hn⟩
      have : isPowerOfTwo n = true := hp.2 ⟨k, hn⟩
      rw [hc] at this; exact absurd this (by decide)
    | true =>
      obtain ⟨k, hk⟩ := hp.1 hc
      simp only [h2, reduceCtorEq, or_self, if_false, reset, true_iff]
      refine ⟨k, ?_, hk⟩
      cases k with
      | zero => simp at hk; omega
      | succ k => omega

/-- The static part of a valid spsc: `mask + 1` is a power of two (at least 2) backed by storage. -/
structure Wf (q : Spsc) (N : Nat) : Prop where
  two : 2 ≤ N
  pow : ∃ k, N = 2 ^ k
  mask : q.mask = N - 1
  alloc : N ≤ q.store.length

theorem Wf.and {q : Spsc} {N : Nat} (h : Wf q N) (x : Nat) : x &&& q.mask = x % N := by
  obtain ⟨k, hk⟩ := h.pow
  rw [h.mask, hk, Nat.and_two_pow_sub_one_eq_mod]

/-- The content: `head = d mod N`, `tail = (d + length) mod N`. -/
structure Rep (q : Spsc) (N d : Nat) (l : List Val) : Prop where
  wf : Wf q N
  head : q.head = d % N
  tail : q.tail = (d + l.length) % N
  len : l.length ≤ N - 1
  get : ∀ i, i < l.length → q.store[(d + i) % N]? = l[i]?

/-- Different positions less than `N` apart use different slots. -/
theorem mod_ne {N d i j : Nat} (hi : i < N) (hj : j < N) (hij : i ≠ j) :
    (d + i) % N ≠ (d + j) % N := by
  intro h
  have hd : d % N < N := Nat.mod_lt _ (by omega)
  have e : ∀ i, i < N → (d + i) % N = if d % N + i < N then d % N + i else d % N + i - N := by
    intro i hi
    rw [Nat.add_mod, Nat.mod_eq_of_lt hi]
    split
    · exact Nat.mod_eq_of_lt ‹_›
    · rw [Nat.mod_eq_sub_mod (by omega), Nat.mod_eq_of_lt (by omega)]
  rw [e i hi, e j hj] at h
  split at h <;> split at h <;> omega

theorem mod_succ_mod (x N : Nat) : (x % N + 1) % N = (x + 1) % N := by
  simp [Nat.add_mod]

theorem Rep.full_iff {q : Spsc} {N d : Nat} {l : List Val} (h : Rep q N d l) :
    (q.tail + 1) &&& q.mask = q.head ↔ l.length = N - 1 := by
  have h2 := h.wf.two
  have hl := h.len
  rw [h.wf.and, h.tail, h.head, mod_succ_mod, Nat.add_assoc]
  constructor
  · intro e
    by_cases hc : l.length + 1 < N
    · exact absurd e (by have := mod_ne (d := d) (N := N) hc (j := 0) (by omega) (by omega); simpa using this)
    · omega
  · intro e
    have : l.length + 1 = N := by omega
    rw [this]; simp

theorem Rep.empty_iff {q : Spsc} {N d : Nat} {l : List Val} (h : Rep q N d l) :
    q.head = q.tail ↔ l = [] := by
  have h2 := h.wf.two
  have hl := h.len
  rw [h.tail, h.head]
  constructor
  · intro e
    cases l with
    | nil => rfl
    | cons x t =>
      simp only [List.length_cons] at hl e
      have := mod_ne (d := d) (N := N) (i := 0) (j := t.length + 1) (by omega) (by omega) (by omega)
      simp only [Nat.add_zero] at this
      exact absurd e this
  · rintro rfl; simp

theorem Rep.tail_lt {q : Spsc} {N d : Nat} {l : List Val} (h : Rep q N d l) :
    q.tail < q.store.length := by
  have h2 := h.wf.two
  have h3 := h.wf.alloc
  have : (d + l.length) % N < N := Nat.mod_lt _ (by omega)
  rw [h.tail]; omega

theorem Rep.head_lt {q : Spsc} {N d : Nat} {l : List Val} (h : Rep q N d l) :
    q.head < q.store.length := by
  have h2 := h.wf.two
  have h3 := h.wf.alloc
  have : d % N < N := Nat.mod_lt _ (by omega)
  rw [h.head]; omega

/-- Writing the slot at `tail` does not disturb the content. -/
theorem Rep.set_tail {q : Spsc} {N d : Nat} {l : List Val} (h : Rep q N d l) (x : Val)
    (hl : l.length < N) : Rep { q with store := q.store.set q.tail x } N d l := by
  refine ⟨⟨h.wf.two, h.wf.pow, h.wf.mask, by simpa using h.wf.alloc⟩, h.head, h.tail, h.len, ?_⟩
  intro i hi
  have := mod_ne (d := d) (N := N) (i := i) (j := l.length) (by omega) (by omega) (by omega)
  rw [List.getElem?_set_ne (by rw [h.tail]; exact fun e => this e.symm)]
  exact h.get i hi

theorem Rep.push {q : Spsc} {N d : Nat} {l : List Val} (h : Rep q N d l) (x : Val)
    (hl : l.length < N - 1) (hx : q.store[q.tail]? = some x) :
    Rep { q with tail := (q.tail + 1) &&& q.mask } N d (l ++ [x]) := by
  refine ⟨⟨h.wf.two, h.wf.pow, h.wf.mask, h.wf.alloc⟩, h.head, ?_, by simp; omega, ?_⟩
  · simp only [List.length_append, List.length_cons, List.length_nil]
    rw [h.wf.and, h.tail, mod_succ_mod]; simp [Nat.add_assoc]
  · intro i hi
    simp only [List.length_append, List.length_cons, List.length_nil] at hi
    by_cases hc : i < l.length
    · rw [List.getElem?_append_left hc]; exact h.get i hc
    · have : i = l.length := by omega
      subst this
      rw [List.getElem?_append_right (Nat.le_refl _), ← h.tail, hx]
      simp

theorem Rep.pop {q : Spsc} {N d : Nat} {x : Val} {t : List Val} (h : Rep q N d (x :: t)) :
    Rep { q with head := (q.head + 1) &&& q.mask } N (d + 1) t := by
  have hl := h.len
  simp only [List.length_cons] at hl
  refine ⟨⟨h.wf.two, h.wf.pow, h.wf.mask, h.wf.alloc⟩, ?_, ?_, by omega, ?_⟩
  · simp only
    rw [h.wf.and, h.head, mod_succ_mod]
  · have := h.tail
    simp only [List.length_cons] at this
    simp only [this]
    congr 1; omega
  · intro i hi
    have := h.get (i + 1) (by simp; omega)
    simp only [List.getElem?_cons_succ] at this
    rw [← this]
    simp only
    congr 2; omega

theorem Rep.front {q : Spsc} {N d : Nat} {x : Val} {t : List Val} (h : Rep q N d (x :: t)) :
    q.store[q.head]? = some x := by
  have := h.get 0 (by simp)
  rw [h.head]
  simpa using this

theorem put_rep {q : Spsc} {N d : Nat} {l : List Val} (h : Rep q N d l) (e : Val) :
    (l.length < N - 1 → ∃ q', put q e = .ok (.none, q') ∧ Rep q' N d (l ++ [e])) ∧
    (¬ l.length < N - 1 → put q e = .ok (.full, q)) := by
  have hf := h.full_iff
  have hl := h.len
  constructor
  · intro hlt
    have hne : ¬ ((q.tail + 1) &&& q.mask = q.head) := by rw [hf]; omega
    refine ⟨_, ?_, (h.set_tail e (by omega)).push e hlt
      (by simp [List.getElem?_set_self h.tail_lt])⟩
    simp only [put, hne, if_false]
    rw [stN_ok h.tail_lt]
    rfl
  · intro hge
    have he : ((q.tail + 1) &&& q.mask = q.head) := by rw [hf]; omega
    simp [put, he]

theorem step_refines {q : Spsc} {N d : Nat} {l : List Val} (h : Rep q N d l) (op : Op) :
    ∃ q' d', step q op = .ok ((Spec.step N l op).1, q') ∧ Rep q' N d' (Spec.step N l op).2 := by
  cases op with
  | put e =>
    have hp := put_rep h e
    by_cases hlt : l.length < N - 1
    · obtain ⟨q', h1, h2⟩ := hp.1 hlt
      exact ⟨q', d, by simp [step, h1, Spec.step, hlt], by simpa [Spec.step, hlt] using h2⟩
    · exact ⟨q, d, by simp [step, hp.2 hlt, Spec.step, hlt], by simpa [Spec.step, hlt] using h⟩
  | get =>
    have he := h.empty_iff
    cases l with
    | nil =>
      have : q.head = q.tail := he.2 rfl
      exact ⟨q, d, by simp [step, get, this, Spec.step], h⟩
    | cons x t =>
      have : ¬ q.head = q.tail := by rw [he]; simp
      refine ⟨_, d + 1, ?_, h.pop⟩
      simp [step, get, this, Spec.step, ldN_some h.front]
  | reset =>
    refine ⟨_, 0, rfl, ⟨⟨h.wf.two, h.wf.pow, h.wf.mask, h.wf.alloc⟩, ?_, ?_, ?_, ?_⟩⟩
    · simp [reset]
    · simp [reset, Spec.step]
    · simp [Spec.step]
    · simp [Spec.step]
  | capacity =>
    exact ⟨q, d, by simp [step, capacity, Spec.step, h.wf.mask], h⟩

theorem run_refines (ops : List Op) : ∀ {q : Spsc} {N d : Nat} {l : List Val}, Rep q N d l →
    ∃ q' d', run q ops = .ok ((Spec.run N l ops).1, q') ∧ Rep q' N d' (Spec.run N l ops).2 := by
  induction ops with
  | nil => intro q N d l h; exact ⟨q, d, rfl, h⟩
  | cons op ops ih =>
    intro q N d l h
    obtain ⟨q1, d1, h1, h2⟩ := step_refines h op
    obtain ⟨q2, d2, g1, g2⟩ := ih h2
    exact ⟨q2, d2, by simp [run, h1, g1, Spec.run], g2⟩

theorem init_rep {q0 : Spsc} {store : List Val} {N : Nat} (hok : (init q0 store N).1 = .none)
    (halloc : N ≤ store.length) : Rep (init q0 store N).2 N 0 [] := by
  obtain ⟨k, hk, hN⟩ := (init_ok_iff q0 store N).1 hok
  have h2 : 2 ≤ N := by
    have : 2 ^ 1 ≤ 2 ^ k := Nat.pow_le_pow_right (by decide) hk
    omega
  have : (init q0 store N).2 = { mask := N - 1, head := 0, tail := 0, store := store } := by
    unfold init at hok ⊢
    split
    · rename_i h; simp [h] at hok
    · rfl
  rw [this]
  refine ⟨⟨h2, ⟨k, hN⟩, rfl, halloc⟩, by simp, by simp, by simp, by simp⟩

/-! ## The concurrent invariant -/

/-- `Inv N s`: the queue holds exactly `accepted` minus the `delivered` prefix, and what each
thread has loaded so far is still valid. -/
structure Inv (N : Nat) (s : Sys) : Prop where
  pre : Spec.delivered s.log ++ (Spec.accepted s.log).drop (Spec.delivered s.log).length
    = Spec.accepted s.log
  rep : Rep s.q N (Spec.delivered s.log).length
    ((Spec.accepted s.log).drop (Spec.delivered s.log).length)
  prod : match s.p with
    | .idle => True
    | .loadTail _ => True
    | .loadHead _ nx => nx = (s.q.tail + 1) &&& s.q.mask
    | .loadSlot _ nx => nx = (s.q.tail + 1) &&& s.q.mask ∧ Spec.queued s.log < N - 1
    | .storeItem _ nx slot => nx = (s.q.tail + 1) &&& s.q.mask ∧ Spec.queued s.log < N - 1 ∧
        slot = s.q.tail
    | .storeTail x nx => nx = (s.q.tail + 1) &&& s.q.mask ∧ Spec.queued s.log < N - 1 ∧
        s.q.store[s.q.tail]? = some x
  cons : match s.c with
    | .idle => True
    | .compare _ => True
    | .loadTail h => h = s.q.head
    | .loadHead t => t ≠ s.q.head → 0 < Spec.queued s.log
    | .loadSlot => 0 < Spec.queued s.log
    | .loadItem slot => 0 < Spec.queued s.log ∧ slot = s.q.head
    | .loadHead2 x => 0 < Spec.queued s.log ∧ s.q.store[s.q.head]? = some x
    | .storeHead x h => 0 < Spec.queued s.log ∧ s.q.store[s.q.head]? = some x ∧ h = s.q.head

theorem accepted_append (a b : List Ev) :
    Spec.accepted (a ++ b) = Spec.accepted a ++ Spec.accepted b := by
  simp [Spec.accepted]
theorem delivered_append (a b : List Ev) :
    Spec.delivered (a ++ b) = Spec.delivered a ++ Spec.delivered b := by
  simp [Spec.delivered]

theorem Inv.len_le {N : Nat} {s : Sys} (h : Inv N s) :
    (Spec.delivered s.log).length ≤ (Spec.accepted s.log).length := by
  have := congrArg List.length h.pre
  rw [List.length_append] at this
  omega

theorem Inv.queued_eq {N : Nat} {s : Sys} (_h : Inv N s) :
    ((Spec.accepted s.log).drop (Spec.delivered s.log).length).length = Spec.queued s.log := by
  simp [Spec.queued]

theorem queued_nil (a : List Ev) (ev : Ev)
    (h1 : Spec.accepted [ev] = []) (h2 : Spec.delivered [ev] = []) :
    Spec.queued (a ++ [ev]) = Spec.queued a := by
  simp [Spec.queued, accepted_append, delivered_append, h1, h2]

theorem micro_prod_inv {N : Nat} {s : Sys} (h : Inv N s) (item : Val) :
    ∃ s', micro s (.prod item) = .ok s' ∧ Inv N s' ∧ s'.c = s.c ∧
      Spec.delivered s'.log = Spec.delivered s.log ∧
      s'.q.head = s.q.head ∧ Spec.queued s.log ≤ Spec.queued s'.log := by
  obtain ⟨q, p, c, log⟩ := s
  obtain ⟨hpre, hrep, hp, hc⟩ := h
  have hq : ((Spec.accepted log).drop (Spec.delivered log).length).length = Spec.queued log := by
    simp [Spec.queued]
  simp only at hpre hrep hp hc
  cases p with
  | idle => exact ⟨_, rfl, ⟨hpre, hrep, trivial, hc⟩, rfl, rfl, rfl, Nat.le_refl _⟩
  | loadTail x => exact ⟨_, rfl, ⟨hpre, hrep, rfl, hc⟩, rfl, rfl, rfl, Nat.le_refl _⟩
  | loadHead x nx =>
    simp only at hp
    simp only [micro]
    have hf := hrep.full_iff
    rw [hq] at hf
    by_cases he : nx = q.head
    · simp only [he, if_true]
      have h1 : Spec.accepted [Ev.putRet x false] = [] := rfl
      have h2 : Spec.delivered [Ev.putRet x false] = [] := rfl
      have hqn := queued_nil log _ h1 h2
      refine ⟨_, rfl, ⟨?_, ?_, trivial, ?_⟩, rfl, ?_, rfl, Nat.le_of_eq hqn.symm⟩
      · simpa [accepted_append, delivered_append, h1, h2] using hpre
      · simpa [accepted_append, delivered_append, h1, h2] using hrep
      · simp only [hqn]; exact hc
      · simp [delivered_append, h2]
    · simp only [he, if_false]
      refine ⟨_, rfl, ⟨hpre, hrep, ⟨hp, ?_⟩, hc⟩, rfl, rfl, rfl, Nat.le_refl _⟩
      rw [← hp] at hf
      have := hrep.len
      rw [hq] at this
      have : ¬ Spec.queued log = N - 1 := fun e => he (hf.2 e)
      simp only
      omega
  | loadSlot x nx =>
    exact ⟨_, rfl, ⟨hpre, hrep, ⟨hp.1, hp.2, rfl⟩, hc⟩, rfl, rfl, rfl, Nat.le_refl _⟩
  | storeItem x nx slot =>
    obtain ⟨h1, h2, h3⟩ := hp
    subst h3
    have hset := hrep.set_tail x (by rw [hq]; omega)
    refine ⟨{ q := { q with store := q.store.set q.tail x }, p := .storeTail x nx, c := c,
              log := log }, ?_, ⟨hpre, hset, ⟨h1, h2, ?_⟩, ?_⟩, rfl, rfl, rfl, Nat.le_refl _⟩
    · simp only [micro]; rw [stN_ok hrep.tail_lt]; rfl
    · simp only
      rw [List.getElem?_set_self hrep.tail_lt]
    · have hne : 0 < Spec.queued log → q.tail ≠ q.head := by
        intro hpos e
        have := (hrep.empty_iff).1 e.symm
        rw [this] at hq
        simp at hq; omega
      cases c with
      | loadHead2 y =>
        simp only at hc ⊢
        refine ⟨hc.1, ?_⟩
        rw [List.getElem?_set_ne (hne hc.1)]; exact hc.2
      | storeHead y hh =>
        simp only at hc ⊢
        refine ⟨hc.1, ?_, hc.2.2⟩
        rw [List.getElem?_set_ne (hne hc.1)]; exact hc.2.1
      | _ => exact hc
  | storeTail x nx =>
    obtain ⟨h1, h2, h3⟩ := hp
    simp only [micro]
    have ha : Spec.accepted [Ev.putRet x true] = [x] := rfl
    have hd : Spec.delivered [Ev.putRet x true] = [] := rfl
    have hle : (Spec.delivered log).length ≤ (Spec.accepted log).length := by
      have := congrArg List.length hpre
      rw [List.length_append] at this
      omega
    have hqn : Spec.queued (log ++ [.putRet x true]) = Spec.queued log + 1 := by
      simp [Spec.queued, accepted_append, delivered_append, ha, hd]; omega
    have hdrop : (Spec.accepted log ++ [x]).drop (Spec.delivered log).length =
        (Spec.accepted log).drop (Spec.delivered log).length ++ [x] := by
      rw [List.drop_append_of_le_length hle]
    have hpush := hrep.push x (by rw [hq]; exact h2) h3
    refine ⟨_, rfl, ⟨?_, ?_, trivial, ?_⟩, rfl, ?_, rfl, by simp only [hqn]; omega⟩
    · simp only [accepted_append, delivered_append, ha, hd, List.append_nil]
      rw [hdrop, ← List.append_assoc, hpre]
    · simp only [accepted_append, delivered_append, ha, hd, List.append_nil]
      rw [hdrop, h1]; exact hpush
    · simp only [hqn]
      cases c with
      | loadHead t => simp only at hc ⊢; intro _; omega
      | loadSlot => simp only at hc ⊢; omega
      | loadItem slot => simp only at hc ⊢; exact ⟨by omega, hc.2⟩
      | loadHead2 y => simp only at hc ⊢; exact ⟨by omega, hc.2⟩
      | storeHead y hh => simp only at hc ⊢; exact ⟨by omega, hc.2⟩
      | _ => exact hc
    · simp [delivered_append, hd]

theorem micro_cons_inv {N : Nat} {s : Sys} (h : Inv N s) (tf : Bool) :
    ∃ s', micro s (.cons tf) = .ok s' ∧ Inv N s' ∧ s'.p = s.p ∧
      Spec.accepted s'.log = Spec.accepted s.log ∧
      s'.q.tail = s.q.tail ∧ Spec.queued s'.log ≤ Spec.queued s.log := by
  obtain ⟨q, p, c, log⟩ := s
  obtain ⟨hpre, hrep, hp, hc⟩ := h
  have hq : ((Spec.accepted log).drop (Spec.delivered log).length).length = Spec.queued log := by
    simp [Spec.queued]
  simp only at hpre hrep hp hc
  have hempty : Spec.queued log = 0 ↔ q.head = q.tail := by
    rw [hrep.empty_iff, ← hq]; exact List.length_eq_zero_iff
  have hret : ∀ c', Inv N { q := q, p := p, c := c', log := log } →
      (c' = .idle → Inv N { q := q, p := p, c := .idle, log := log ++ [.getRet false NULL] } ∧
        Spec.accepted (log ++ [.getRet false NULL]) = Spec.accepted log ∧
        Spec.queued (log ++ [.getRet false NULL]) ≤ Spec.queued log) := by
    intro c' hi hc'
    have h1 : Spec.accepted [Ev.getRet false NULL] = [] := rfl
    have h2 : Spec.delivered [Ev.getRet false NULL] = [] := rfl
    have hqn := queued_nil log _ h1 h2
    refine ⟨⟨?_, ?_, ?_, trivial⟩, by simp [accepted_append, h1], Nat.le_of_eq hqn⟩
    · simpa [accepted_append, delivered_append, h1, h2] using hi.pre
    · simpa [accepted_append, delivered_append, h1, h2] using hi.rep
    · simp only [hqn]; exact hp
  have hidle : Inv N { q := q, p := p, c := .idle, log := log } := ⟨hpre, hrep, hp, trivial⟩
  obtain ⟨r1, r2, r3⟩ := hret .idle hidle rfl
  cases c with
  | idle => exact ⟨_, rfl, ⟨hpre, hrep, hp, trivial⟩, rfl, rfl, rfl, Nat.le_refl _⟩
  | compare b =>
    cases b with
    | false => exact ⟨_, rfl, ⟨hpre, hrep, hp, rfl⟩, rfl, rfl, rfl, Nat.le_refl _⟩
    | true =>
      refine ⟨_, rfl, ⟨hpre, hrep, hp, ?_⟩, rfl, rfl, rfl, Nat.le_refl _⟩
      simp only
      intro hne
      have : ¬ Spec.queued log = 0 := fun e => hne (hempty.1 e).symm
      omega
  | loadTail hh =>
    simp only at hc
    simp only [micro]
    by_cases he : hh = q.tail
    · simp only [he, if_true]
      exact ⟨_, rfl, r1, rfl, r2, rfl, r3⟩
    · simp only [he, if_false]
      refine ⟨_, rfl, ⟨hpre, hrep, hp, ?_⟩, rfl, rfl, rfl, Nat.le_refl _⟩
      simp only
      have : ¬ Spec.queued log = 0 := fun e => he (by rw [hc]; exact hempty.1 e)
      omega
  | loadHead t =>
    simp only at hc
    simp only [micro]
    by_cases he : q.head = t
    · simp only [he, if_true]
      exact ⟨_, rfl, r1, rfl, r2, rfl, r3⟩
    · simp only [he, if_false]
      exact ⟨_, rfl, ⟨hpre, hrep, hp, hc (fun e => he e.symm)⟩, rfl, rfl, rfl, Nat.le_refl _⟩
  | loadSlot => exact ⟨_, rfl, ⟨hpre, hrep, hp, ⟨hc, rfl⟩⟩, rfl, rfl, rfl, Nat.le_refl _⟩
  | loadItem slot =>
    obtain ⟨h1, rfl⟩ := hc
    refine ⟨{ q := q, p := p, c := .loadHead2 (q.store[q.head]'hrep.head_lt), log := log }, ?_,
      ⟨hpre, hrep, hp, ⟨h1, by simp⟩⟩, rfl, rfl, rfl, Nat.le_refl _⟩
    simp only [micro]; rw [ldN_ok hrep.head_lt]; rfl
  | loadHead2 x =>
    exact ⟨_, rfl, ⟨hpre, hrep, hp, ⟨hc.1, hc.2, rfl⟩⟩, rfl, rfl, rfl, Nat.le_refl _⟩
  | storeHead x hh =>
    obtain ⟨h1, h2, rfl⟩ := hc
    simp only [micro]
    have ha : Spec.accepted [Ev.getRet true x] = [] := rfl
    have hd : Spec.delivered [Ev.getRet true x] = [x] := rfl
    obtain ⟨y, t, hyt⟩ : ∃ y t, (Spec.accepted log).drop (Spec.delivered log).length = y :: t := by
      cases hl : (Spec.accepted log).drop (Spec.delivered log).length with
      | nil => rw [hl] at hq; simp at hq; omega
      | cons y t => exact ⟨y, t, rfl⟩
    rw [hyt] at hrep hpre
    have hxy : x = y := by
      have := hrep.front
      rw [h2] at this; exact Option.some.inj this
    subst hxy
    have hdrop : (Spec.accepted log).drop ((Spec.delivered log).length + 1) = t := by
      rw [← List.drop_drop, hyt]; rfl
    have hqn : Spec.queued (log ++ [.getRet true x]) = Spec.queued log - 1 := by
      simp [Spec.queued, accepted_append, delivered_append, ha, hd]; omega
    refine ⟨_, rfl, ⟨?_, ?_, ?_, trivial⟩, rfl, ?_, rfl, by simp only [hqn]; omega⟩
    · simp only [accepted_append, delivered_append, ha, hd, List.append_nil, List.length_append,
        List.length_cons, List.length_nil, Nat.zero_add]
      rw [hdrop, List.append_assoc]
      exact hpre
    · simp only [accepted_append, delivered_append, ha, hd, List.append_nil, List.length_append,
        List.length_cons, List.length_nil, Nat.zero_add]
      rw [hdrop]; exact hrep.pop
    · simp only [hqn]
      cases p with
      | loadSlot y nx => simp only at hp ⊢; exact ⟨hp.1, by omega⟩
      | storeItem y nx slot => simp only at hp ⊢; exact ⟨hp.1, by omega, hp.2.2⟩
      | storeTail y nx => simp only at hp ⊢; exact ⟨hp.1, by omega, hp.2.2⟩
      | _ => exact hp
    · simp [accepted_append, ha]

theorem micro_inv {N : Nat} {s : Sys} (h : Inv N s) (a : Act) :
    ∃ s', micro s a = .ok s' ∧ Inv N s' := by
  cases a with
  | prod item => obtain ⟨s', h1, h2, _⟩ := micro_prod_inv h item; exact ⟨s', h1, h2⟩
  | cons tf => obtain ⟨s', h1, h2, _⟩ := micro_cons_inv h tf; exact ⟨s', h1, h2⟩

theorem exec_inv {N : Nat} (as : List Act) : ∀ {s : Sys}, Inv N s →
    ∃ s', exec s as = .ok s' ∧ Inv N s' := by
  induction as with
  | nil => intro s h; exact ⟨s, rfl, h⟩
  | cons a as ih =>
    intro s h
    obtain ⟨s1, h1, h2⟩ := micro_inv h a
    obtain ⟨s2, g1, g2⟩ := ih h2
    exact ⟨s2, by simp [exec, h1, g1], g2⟩

theorem start_inv {q0 : Spsc} {store : List Val} {N : Nat} (hok : (init q0 store N).1 = .none)
    (halloc : N ≤ store.length) : Inv N (Sys.start (init q0 store N).2) := by
  have h := init_rep hok halloc
  exact ⟨rfl, h, trivial, trivial⟩

theorem exec_append (as bs : List Act) : ∀ (s : Sys),
    exec s (as ++ bs) = (do let s' ← exec s as; exec s' bs) := by
  induction as with
  | nil => intro s; rfl
  | cons a as ih =>
    intro s
    simp only [List.cons_append, exec]
    cases micro s a with
    | error e => rfl
    | ok s1 => simp only [C.ok_bind]; exact ih s1

end Mu.Spsc
