import Verif.Lemmas.SchedProps

/-! # How long a pending task has to wait -/

namespace Mu.Sched
open Spec

variable {T R : Type} {cfg : Cfg T R}

/-! ## The position of an entry in the sorted list -/

theorem all_later {x : Entry T} {d : Entry T} {ds : List (Entry T)}
    (ho : Ordered cfg (x.time :: (d :: ds).map (·.time))) (hs : Sorted cfg (d :: ds))
    (hx : cfg.precedes x.time d.time = true) :
    ∀ e ∈ d :: ds, cfg.precedes x.time e.time = true := by
  have hs' := List.pairwise_cons.mp hs
  intro e he
  rcases List.mem_cons.mp he with rfl | he
  · exact hx
  · exact ho.lt_of (b := d.time) (by simp) (by simp)
      (List.mem_cons_of_mem _ (List.mem_map_of_mem (List.mem_cons_of_mem _ he))) hx (hs'.1 e he)

theorem ordered_tail {x : Entry T} {d : Entry T} {ds : List (Entry T)}
    (ho : Ordered cfg (x.time :: (d :: ds).map (·.time))) :
    Ordered cfg (x.time :: ds.map (·.time)) :=
  ho.mono (by intro y hy; simp only [List.map_cons, List.mem_cons] at hy ⊢; tauto)

theorem ins_get_self {x : Entry T} : ∀ {D : List (Entry T)},
    Ordered cfg (x.time :: D.map (·.time)) → Sorted cfg D →
    (ins cfg x D)[D.countP (fun d => !cfg.precedes x.time d.time)]? = some x := by
  intro D
  induction D with
  | nil => intro _ _; simp [ins]
  | cons d ds ih =>
    intro ho hs
    simp only [ins]
    split
    · rename_i hx
      have := all_later ho hs hx
      rw [List.countP_eq_zero.mpr (by intro e he; simp [this e he])]
      simp
    · rename_i hx
      rw [List.countP_cons_of_pos (by simpa using hx), List.getElem?_cons_succ]
      exact ih (ordered_tail ho) (List.pairwise_cons.mp hs).2

theorem ins_get_old {x : Entry T} : ∀ {D : List (Entry T)} {q : Nat} {e : Entry T},
    Ordered cfg (x.time :: D.map (·.time)) → Sorted cfg D → D[q]? = some e →
    (ins cfg x D)[q + if cfg.precedes x.time e.time then 1 else 0]? = some e := by
  intro D
  induction D with
  | nil => intro q e _ _ h; simp at h
  | cons d ds ih =>
    intro q e ho hs hq
    simp only [ins]
    split
    · rename_i hx
      have hl := all_later ho hs hx
      rw [if_pos (hl e (List.mem_of_getElem? hq)), List.getElem?_cons_succ, hq]
    · rename_i hx
      cases q with
      | zero =>
        simp only [List.getElem?_cons_zero, Option.some.injEq] at hq
        subst hq
        simp [hx]
      | succ q =>
        rw [List.getElem?_cons_succ] at hq
        have := ih (ordered_tail ho) (List.pairwise_cons.mp hs).2 hq
        rw [Nat.add_right_comm, List.getElem?_cons_succ]
        exact this

theorem rank_snoc_old {l : List (Entry T)} {x d : Entry T} {i : Nat} (hi : l[i]? = some d) :
    rank cfg (l ++ [x]) i = rank cfg l i + if cfg.precedes x.time d.time then 1 else 0 := by
  have hil : i < l.length := (List.getElem?_eq_some_iff.mp hi).1
  have hi' : (l ++ [x])[i]? = some d := by rw [List.getElem?_append_left hil, hi]
  unfold rank
  simp only [List.length_append, List.length_cons, List.length_nil, Nat.zero_add,
    List.range_succ, List.countP_append]
  congr 1
  · apply List.countP_congr
    intro j hj
    have hj : j < l.length := List.mem_range.mp hj
    simp only [goesBefore]
    rw [hi', hi, List.getElem?_append_left hj]
  · rw [List.countP_singleton]
    simp only [goesBefore, hi', List.getElem?_append_right (Nat.le_refl _), Nat.sub_self,
      List.getElem?_cons_zero]
    have : ¬ l.length < i := by omega
    simp [this]

theorem countP_range_get (l : List (Entry T)) (p : Entry T → Bool) :
    (List.range l.length).countP (fun j => match l[j]? with | some a => p a | none => false) =
      l.countP p := by
  induction l using List.reverseRecOn with
  | nil => rfl
  | append_singleton l x ih =>
    simp only [List.length_append, List.length_cons, List.length_nil, Nat.zero_add,
      List.range_succ, List.countP_append]
    rw [← ih]
    congr 1
    · apply List.countP_congr
      intro j hj
      have hj : j < l.length := List.mem_range.mp hj
      rw [List.getElem?_append_left hj]
    · simp [List.countP_singleton]

theorem rank_snoc_new {l : List (Entry T)} {x : Entry T}
    (ho : Ordered cfg (x.time :: l.map (·.time))) :
    rank cfg (l ++ [x]) l.length = l.countP (fun d => !cfg.precedes x.time d.time) := by
  unfold rank
  simp only [List.length_append, List.length_cons, List.length_nil, Nat.zero_add,
    List.range_succ, List.countP_append]
  rw [← countP_range_get]
  have hx : (l ++ [x])[l.length]? = some x := by simp
  have h2 : List.countP (goesBefore cfg (l ++ [x]) l.length) [l.length] = 0 := by
    rw [List.countP_singleton]
    simp [goesBefore, hx, ho.irrefl (a := x.time)]
  rw [h2, Nat.add_zero]
  apply List.countP_congr
  intro j hj
  have hj : j < l.length := List.mem_range.mp hj
  simp only [goesBefore]
  rw [hx, List.getElem?_append_left hj, List.getElem?_eq_getElem hj]
  have hm : l[j].time ∈ l.map (·.time) := List.mem_map_of_mem (List.getElem_mem hj)
  simp only [hj, decide_true, Bool.true_and, Bool.or_eq_true, Bool.not_eq_true']
  constructor
  · rintro (h | h)
    · exact ho.asymm _ (List.mem_cons_of_mem _ hm) _ (by simp) h
    · exact h
  · exact Or.inr

theorem sortD_rank : ∀ {l : List (Entry T)} {i : Nat} {d : Entry T},
    Ordered cfg (l.map (·.time)) → l[i]? = some d → (sortD cfg l)[rank cfg l i]? = some d := by
  intro l
  induction l using List.reverseRecOn with
  | nil => intro i d _ h; simp at h
  | append_singleton l x ih =>
    intro i d ho hi
    obtain ⟨ho1, ho2⟩ := Ordered.snoc ho
    have hs := sortD_sorted ho1
    rw [sortD_snoc]
    have hil : i < l.length + 1 := by
      have := (List.getElem?_eq_some_iff.mp hi).1; simpa using this
    by_cases hlt : i < l.length
    · rw [List.getElem?_append_left hlt] at hi
      rw [rank_snoc_old hi]
      exact ins_get_old ho2 hs (ih ho1 hi)
    · have : i = l.length := by omega
      subst this
      simp only [List.getElem?_append_right (Nat.le_refl _), Nat.sub_self,
        List.getElem?_cons_zero, Option.some.injEq] at hi
      subst hi
      rw [rank_snoc_new (ho.mono (by
        intro y hy
        simp only [List.map_append, List.mem_append, List.map_cons, List.map_nil,
          List.mem_singleton, List.mem_cons] at hy ⊢
        tauto)), ← (sortD_perm (cfg := cfg) l).countP_eq]
      exact ins_get_self ho2 hs

/-! ## Running a loop of steps -/

theorem lstep_done (now : T) (L : LSt T) :
    sels (lstep cfg now (fun L => ([], L)) L).1 = sels (lselect cfg now L).1 ∧
    immedTaken (lstep cfg now (fun L => ([], L)) L).1 =
      immedTaken (lselect cfg now L).1 ∧
    (lstep cfg now (fun L => ([], L)) L).2 = { (lselect cfg now L).2 with curr := NULL } := by
  unfold lstep
  by_cases hn : (lselect cfg now L).2.curr = NULL
  · simp [hn, sels, immedTaken]
  · simp [hn, sels, immedTaken]

/-- A step that finds an ISR task. -/
theorem lselect_irq (now : T) {L : LSt T} {t : Val} {r : List Val} (h : L.irq = t :: r) :
    lselect cfg now L = ([.sel .irq t], { L with irq := r, curr := t }) := by
  unfold lselect; rw [h]

theorem lselect_due (now : T) {L : LSt T} {d : Entry T} {ds : List (Entry T)} (h : L.irq = [])
    (hd : L.dq = d :: ds) (hdue : cfg.precedes now d.time = false) (hn : d.task ≠ NULL) :
    lselect cfg now L = ([.clock now, .sel (.deferred d.time) d.task],
      { L with dq := ds, curr := d.task }) := by
  unfold lselect
  rw [h, hd]
  simp [lfetch, hdue, hn]

theorem lselect_notdue (now : T) {L : LSt T} (h : L.irq = [])
    (hd : ∀ d ∈ L.dq, cfg.precedes now d.time = true) :
    lselect cfg now L = match L.immed with
      | t :: r => ([.clock now, .sel .immed t], { L with immed := r, curr := t })
      | [] => ([.clock now, .sel .idle L.idle], { L with curr := L.idle }) := by
  unfold lselect
  have : lfetch cfg now L.dq = (NULL, [.clock now], L.dq) := by
    cases hq : L.dq with
    | nil => rfl
    | cons d ds =>
      have := hd d (by simp [hq])
      simp [lfetch, this]
  rw [h, this]
  cases L.immed <;> rfl

theorem loop_cons (now : T) (ns : List T) (L : LSt T) :
    sels (lrun cfg L (loop (now :: ns))).1 = sels (lselect cfg now L).1 ++
      sels (lrun cfg { (lselect cfg now L).2 with curr := NULL } (loop ns)).1 ∧
    immedTaken (lrun cfg L (loop (now :: ns))).1 = immedTaken (lselect cfg now L).1 ++
      immedTaken (lrun cfg { (lselect cfg now L).2 with curr := NULL } (loop ns)).1 := by
  obtain ⟨h1, h2, h3⟩ := lstep_done (cfg := cfg) now L
  constructor
  · simp only [loop, lrun]
    rw [sels_append, h1, h3]
  · simp only [loop, lrun]
    have : ∀ a b : List (Ev T), immedTaken (a ++ b) = immedTaken a ++ immedTaken b := by
      intro a b; simp [immedTaken, List.filterMap_append]
    rw [this, h2, h3]

/-- Deferred entry `d` at position `r` of the sorted list, due throughout. -/
theorem loop_deferred : ∀ (ns : List T) (L : LSt T) (r : Nat) (d : Entry T),
    L.dq[r]? = some d → Sorted cfg L.dq → (∀ e ∈ L.dq, e.task ≠ NULL) →
    (∀ now ∈ ns, Ordered cfg (now :: L.dq.map (·.time)) ∧ cfg.precedes now d.time = false) →
    L.irq.length + r < ns.length →
    (sels (lrun cfg L (loop ns)).1)[L.irq.length + r]? = some (.deferred d.time, d.task) := by
  intro ns
  induction ns with
  | nil => intro L r d _ _ _ _ h; simp at h
  | cons now ns ih =>
    intro L r d hd hs hnn hdue hlen
    rw [(loop_cons now ns L).1]
    cases hi : L.irq with
    | cons t q =>
      rw [lselect_irq now hi]
      rw [hi] at hlen
      simp only [List.length_cons] at hlen ⊢
      have := ih { L with irq := q, curr := NULL } r d hd hs hnn
        (fun n hn => hdue n (List.mem_cons_of_mem _ hn)) (by simp only; omega)
      rw [show q.length + 1 + r = q.length + r + 1 by omega]
      simpa [sels] using this
    | nil =>
      rw [hi] at hlen
      simp only [List.length_cons, List.length_nil, Nat.zero_add] at hlen ⊢
      cases hq : L.dq with
      | nil => rw [hq] at hd; simp at hd
      | cons e es =>
        have hem : e ∈ L.dq := by simp [hq]
        have hs' := hs
        rw [hq] at hs'
        have hs2 := List.pairwise_cons.mp hs'
        obtain ⟨ho, hdd⟩ := hdue now (by simp)
        have hed : cfg.precedes d.time e.time = false := by
          rcases List.mem_cons.mp (hq ▸ List.mem_of_getElem? hd) with rfl | h
          · exact ho.irrefl (List.mem_cons_of_mem _ (List.mem_map_of_mem hem))
          · exact hs2.1 d h
        have hdm : d.time ∈ L.dq.map (·.time) := List.mem_map_of_mem (List.mem_of_getElem? hd)
        have hdu : cfg.precedes now e.time = false :=
          ho.negTrans _ (by simp) d.time (List.mem_cons_of_mem _ hdm) _
            (List.mem_cons_of_mem _ (List.mem_map_of_mem hem)) hdd hed
        rw [lselect_due now hi hq hdu (hnn e hem)]
        cases r with
        | zero =>
          rw [hq] at hd
          simp only [List.getElem?_cons_zero, Option.some.injEq] at hd
          subst hd
          simp [sels]
        | succ r =>
          rw [hq] at hd
          rw [List.getElem?_cons_succ] at hd
          have := ih { L with dq := es, curr := NULL } r d hd hs2.2
            (fun x hx => hnn x (by rw [hq]; exact List.mem_cons_of_mem _ hx))
            (fun n hn => by
              obtain ⟨a, b⟩ := hdue n (List.mem_cons_of_mem _ hn)
              refine ⟨a.mono ?_, b⟩
              intro y hy
              simp only [hq, List.map_cons, List.mem_cons] at hy ⊢
              tauto)
            (by simp only [hi, List.length_nil]; omega)
          simp only [hi, List.length_nil, Nat.zero_add] at this
          simpa [sels, hi] using this

/-- Immediate task at position `k`, constant clock reading. -/
theorem loop_immed (now : T) : ∀ (n : Nat) (L : LSt T) (k : Nat) (t : Val),
    L.immed[k]? = some t → Sorted cfg L.dq → (∀ e ∈ L.dq, e.task ≠ NULL) →
    Ordered cfg (now :: L.dq.map (·.time)) →
    L.irq.length + dueCount cfg now L.dq + k < n →
    (sels (lrun cfg L (loop (List.replicate n now))).1)[L.irq.length + dueCount cfg now L.dq + k]? =
      some (.immed, t) := by
  intro n
  induction n with
  | zero => intro L k t _ _ _ _ h; omega
  | succ n ih =>
    intro L k t hk hs hnn ho hlen
    rw [List.replicate_succ, (loop_cons now _ L).1]
    cases hi : L.irq with
    | cons u q =>
      rw [lselect_irq now hi]
      rw [hi] at hlen
      simp only [List.length_cons] at hlen ⊢
      have := ih { L with irq := q, curr := NULL } k t hk hs hnn ho (by simp only; omega)
      rw [show q.length + 1 + dueCount cfg now L.dq + k = q.length + dueCount cfg now L.dq + k + 1
        by omega]
      simpa [sels] using this
    | nil =>
      rw [hi] at hlen
      simp only [List.length_nil, Nat.zero_add] at hlen ⊢
      by_cases hdue : ∀ d ∈ L.dq, cfg.precedes now d.time = true
      · have h0 : dueCount cfg now L.dq = 0 :=
          List.countP_eq_zero.mpr (by intro d hd; simp [hdue d hd])
        rw [lselect_notdue now hi hdue, h0]
        rw [h0] at hlen
        cases hm : L.immed with
        | nil => rw [hm] at hk; simp at hk
        | cons u r =>
          rw [hm] at hk
          cases k with
          | zero =>
            simp only [List.getElem?_cons_zero, Option.some.injEq] at hk
            subst hk
            simp [sels]
          | succ k =>
            rw [List.getElem?_cons_succ] at hk
            have := ih { L with immed := r, curr := NULL } k t hk hs hnn ho
              (by simp only [hi, h0, List.length_nil]; omega)
            simp only [hi, h0, List.length_nil, Nat.zero_add] at this ⊢
            simpa [sels, hi] using this
      · cases hq : L.dq with
        | nil => rw [hq] at hdue; simp at hdue
        | cons e es =>
          have hem : e ∈ L.dq := by simp [hq]
          have hs' := hs
          rw [hq] at hs'
          have hs2 := List.pairwise_cons.mp hs'
          have hdu : cfg.precedes now e.time = false := by
            by_contra hc
            apply hdue
            have hc : cfg.precedes now e.time = true := by simpa using hc
            intro d hd
            rw [hq] at hd
            rcases List.mem_cons.mp hd with rfl | hd
            · exact hc
            · exact ho.lt_of (b := e.time) (by simp)
                (List.mem_cons_of_mem _ (List.mem_map_of_mem hem))
                (List.mem_cons_of_mem _ (List.mem_map_of_mem (by rw [hq]; exact List.mem_cons_of_mem _ hd)))
                hc (hs2.1 d hd)
          have hcnt : dueCount cfg now (e :: es) = dueCount cfg now es + 1 := by
            simp [dueCount, hdu]
          rw [lselect_due now hi hq hdu (hnn e hem), hcnt]
          rw [hq, hcnt] at hlen
          have := ih { L with dq := es, curr := NULL } k t hk hs2.2
            (fun x hx => hnn x (by rw [hq]; exact List.mem_cons_of_mem _ hx))
            (ho.mono (by
              intro y hy
              simp only [hq, List.map_cons, List.mem_cons] at hy ⊢
              tauto))
            (by simp only [hi, List.length_nil]; omega)
          simp only [hi, List.length_nil, Nat.zero_add] at this
          rw [show dueCount cfg now es + 1 + k = dueCount cfg now es + k + 1 by omega]
          simpa [sels, hi] using this

/-- ISR task at position `k`: any clock, any deferred tasks. -/
theorem loop_irq : ∀ (ns : List T) (L : LSt T) (k : Nat) (t : Val),
    L.irq[k]? = some t → k < ns.length →
    (sels (lrun cfg L (loop ns)).1)[k]? = some (.irq, t) := by
  intro ns
  induction ns with
  | nil => intro L k t _ h; simp at h
  | cons now ns ih =>
    intro L k t hk hlen
    rw [(loop_cons now ns L).1]
    cases hi : L.irq with
    | nil => rw [hi] at hk; simp at hk
    | cons u r =>
      rw [lselect_irq now hi]
      rw [hi] at hk
      cases k with
      | zero =>
        simp only [List.getElem?_cons_zero, Option.some.injEq] at hk
        subst hk
        simp [sels]
      | succ k =>
        rw [List.getElem?_cons_succ] at hk
        have := ih { L with irq := r, curr := NULL } k t hk (by simpa using hlen)
        simpa [sels] using this

/-- The end of the selection. -/
def immedOrIdle (pre : List (Ev T)) (dq : List (Entry T)) (L : LSt T) : List (Ev T) × LSt T :=
  match L.immed with
  | t :: r => (pre ++ [.sel .immed t], { L with dq := dq, immed := r, curr := t })
  | [] => (pre ++ [.sel .idle L.idle], { L with dq := dq, curr := L.idle })

/-- Whatever the clock reads, the immediate task at position `k` is reached. -/
theorem loop_bound : ∀ (ns : List T) (L : LSt T) (k : Nat) (t : Val),
    L.immed[k]? = some t → L.irq.length + L.dq.length + k < ns.length →
    (immedTaken (lrun cfg L (loop ns)).1)[k]? = some t := by
  intro ns
  induction ns with
  | nil => intro L k t _ h; simp at h
  | cons now ns ih =>
    intro L k t hk hlen
    rw [(loop_cons now ns L).2]
    simp only [List.length_cons] at hlen
    cases hi : L.irq with
    | cons u r =>
      rw [lselect_irq now hi]
      rw [hi] at hlen
      simp only [List.length_cons] at hlen
      have := ih { L with irq := r, curr := NULL } k t hk (by simp only; omega)
      simpa [immedTaken] using this
    | nil =>
      rw [hi] at hlen
      simp only [List.length_nil, Nat.zero_add] at hlen
      have himm : ∀ (dq : List (Entry T)) (pre : List (Ev T)), immedTaken pre = [] →
          dq.length ≤ L.dq.length →
          (immedTaken (immedOrIdle pre dq L).1 ++
            immedTaken (lrun cfg { (immedOrIdle pre dq L).2 with curr := NULL } (loop ns)).1)[k]? =
            some t := by
        unfold immedOrIdle
        intro dq pre hpre hdq
        cases hm : L.immed with
        | nil => rw [hm] at hk; simp at hk
        | cons u r =>
          rw [hm] at hk
          have hp : immedTaken (pre ++ [.sel .immed u]) = [u] := by
            have : immedTaken (pre ++ [.sel .immed u]) = immedTaken pre ++ [u] := by
              simp [immedTaken, List.filterMap_append]
            rw [this, hpre]; rfl
          simp only [hp]
          cases k with
          | zero =>
            simp only [List.getElem?_cons_zero, Option.some.injEq] at hk
            subst hk
            simp
          | succ k =>
            rw [List.getElem?_cons_succ] at hk
            have := ih { L with dq := dq, immed := r, curr := NULL } k t hk
              (by simp only [hi, List.length_nil]; omega)
            simpa using this
      unfold lselect
      rw [hi]
      obtain ⟨u', r', hm'⟩ : ∃ u r, L.immed = u :: r := by
        cases hm : L.immed with
        | nil => rw [hm] at hk; simp at hk
        | cons u r => exact ⟨u, r, rfl⟩
      cases hq : L.dq with
      | nil =>
        have := himm [] [.clock now] rfl (by simp)
        simpa [lfetch, hi, immedOrIdle, hm'] using this
      | cons d ds =>
        simp only [lfetch]
        by_cases hp : cfg.precedes now d.time = false
        · simp only [hp, if_true]
          by_cases hn : d.task = NULL
          · simp only [hn, ne_eq, not_true, if_false]
            have := himm ds [.clock now, .sel (.deferred d.time) NULL] rfl (by simp [hq])
            simpa [hi, immedOrIdle, hm'] using this
          · simp only [ne_eq, hn, not_false_eq_true, if_true]
            rw [hq] at hlen
            simp only [List.length_cons] at hlen
            have := ih { L with dq := ds, curr := NULL } k t hk
              (by simp only [hi, List.length_nil]; omega)
            simpa [immedTaken, hi] using this
        · simp only [if_neg hp, ne_eq, not_true, if_false]
          have := himm (d :: ds) [.clock now] rfl (by simp [hq])
          simpa [hi, immedOrIdle, hm'] using this

/-! ## Wrapping clocks -/

theorem wrap_iff {w : Nat} (hw : 0 < w) {base a b : BitVec w} (ha : ticks base a < 2 ^ (w - 1))
    (hb : ticks base b < 2 ^ (w - 1)) :
    wrapPrecedes w a b = true ↔ ticks base a < ticks base b := by
  unfold wrapPrecedes
  unfold ticks at *
  have e : a - b = (a - base) - (b - base) := by
    apply BitVec.eq_of_toNat_eq
    simp only [BitVec.toNat_sub]
    have h1 := a.isLt
    have h2 := b.isLt
    have h3 := base.isLt
    generalize 2 ^ w = m at *
    generalize a.toNat = x at *
    generalize b.toNat = y at *
    generalize base.toNat = z at *
    have r : ∀ p q : Nat, p < m → q < m → (m - q + p) % m = if q ≤ p then p - q else m - q + p := by
      intro p q hp hq
      split
      · rw [Nat.mod_eq_sub_mod (by omega), Nat.mod_eq_of_lt (by omega)]; omega
      · exact Nat.mod_eq_of_lt (by omega)
    rw [r x z h1 h3, r y z h2 h3, r x y h1 h2]
    rw [r _ _ (by split <;> omega) (by split <;> omega)]
    split <;> split <;> split <;> split <;> omega
  rw [e]
  generalize a - base = x at *
  generalize b - base = y at *
  have h2w : 2 ^ w = 2 * 2 ^ (w - 1) := by
    conv => lhs; rw [show w = (w - 1) + 1 by omega]
    rw [Nat.pow_succ, Nat.mul_comm]
  rw [decide_eq_true_eq, BitVec.toInt_eq_toNat_cond, BitVec.toNat_sub]
  have hx := x.isLt
  have hy := y.isLt
  rw [h2w] at *
  generalize 2 ^ (w - 1) = m at *
  generalize x.toNat = p at *
  generalize y.toNat = q at *
  have r : (2 * m - q + p) % (2 * m) = if q ≤ p then p - q else 2 * m - q + p := by
    split
    · rw [Nat.mod_eq_sub_mod (by omega), Nat.mod_eq_of_lt (by omega)]; omega
    · exact Nat.mod_eq_of_lt (by omega)
  rw [r]
  split <;> split <;> omega

theorem wrap_ordered {w : Nat} (hw : 0 < w) {cfg : Cfg (BitVec w) R}
    (hc : cfg.precedes = wrapPrecedes w) {base : BitVec w} {l : List (BitVec w)}
    (hl : InWindow base l) : Ordered cfg l := by
  have key : ∀ a ∈ l, ∀ b ∈ l, cfg.precedes a b = true ↔ ticks base a < ticks base b := by
    intro a ha b hb
    rw [hc]; exact wrap_iff hw (hl a ha) (hl b hb)
  have keyf : ∀ a ∈ l, ∀ b ∈ l, cfg.precedes a b = false ↔ ¬ ticks base a < ticks base b := by
    intro a ha b hb
    rw [← key a ha b hb, Bool.not_eq_true]
  refine ⟨?_, ?_⟩
  · intro a ha b hb h
    rw [key a ha b hb] at h
    rw [keyf b hb a ha]
    omega
  · intro a ha b hb c hc h1 h2
    rw [keyf _ ha _ hb] at h1
    rw [keyf _ hb _ hc] at h2
    rw [keyf _ ha _ hc]
    omega

theorem windowed_proper {w : Nat} (hw : 0 < w) {cfg : Cfg (BitVec w) R}
    (hc : cfg.precedes = wrapPrecedes w) (h : List (Ev (BitVec w))) (σ : St (BitVec w))
    (ha : Always windowed σ h) : Always (proper cfg) σ h := by
  refine always_mono ?_ h σ ha
  intro σ e he
  cases e with
  | clock n => obtain ⟨b, hb⟩ := he; exact wrap_ordered hw hc hb
  | deferRet t time e =>
    cases e with
    | none => obtain ⟨⟨b, hb⟩, hn⟩ := he; exact ⟨wrap_ordered hw hc hb, hn⟩
    | _ => trivial
  | _ => trivial

end Mu.Sched
