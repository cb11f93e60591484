import Verif.Props.Sched

/-! # C112: waiting under load; C113: a due deferred task under load

C30 bounds the waiting time of a task when nothing else is scheduled meanwhile.  Here anything may
happen: tasks and interrupts go on scheduling other tasks. -/

namespace Mu.Sched
open Spec

variable {T R : Type} [DecidableEq T] {cfg : Cfg T R}

theorem isr_only : ∀ (b : List (Ev T)) (σ : St T), Always (legal cfg) σ b → .resetRet ∉ b →
    ∀ k, k < σ.irq.length → (isrTaken b).length ≤ k →
      sels b = (isrTaken b).map fun t => (Src.irq, t) := by
  intro b
  induction b with
  | nil => intro σ _ _ k _ _; simp [sels, isrTaken]
  | cons e b ih =>
    intro σ hl hn k hk ht
    have hn' : Ev.resetRet ∉ b := fun hc => hn (List.mem_cons_of_mem _ hc)
    have hl1 := hl.1
    cases e with
    | sel src u =>
      cases src with
      | irq =>
        have ht' : (isrTaken b).length + 1 ≤ k := by simpa [isrTaken] using ht
        have := ih _ hl.2 hn' (k - 1) (by simp only [next, List.length_tail]; omega) (by omega)
        simpa [sels, isrTaken] using this
      | deferred time => have h0 := hl1.2.1; rw [h0] at hk; cases hk
      | immed => have h0 := hl1.2.1; rw [h0] at hk; cases hk
      | idle => have h0 := hl1.2.1; rw [h0] at hk; cases hk
    | resetRet => exact absurd (by simp) hn
    | isrRet u e =>
      cases e with
      | none =>
        have := ih _ hl.2 hn' k (by simp only [next, List.length_append]; omega)
          (by simpa [isrTaken] using ht)
        simpa [sels, isrTaken] using this
      | _ =>
        have := ih _ hl.2 hn' k (by simpa [next] using hk) (by simpa [isrTaken] using ht)
        simpa [sels, isrTaken] using this
    | immedRet u e =>
      have := ih _ hl.2 hn' k (by cases e <;> simpa [next] using hk) (by simpa [isrTaken] using ht)
      simpa [sels, isrTaken] using this
    | deferRet u _ e =>
      have := ih _ hl.2 hn' k (by cases e <;> simpa [next] using hk) (by simpa [isrTaken] using ht)
      simpa [sels, isrTaken] using this
    | _ =>
      have := ih _ hl.2 hn' k (by simpa [next] using hk) (by simpa [isrTaken] using ht)
      simpa [sels, isrTaken] using this

/-- C112.  An interrupt task with `k` interrupt tasks ahead of it: whatever happens until it is
taken (`b`), steps take nothing but those `k` interrupt tasks. -/
theorem C112_isr_wait (hw : cfg.Wf) {s : Sched T} {a b : List (Ev T)} (hr : Reach cfg s (a ++ b))
    (hn : .resetRet ∉ b) {k : Nat} (hk : k < (books a).irq.length)
    (hwait : (isrTaken b).length ≤ k) :
    sels b = (((books a).irq.take k).take (isrTaken b).length).map (fun t => (Src.irq, t)) ∧
      (sels b).length ≤ k := by
  obtain ⟨L, hi⟩ := reach_inv hw hr
  have hl := ((always_append _ _ _).mp hi.legal).2
  have h1 := isr_only b (books a) hl hn k hk hwait
  have h2 := isr_fifo b (books a) hl hn
  have h3 : isrTaken b = ((books a).irq.take k).take (isrTaken b).length := by
    have h4 : (books a).irq.take (isrTaken b).length = isrTaken b := by
      have := congrArg (List.take (isrTaken b).length) h2
      rw [List.take_left] at this
      rw [List.take_append_of_le_length (by omega)] at this
      exact this
    rw [List.take_take, Nat.min_eq_left hwait, h4]
  refine ⟨?_, by rw [h1]; simpa using hwait⟩
  rw [h1, ← h3]

theorem immed_only : ∀ (b : List (Ev T)) (σ : St T), Always (legal cfg) σ b → .resetRet ∉ b →
    ∀ k, k < σ.immed.length → (immedTaken b).length ≤ k →
      (sels b).length ≤ σ.irq.length + (isrAccepted b).length + σ.pend.length +
        (deferAccepted b).length + (immedTaken b).length ∧
      ∀ t, (Src.idle, t) ∉ sels b := by
  intro b
  induction b with
  | nil => intro σ _ _ k _ _; simp [sels]
  | cons e b ih =>
    intro σ hl hn k hk ht
    have hn' : Ev.resetRet ∉ b := fun hc => hn (List.mem_cons_of_mem _ hc)
    have hl1 := hl.1
    cases e with
    | sel src u =>
      cases src with
      | irq =>
        have h0 : σ.irq ≠ [] := by intro h0; have := hl1.2; rw [h0] at this; cases this
        have h0' := List.length_pos_iff.mpr h0
        have := ih _ hl.2 hn' k (by simpa [next] using hk) (by simpa [immedTaken] using ht)
        simp only [next, List.length_tail] at this
        obtain ⟨g1, g2⟩ := this
        refine ⟨?_, by simpa [sels] using g2⟩
        simp only [sels, isrAccepted, deferAccepted, immedTaken, List.filterMap_cons,
          List.length_cons] at g1 ⊢
        omega
      | deferred time =>
        have h0 := List.length_erase_of_mem hl1.2.2.1
        have h0' := List.length_pos_of_mem hl1.2.2.1
        have := ih _ hl.2 hn' k (by simpa [next] using hk) (by simpa [immedTaken] using ht)
        simp only [next] at this
        obtain ⟨g1, g2⟩ := this
        refine ⟨?_, by simpa [sels] using g2⟩
        simp only [sels, isrAccepted, deferAccepted, immedTaken, List.filterMap_cons,
          List.length_cons] at g1 ⊢
        omega
      | immed =>
        have ht' : (immedTaken b).length + 1 ≤ k := by simpa [immedTaken] using ht
        have := ih _ hl.2 hn' (k - 1) (by simp only [next, List.length_tail]; omega) (by omega)
        simp only [next] at this
        obtain ⟨g1, g2⟩ := this
        refine ⟨?_, by simpa [sels] using g2⟩
        simp only [sels, isrAccepted, deferAccepted, immedTaken, List.filterMap_cons,
          List.length_cons] at g1 ⊢
        omega
      | idle => have h0 := hl1.2.2.1; rw [h0] at hk; cases hk
    | resetRet => exact absurd (by simp) hn
    | isrRet u e =>
      have := ih _ hl.2 hn' k (by cases e <;> simpa [next] using hk)
        (by simpa [immedTaken] using ht)
      obtain ⟨g1, g2⟩ := this
      refine ⟨?_, by simpa [sels] using g2⟩
      cases e <;>
        simp only [next, sels, isrAccepted, deferAccepted, immedTaken, List.filterMap_cons,
          List.length_cons, List.length_append, List.length_nil] at g1 ⊢ <;> omega
    | immedRet u e =>
      have := ih _ hl.2 hn' k (by
          cases e <;> simp only [next, List.length_append] <;> omega)
        (by simpa [immedTaken] using ht)
      obtain ⟨g1, g2⟩ := this
      refine ⟨?_, by simpa [sels] using g2⟩
      cases e <;>
        simp only [next, sels, isrAccepted, deferAccepted, immedTaken, List.filterMap_cons] at g1 ⊢ <;>
        omega
    | deferRet u _ e =>
      have := ih _ hl.2 hn' k (by cases e <;> simpa [next] using hk)
        (by simpa [immedTaken] using ht)
      obtain ⟨g1, g2⟩ := this
      refine ⟨?_, by simpa [sels] using g2⟩
      cases e <;>
        simp only [next, sels, isrAccepted, deferAccepted, immedTaken, List.filterMap_cons,
          List.length_cons, List.length_append, List.length_nil] at g1 ⊢ <;> omega
    | removeRet u e =>
      have := ih _ hl.2 hn' k (by simpa [next] using hk) (by simpa [immedTaken] using ht)
      obtain ⟨g1, g2⟩ := this
      refine ⟨?_, by simpa [sels] using g2⟩
      have h0 := List.length_filter_le (fun e : Entry T => decide (e.task ≠ u)) σ.pend
      simp only [next, sels, isrAccepted, deferAccepted, immedTaken, List.filterMap_cons] at g1 ⊢
      omega
    | _ =>
      have := ih _ hl.2 hn' k (by simpa [next] using hk) (by simpa [immedTaken] using ht)
      obtain ⟨g1, g2⟩ := this
      refine ⟨?_, by simpa [sels] using g2⟩
      simp only [next, sels, isrAccepted, deferAccepted, immedTaken, List.filterMap_cons] at g1 ⊢
      omega

/-- C112.  An immediate task with `k` immediate tasks ahead of it: until it is taken, the number of
tasks taken before it is at most `k`, plus the interrupt tasks and deferred tasks queued at the
beginning, plus those that are accepted in the meantime; immediate tasks scheduled in the meantime
do not delay it, and the idle task is not used. -/
theorem C112_immed_wait (hw : cfg.Wf) {s : Sched T} {a b : List (Ev T)} (hr : Reach cfg s (a ++ b))
    (hn : .resetRet ∉ b) {k : Nat} (hk : k < (books a).immed.length)
    (hwait : (immedTaken b).length ≤ k) :
    (sels b).length ≤ k + (books a).irq.length + (isrAccepted b).length +
      (books a).pend.length + (deferAccepted b).length ∧ ∀ t, (Src.idle, t) ∉ sels b := by
  obtain ⟨L, hi⟩ := reach_inv hw hr
  have hl := ((always_append _ _ _).mp hi.legal).2
  obtain ⟨h1, h2⟩ := immed_only b (books a) hl hn k hk hwait
  exact ⟨by omega, h2⟩

/-- A main loop in which, before every step, an interrupt schedules the same task `t`. -/
def Spec.flood (t : Val) : List T → Prog T R
  | [] => .done
  | now :: ns => .fromIsr t (.step now .done (flood t ns))

theorem lrun_flood (hq : 2 ≤ cfg.maxIrq) (t : Val) (ht : t ≠ NULL) : ∀ (ns : List T) (L : LSt T),
    L.irq = [] →
    sels (lrun cfg L (flood t ns)).1 = List.replicate ns.length (Src.irq, t) ∧
    (lrun cfg L (flood t ns)).2.immed = L.immed ∧ (lrun cfg L (flood t ns)).2.dq = L.dq := by
  intro ns
  induction ns with
  | nil => intro L _; simp [flood, lrun, sels]
  | cons n ns ih =>
    intro L hL
    have h1 : L.irq.length < cfg.maxIrq - 1 := by rw [hL]; simp only [List.length_nil]; omega
    have h2 : lisr cfg L t = (.none, { L with irq := [t] }) := by
      rw [lisr, if_pos h1, hL, List.nil_append]
    have h3 : lstep cfg n (fun L => ([], L)) { L with irq := [t] } =
        ([.stepEnter, .sel .irq t, .called t, .stepRet], { L with irq := [], curr := NULL }) := by
      simp [lstep, lselect, ht]
    obtain ⟨i1, i2, i3⟩ := ih { L with irq := [], curr := NULL } rfl
    simp only [flood, lrun, h2, h3]
    refine ⟨?_, i2, i3⟩
    simp only [sels, List.filterMap_cons, List.cons_append, List.nil_append] at i1 ⊢
    rw [i1]; rfl

/-- C112.  There is no bound that does not count the interrupt tasks accepted in the meantime: if an
interrupt schedules a task before every step, then for as many steps as one likes steps take only
that task, and whatever is in the immediate queue and among the deferred tasks, due or not, stays
there. -/
theorem C112_starvation (hw : cfg.Wf) {s : Sched T} {h : List (Ev T)} (hr : Reach cfg s h)
    (hq : (books h).irq = []) {t : Val} (ht : t ≠ NULL) (nows : List T) :
    ∃ tr s', run cfg s (flood t nows) = .ok (tr, s') ∧
      sels tr = List.replicate nows.length (.irq, t) ∧
      (books (h ++ tr)).immed = (books h).immed ∧
      (books (h ++ tr)).pend.Perm (books h).pend := by
  obtain ⟨L, hi⟩ := reach_inv hw hr
  obtain ⟨s', e1, hi'⟩ := hi.run hw (flood t nows)
  obtain ⟨k, hk, hk'⟩ := hw.irq
  have h2 : 2 ≤ cfg.maxIrq := by
    rw [hk']; calc 2 = 2 ^ 1 := rfl
      _ ≤ 2 ^ k := Nat.pow_le_pow_right (by decide) hk
  obtain ⟨g1, g2, g3⟩ := lrun_flood h2 t ht nows L (by rw [← hi.sim.irq]; exact hq)
  refine ⟨_, s', e1, g1, ?_, ?_⟩
  · rw [hi'.sim.immed, g2, hi.sim.immed]
  · have p1 := hi'.sim.dq
    rw [g3] at p1
    exact p1.symm.trans hi.sim.dq

/-! ## C113 -/

/-- The clock readings of a trace. -/
def Spec.readings (tr : List (Ev T)) : List T :=
  tr.filterMap fun | .clock n => some n | _ => none

/-- Those entries of `l` that are to be run before an entry for time `time` scheduled after them:
the ones that are not later. -/
def Spec.notLater (cfg : Cfg T R) (time : T) (l : List (Entry T)) : List (Entry T) :=
  l.filter fun e => !cfg.precedes time e.time

/-- Those entries of `l` that are to be run before an entry for time `time` scheduled before them:
the ones that are strictly earlier. -/
def Spec.earlier (cfg : Cfg T R) (time : T) (l : List (Entry T)) : List (Entry T) :=
  l.filter fun e => cfg.precedes e.time time

theorem deferred_only (d : Entry T) : ∀ (b : List (Ev T)) (σ : St T) (p q : List (Entry T)),
    Always (legal cfg) σ b → Always (legalTime cfg) σ b → Always (proper cfg) σ b →
    Ordered cfg (σ.pend.map (·.time)) → σ.pend = p ++ d :: q →
    .resetRet ∉ b → (∀ e, .removeRet d.task e ∉ b) → d ∉ deferTaken b →
    (∀ n, σ.now = some n → cfg.precedes n d.time = false) →
    (∀ n ∈ readings b, cfg.precedes n d.time = false) →
    (sels b).length ≤ σ.irq.length + (isrAccepted b).length + (notLater cfg d.time p).length +
      (earlier cfg d.time q).length + (earlier cfg d.time (deferAccepted b)).length ∧
    ∀ x ∈ sels b, x.1 = .irq ∨ ∃ time, x.1 = .deferred time ∧ cfg.precedes d.time time = false := by
  intro b
  induction b with
  | nil => intro σ p q _ _ _ _ _ _ _ _ _ _; simp [sels]
  | cons e b ih =>
    intro σ p q hl hlt hpr ho hpend hn hrm hnt hnow hrd
    have hn' : Ev.resetRet ∉ b := fun hc => hn (List.mem_cons_of_mem _ hc)
    have hrm' : ∀ e, Ev.removeRet d.task e ∉ b := fun e hc => hrm e (List.mem_cons_of_mem _ hc)
    have hl1 := hl.1
    have ht1 := hlt.1
    have hp1 := hpr.1
    have hdm : d ∈ σ.pend := by rw [hpend]; simp
    -- the events that leave the books of the deferred tasks, the interrupt queue and the clock alone
    have triv : ∀ (h1 : (next σ e).pend = σ.pend) (h2 : (next σ e).irq = σ.irq)
        (h3 : (next σ e).now = σ.now) (h4 : sels (e :: b) = sels b)
        (h5 : isrAccepted (e :: b) = isrAccepted b) (h6 : deferAccepted (e :: b) = deferAccepted b)
        (h7 : deferTaken (e :: b) = deferTaken b) (h8 : readings (e :: b) = readings b), 
        (sels (e :: b)).length ≤ σ.irq.length + (isrAccepted (e :: b)).length +
          (notLater cfg d.time p).length + (earlier cfg d.time q).length +
          (earlier cfg d.time (deferAccepted (e :: b))).length ∧
        ∀ x ∈ sels (e :: b), x.1 = .irq ∨
          ∃ time, x.1 = .deferred time ∧ cfg.precedes d.time time = false := by
      intro h1 h2 h3 h4 h5 h6 h7 h8
      have := ih (next σ e) p q hl.2 hlt.2 hpr.2 (by rw [h1]; exact ho) (by rw [h1]; exact hpend)
        hn' hrm' (by rw [← h7]; exact hnt) (by rw [h3]; exact hnow) (by rw [← h8]; exact hrd)
      rw [h4, h5, h6]
      rw [h2] at this
      exact this
    cases e with
    | stepEnter =>
      have := ih (next σ .stepEnter) p q hl.2 hlt.2 hpr.2 ho hpend hn' hrm'
        (by simpa [deferTaken] using hnt) (fun n h => by cases h) (by simpa [readings] using hrd)
      simpa [sels, isrAccepted, deferAccepted, next] using this
    | clock n =>
      have := ih (next σ (.clock n)) p q hl.2 hlt.2 hpr.2 ho hpend hn' hrm'
        (by simpa [deferTaken] using hnt)
        (fun n' h => by cases h; exact hrd n (by simp [readings]))
        (fun n' h => hrd n' (by simp only [readings, List.filterMap_cons] at h ⊢; simp [h]))
      simpa [sels, isrAccepted, deferAccepted, next] using this
    | sel src u =>
      have hrd' : ∀ n ∈ readings b, cfg.precedes n d.time = false := by
        simpa [readings] using hrd
      cases src with
      | irq =>
        have h0 : σ.irq ≠ [] := by intro h0; have := hl1.2; rw [h0] at this; cases this
        have h0' := List.length_pos_iff.mpr h0
        obtain ⟨g1, g2⟩ := ih (next σ (.sel .irq u)) p q hl.2 hlt.2 hpr.2 ho hpend hn' hrm'
          (by simpa [deferTaken] using hnt) hnow hrd'
        refine ⟨?_, ?_⟩
        · simp only [next, List.length_tail, sels, isrAccepted, deferAccepted, List.filterMap_cons,
            List.length_cons] at g1 ⊢
          omega
        · intro x hx
          simp only [sels, List.filterMap_cons, List.mem_cons] at hx
          rcases hx with rfl | hx
          · exact .inl rfl
          · exact g2 x hx
      | deferred time =>
        simp only [deferTaken, List.filterMap_cons, List.mem_cons, not_or] at hnt
        obtain ⟨hne, hnt'⟩ := hnt
        obtain ⟨a', b', hab, ha', hb'⟩ := ht1
        have hum : (⟨time, u⟩ : Entry T) ∈ σ.pend := hl1.2.2.1
        have hasym : cfg.precedes time d.time = true → cfg.precedes d.time time = false :=
          ho.asymm _ (List.mem_map_of_mem hum) _ (List.mem_map_of_mem hdm)
        -- the entry taken is not later than `d`
        have hnl : cfg.precedes d.time time = false := by
          have hd2 := hdm
          rw [hab] at hd2
          rcases List.mem_append.mp hd2 with hd2 | hd2
          · exact hasym (ha' d hd2)
          · rcases List.mem_cons.mp hd2 with hd2 | hd2
            · exact absurd hd2 hne
            · exact hb' d hd2
        have ho' : Ordered cfg ((σ.pend.erase ⟨time, u⟩).map (·.time)) :=
          Ordered.mono ho fun x hx => by
            obtain ⟨y, hy, rfl⟩ := List.mem_map.mp hx
            exact List.mem_map_of_mem (List.mem_of_mem_erase hy)
        have hshape : ∀ x ∈ sels (Ev.sel (.deferred time) u :: b),
            (∀ x ∈ sels b, x.1 = .irq ∨ ∃ time, x.1 = .deferred time ∧
              cfg.precedes d.time time = false) →
            x.1 = .irq ∨ ∃ time, x.1 = .deferred time ∧ cfg.precedes d.time time = false := by
          intro x hx g
          simp only [sels, List.filterMap_cons, List.mem_cons] at hx
          rcases hx with rfl | hx
          · exact .inr ⟨time, rfl, hnl⟩
          · exact g x hx
        by_cases hin : (⟨time, u⟩ : Entry T) ∈ p
        · have hpe : (next σ (.sel (.deferred time) u)).pend = p.erase ⟨time, u⟩ ++ d :: q := by
            simp only [next]
            rw [hpend, List.erase_append_left _ hin]
          obtain ⟨g1, g2⟩ := ih (next σ (.sel (.deferred time) u)) (p.erase ⟨time, u⟩) q
            hl.2 hlt.2 hpr.2 ho' hpe hn' hrm' hnt' hnow hrd'
          refine ⟨?_, fun x hx => hshape x hx g2⟩
          have hc : (notLater cfg d.time (p.erase ⟨time, u⟩)).length + 1 =
              (notLater cfg d.time p).length := by
            have h5 := (List.perm_cons_erase hin).filter fun e => !cfg.precedes d.time e.time
            rw [List.filter_cons_of_pos (by simp [hnl])] at h5
            simpa [notLater] using h5.length_eq.symm
          simp only [next, sels, isrAccepted, deferAccepted, List.filterMap_cons,
            List.length_cons] at g1 ⊢
          omega
        · have hpe : (next σ (.sel (.deferred time) u)).pend = p ++ d :: q.erase ⟨time, u⟩ := by
            simp only [next]
            rw [hpend, List.erase_append_right _ hin, List.erase_cons_tail (by simpa using hne)]
          have hinq : (⟨time, u⟩ : Entry T) ∈ q := by
            have := hum
            rw [hpend] at this
            rcases List.mem_append.mp this with h | h
            · exact absurd h hin
            · rcases List.mem_cons.mp h with h | h
              · exact absurd h.symm hne
              · exact h
          -- every occurrence of the entry taken comes after `d`, so it is strictly earlier
          have hst : cfg.precedes time d.time = true := by
            have hda : d ∈ a' := by
              have h6 : a' ++ ⟨time, u⟩ :: b' = p ++ d :: q := by rw [← hab, hpend]
              rcases List.append_eq_append_iff.mp h6 with ⟨c, hc1, hc2⟩ | ⟨c, hc1, hc2⟩
              · cases c with
                | nil => simp at hc2; exact absurd hc2.1.symm hne
                | cons x c => simp at hc2; exact absurd (by rw [hc1]; simp [hc2.1]) hin
              · cases c with
                | nil => simp at hc2; exact absurd hc2.1 hne
                | cons x c => simp at hc2; rw [hc1]; simp [hc2.1]
            exact ha' d hda
          obtain ⟨g1, g2⟩ := ih (next σ (.sel (.deferred time) u)) p (q.erase ⟨time, u⟩)
            hl.2 hlt.2 hpr.2 ho' hpe hn' hrm' hnt' hnow hrd'
          refine ⟨?_, fun x hx => hshape x hx g2⟩
          have hc : (earlier cfg d.time (q.erase ⟨time, u⟩)).length + 1 =
              (earlier cfg d.time q).length := by
            have h5 := (List.perm_cons_erase hinq).filter fun e => cfg.precedes e.time d.time
            rw [List.filter_cons_of_pos (by simpa using hst)] at h5
            simpa [earlier] using h5.length_eq.symm
          simp only [next, sels, isrAccepted, deferAccepted, List.filterMap_cons,
            List.length_cons] at g1 ⊢
          omega
      | immed =>
        obtain ⟨n, h1, h2⟩ := ht1
        have := h2 d hdm
        rw [hnow n h1] at this; cases this
      | idle =>
        obtain ⟨n, h1, h2⟩ := ht1
        have := h2 d hdm
        rw [hnow n h1] at this; cases this
    | resetRet => exact absurd (by simp) hn
    | isrRet u e =>
      cases e with
      | none =>
        obtain ⟨g1, g2⟩ := ih (next σ (.isrRet u .none)) p q hl.2 hlt.2 hpr.2 ho hpend hn' hrm'
          (by simpa [deferTaken] using hnt) hnow (by simpa [readings] using hrd)
        refine ⟨?_, by simpa [sels] using g2⟩
        simp only [next, sels, isrAccepted, deferAccepted, List.filterMap_cons,
          List.length_cons, List.length_append, List.length_nil] at g1 ⊢
        omega
      | _ => exact triv rfl rfl rfl rfl rfl rfl rfl rfl
    | deferRet u time e =>
      cases e with
      | none =>
        obtain ⟨g1, g2⟩ := ih (next σ (.deferRet u time .none)) p (q ++ [⟨time, u⟩])
          hl.2 hlt.2 hpr.2
          (by
            refine Ordered.mono hp1.1 fun y hy => ?_
            simp only [next, List.map_append, List.mem_append, List.map_cons, List.map_nil,
              List.mem_singleton] at hy
            rcases hy with hy | hy
            · exact List.mem_cons_of_mem _ hy
            · rw [hy]; simp)
          (by simp [next, hpend]) hn' hrm'
          (by simpa [deferTaken] using hnt) hnow (by simpa [readings] using hrd)
        refine ⟨?_, by simpa [sels] using g2⟩
        simp only [next, sels, isrAccepted, deferAccepted, List.filterMap_cons, earlier,
          List.filter_append, List.length_append] at g1 ⊢
        rw [List.filter_cons]
        rw [List.filter_cons] at g1
        split <;> rename_i h <;> simp only [h, if_true, if_false, Bool.false_eq_true,
          List.filter_nil, List.length_cons, List.length_nil] at g1 ⊢ <;> omega
      | _ => exact triv rfl rfl rfl rfl rfl rfl rfl rfl
    | immedRet u e => cases e <;> exact triv rfl rfl rfl rfl rfl rfl rfl rfl
    | removeRet u e =>
      have hud : d.task ≠ u := by
        intro hc; exact hrm e (by rw [hc]; simp)
      obtain ⟨g1, g2⟩ := ih (next σ (.removeRet u e)) (p.filter fun e => e.task ≠ u)
        (q.filter fun e => e.task ≠ u) hl.2 hlt.2 hpr.2
        (Ordered.mono ho fun x hx => by
          obtain ⟨y, hy, rfl⟩ := List.mem_map.mp hx
          exact List.mem_map_of_mem (List.mem_filter.mp hy |>.1))
        (by simp only [next]; rw [hpend, List.filter_append, List.filter_cons_of_pos (by simpa using hud)])
        hn' hrm' (by simpa [deferTaken] using hnt) hnow (by simpa [readings] using hrd)
      refine ⟨?_, by simpa [sels] using g2⟩
      have h1 : (notLater cfg d.time (p.filter fun e => e.task ≠ u)).length ≤
          (notLater cfg d.time p).length :=
        ((List.filter_sublist (p := fun e : Entry T => decide (e.task ≠ u)) (l := p)).filter _).length_le
      have h2 : (earlier cfg d.time (q.filter fun e => e.task ≠ u)).length ≤
          (earlier cfg d.time q).length :=
        ((List.filter_sublist (p := fun e : Entry T => decide (e.task ≠ u)) (l := q)).filter _).length_le
      simp only [next, sels, isrAccepted, deferAccepted, List.filterMap_cons] at g1 ⊢
      omega
    | _ => exact triv rfl rfl rfl rfl rfl rfl rfl rfl

/-- C113.  A deferred task that is due and stays due: the entry `d` is pending after `p` and before
`q` (in the order in which they were scheduled), the last clock reading and all those that follow
are not before its time.  Whatever happens until it is taken or removed (`b`), steps take only
interrupt tasks and deferred tasks that are not later; and the number of tasks taken is at most the
number of interrupt tasks queued and accepted meanwhile, plus the pending entries scheduled before it
that are not later, plus the entries scheduled after it (pending or accepted meanwhile) that are
strictly earlier.  In particular no immediate task and no deferred task for the same or a later
time scheduled after it delays it. -/
theorem C113_due_wait (hw : cfg.Wf) {s : Sched T} {a b : List (Ev T)} (hr : Reach cfg s (a ++ b))
    (hp : Always (proper cfg) (St.start T) (a ++ b)) {d : Entry T} {p q : List (Entry T)}
    (hd : (books a).pend = p ++ d :: q)
    (hn : .resetRet ∉ b) (hrm : ∀ e, .removeRet d.task e ∉ b) (hwait : d ∉ deferTaken b)
    (hnow : ∀ n, (books a).now = some n → cfg.precedes n d.time = false)
    (hdue : ∀ n ∈ readings b, cfg.precedes n d.time = false) :
    (sels b).length ≤ (books a).irq.length + (isrAccepted b).length +
      (notLater cfg d.time p).length + (earlier cfg d.time q).length +
      (earlier cfg d.time (deferAccepted b)).length ∧
    ∀ x ∈ sels b, x.1 = .irq ∨ ∃ time, x.1 = .deferred time ∧ cfg.precedes d.time time = false := by
  obtain ⟨L, hi⟩ := reach_inv hw hr
  have hl := ((always_append _ _ _).mp hi.legal).2
  have ht := ((always_append _ _ _).mp (hi.time hp).1).2
  obtain ⟨hp1, hp2⟩ := (always_append _ _ _).mp hp
  exact deferred_only d b (books a) p q hl ht hp2 (books_ordered a hp1) hd hn hrm hwait hnow hdue

/-! ## A run that meets the hypotheses -/

namespace Example

/-- Immediate tasks 15 and 20 wait while interrupt tasks and deferred tasks come in and are run;
deferred task 13, due at 3, waits while 14 (for time 1) and 16 (interrupt) come in. -/
def loadBefore : Prog Nat Nat :=
  .immed 15 <| .immed 20 <| .deferUntil 12 3 <| .deferUntil 13 3 <| .fromIsr 17 <| .fromIsr 18 .done

def loadDuring : Prog Nat Nat :=
  .step 4 (.deferUntil 14 1 .done) <| .step 4 (.fromIsr 16 .done) <| .step 4 .done <|
  .step 4 .done <| .step 4 .done .done

def before : List (Ev Nat) :=
  [.immedRet 15 .none, .immedRet 20 .none, .deferRet 12 3 .none, .deferRet 13 3 .none,
   .isrRet 17 .none, .isrRet 18 .none]

def during : List (Ev Nat) :=
  [.stepEnter, .sel .irq 17, .called 17, .deferRet 14 1 .none, .stepRet,
   .stepEnter, .sel .irq 18, .called 18, .isrRet 16 .none, .stepRet,
   .stepEnter, .sel .irq 16, .called 16, .stepRet,
   .stepEnter, .clock 4, .sel (.deferred 1) 14, .called 14, .stepRet,
   .stepEnter, .clock 4, .sel (.deferred 3) 12, .called 12, .stepRet]

theorem loadRuns : (do
    let (t1, s1) ← run cfg0 boot loadBefore
    let (t2, _) ← run cfg0 s1 loadDuring
    pure (t1, t2)) = .ok (before, during) := by decide +kernel

theorem loadReach : ∃ s, Reach cfg0 s (before ++ during) := by
  have h := loadRuns
  cases h1 : run cfg0 boot loadBefore with
  | error e => rw [h1] at h; cases h
  | ok x =>
    obtain ⟨t1, s1⟩ := x
    rw [h1] at h
    cases h2 : run cfg0 s1 loadDuring with
    | error e => simp only [bind, Except.bind, h2] at h; cases h
    | ok y =>
      obtain ⟨t2, s2⟩ := y
      simp only [bind, Except.bind, h2, pure, Except.pure] at h
      cases h
      exact ⟨s2, .calls loadDuring (.calls loadBefore (.boot isBoot) h1) h2⟩

theorem loadProper : Always (proper cfg0) (St.start Nat) (before ++ during) := by
  simp only [before, during, List.cons_append, List.nil_append, Always, proper, ordered, true_and,
    and_true]
  decide

/-- C112: task 20 is second in the immediate queue and is not taken; five tasks are, and the bound
is 1 + 2 + 1 + 2 + 1. -/
example : (books before).immed = [15, 20] ∧ immedTaken during = [] ∧ Ev.resetRet ∉ during ∧
    (sels during).length = 5 ∧ (books before).irq.length = 2 ∧ (isrAccepted during).length = 1 ∧
    (books before).pend.length = 2 ∧ (deferAccepted during).length = 1 := by decide

/-- C113: the entry for task 13 has the one for 12 (same time) before it; five tasks are taken, and
the bound is 2 + 1 + 1 + 0 + 1: it is met with equality. -/
example : (books before).pend = [⟨3, 12⟩] ++ ⟨3, 13⟩ :: [] ∧ (⟨3, 13⟩ : Entry Nat) ∉ deferTaken during ∧
    (∀ n ∈ readings during, cfg0.precedes n 3 = false) ∧ (books before).now = none ∧
    (notLater cfg0 3 [⟨3, 12⟩]).length = 1 ∧
    (earlier cfg0 3 (deferAccepted during)).length = 1 ∧ (sels during).length = 5 := by decide

end Example

end Mu.Sched
