import Verif.Lemmas.SchedList
import Mathlib.Data.List.Induction
import Mathlib.Tactic.ByContra

/-! # The list machine's traces satisfy the monitor -/

namespace Mu.Sched
open Spec

variable {T R : Type} [DecidableEq T]

/-! ## Bookkeeping lemmas -/

theorem track_nil (σ : St T) : track σ [] = σ := rfl

theorem track_cons (σ : St T) (e : Ev T) (tr) : track σ (e :: tr) = track (next σ e) tr := rfl

theorem track_append (σ : St T) (a b : List (Ev T)) :
    track σ (a ++ b) = track (track σ a) b := by
  simp [track, List.foldl_append]

theorem always_append {Q : St T → Ev T → Prop} (a b : List (Ev T)) : ∀ σ : St T,
    Always Q σ (a ++ b) ↔ Always Q σ a ∧ Always Q (track σ a) b := by
  induction a with
  | nil => intro σ; simp [Always, track]
  | cons e a ih => intro σ; simp only [List.cons_append, Always, ih, track_cons, and_assoc]

theorem always_mono {Q Q' : St T → Ev T → Prop} (h : ∀ σ e, Q σ e → Q' σ e) :
    ∀ (tr : List (Ev T)) (σ : St T), Always Q σ tr → Always Q' σ tr := by
  intro tr
  induction tr with
  | nil => intro σ _; trivial
  | cons e tr ih => intro σ ha; exact ⟨h _ _ ha.1, ih _ ha.2⟩

/-! ## Stable sorting -/

variable {cfg : Cfg T R}

/-- Insert the entries one by one. -/
def sortD (cfg : Cfg T R) (l : List (Entry T)) : List (Entry T) :=
  l.foldl (fun D x => ins cfg x D) []

omit [DecidableEq T] in
theorem sortD_snoc (l : List (Entry T)) (x : Entry T) :
    sortD cfg (l ++ [x]) = ins cfg x (sortD cfg l) := by
  simp [sortD, List.foldl_append]

omit [DecidableEq T] in
theorem ins_perm (x : Entry T) (D : List (Entry T)) : (ins cfg x D).Perm (x :: D) := by
  induction D with
  | nil => exact List.Perm.refl _
  | cons d ds ih =>
    simp only [ins]
    split
    · exact List.Perm.refl _
    · exact (ih.cons d).trans (List.Perm.swap x d ds)

omit [DecidableEq T] in
theorem sortD_perm (l : List (Entry T)) : (sortD cfg l).Perm l := by
  induction l using List.reverseRecOn with
  | nil => exact List.Perm.refl _
  | append_singleton l x ih =>
    rw [sortD_snoc]
    exact (ins_perm x _).trans ((ih.cons x).trans (List.perm_append_comm (l₁ := [x])))

omit [DecidableEq T] in
theorem Spec.Ordered.mono {l l' : List T} (h : Ordered cfg l) (hs : ∀ x ∈ l', x ∈ l) :
    Ordered cfg l' :=
  ⟨fun a ha b hb => h.asymm a (hs a ha) b (hs b hb),
   fun a ha b hb c hc => h.negTrans a (hs a ha) b (hs b hb) c (hs c hc)⟩

omit [DecidableEq T] in
theorem Spec.Ordered.irrefl {l : List T} (h : Ordered cfg l) {a : T} (ha : a ∈ l) :
    cfg.precedes a a = false := by
  by_contra hc
  have hc : cfg.precedes a a = true := by simpa using hc
  have := h.asymm a ha a ha hc
  rw [hc] at this; cases this

omit [DecidableEq T] in
/-- `a < b` and `b` not after `c` give `a < c`. -/
theorem Spec.Ordered.lt_of {l : List T} (h : Ordered cfg l) {a b c : T} (ha : a ∈ l) (hb : b ∈ l)
    (hc : c ∈ l) (hab : cfg.precedes a b = true) (hcb : cfg.precedes c b = false) :
    cfg.precedes a c = true := by
  by_contra hn
  have hn : cfg.precedes a c = false := by simpa using hn
  have := h.negTrans a ha c hc b hb hn hcb
  rw [hab] at this; cases this

/-- Soonest first. -/
def Sorted (cfg : Cfg T R) (D : List (Entry T)) : Prop :=
  D.Pairwise (fun a b => cfg.precedes b.time a.time = false)

omit [DecidableEq T] in
theorem ins_sorted {x : Entry T} : ∀ {D : List (Entry T)},
    Ordered cfg (x.time :: D.map (·.time)) → Sorted cfg D → Sorted cfg (ins cfg x D) := by
  intro D
  induction D with
  | nil => intro _ _; simp [ins, Sorted]
  | cons d ds ih =>
    intro ho hs
    have hs' := List.pairwise_cons.mp hs
    simp only [ins]
    split
    · rename_i hx
      refine List.pairwise_cons.mpr ⟨?_, hs⟩
      intro e he
      rcases List.mem_cons.mp he with rfl | he
      · exact ho.asymm _ (by simp) _ (by simp) hx
      · have : cfg.precedes x.time e.time = true :=
          ho.lt_of (b := d.time) (by simp) (by simp)
            (List.mem_cons_of_mem _ (List.mem_map_of_mem (List.mem_cons_of_mem _ he))) hx (hs'.1 e he)
        exact ho.asymm _ (by simp) _
            (List.mem_cons_of_mem _ (List.mem_map_of_mem (List.mem_cons_of_mem _ he))) this
    · rename_i hx
      refine List.pairwise_cons.mpr ⟨?_, ih (ho.mono ?_) hs'.2⟩
      · intro e he
        rcases List.mem_cons.mp ((ins_perm x ds).mem_iff.mp he) with rfl | he
        · simpa using hx
        · exact hs'.1 e he
      · intro y hy
        simp only [List.map_cons, List.mem_cons] at hy ⊢
        tauto

omit [DecidableEq T] in
theorem sortD_sorted : ∀ {l : List (Entry T)}, Ordered cfg (l.map (·.time)) →
    Sorted cfg (sortD cfg l) := by
  intro l
  induction l using List.reverseRecOn with
  | nil => intro _; exact List.Pairwise.nil
  | append_singleton l x ih =>
    intro ho
    rw [sortD_snoc]
    refine ins_sorted (ho.mono ?_) (ih (ho.mono ?_))
    · intro y hy
      simp only [List.mem_cons, List.mem_map, List.map_append, List.mem_append, List.map_nil,
        List.map_cons, List.not_mem_nil, or_false] at hy ⊢
      rcases hy with rfl | ⟨a, ha, rfl⟩
      · exact Or.inr rfl
      · exact Or.inl ⟨a, (sortD_perm l).mem_iff.mp ha, rfl⟩
    · intro y hy
      simp only [List.map_append, List.mem_append]; exact Or.inl hy

omit [DecidableEq T] in
theorem ins_filter (p : Entry T → Bool) {x : Entry T} : ∀ {D : List (Entry T)},
    Ordered cfg (x.time :: D.map (·.time)) → Sorted cfg D →
    (ins cfg x D).filter p = if p x then ins cfg x (D.filter p) else D.filter p := by
  intro D
  induction D with
  | nil => intro _ _; simp [ins, List.filter]; split <;> simp_all
  | cons d ds ih =>
    intro ho hs
    have hs' := List.pairwise_cons.mp hs
    simp only [ins]
    split
    · rename_i hx
      by_cases hpx : p x = true
      · rw [List.filter_cons_of_pos hpx, if_pos hpx]
        have : ∀ e ∈ (d :: ds).filter p, cfg.precedes x.time e.time = true := by
          intro e he
          have he := (List.mem_filter.mp he).1
          rcases List.mem_cons.mp he with rfl | he
          · exact hx
          · exact ho.lt_of (b := d.time) (by simp) (by simp)
              (List.mem_cons_of_mem _ (List.mem_map_of_mem (List.mem_cons_of_mem _ he))) hx
              (hs'.1 e he)
        cases hf : (d :: ds).filter p with
        | nil => rfl
        | cons e es =>
          rw [hf] at this
          simp only [ins]
          rw [if_pos (this e (by simp))]
      · rw [List.filter_cons_of_neg hpx, if_neg hpx]
    · rename_i hx
      have hrec := ih (ho.mono (by
        intro y hy
        simp only [List.map_cons, List.mem_cons] at hy ⊢
        tauto)) hs'.2
      by_cases hpd : p d = true
      · rw [List.filter_cons_of_pos hpd, List.filter_cons_of_pos hpd, hrec]
        split
        · simp [ins, hx]
        · rfl
      · rw [List.filter_cons_of_neg hpd, List.filter_cons_of_neg hpd, hrec]

omit [DecidableEq T] in
theorem Spec.Ordered.snoc {l : List (Entry T)} {x : Entry T}
    (ho : Ordered cfg ((l ++ [x]).map (·.time))) :
    Ordered cfg (l.map (·.time)) ∧ Ordered cfg (x.time :: (sortD cfg l).map (·.time)) := by
  refine ⟨ho.mono ?_, ho.mono ?_⟩
  · intro y hy
    simp only [List.map_append, List.mem_append]; exact Or.inl hy
  · intro y hy
    simp only [List.mem_cons, List.mem_map, List.map_append, List.mem_append, List.map_nil,
      List.map_cons, List.not_mem_nil, or_false] at hy ⊢
    rcases hy with rfl | ⟨a, ha, rfl⟩
    · exact Or.inr rfl
    · exact Or.inl ⟨a, (sortD_perm l).mem_iff.mp ha, rfl⟩

omit [DecidableEq T] in
theorem sortD_filter (p : Entry T → Bool) : ∀ {l : List (Entry T)},
    Ordered cfg (l.map (·.time)) → sortD cfg (l.filter p) = (sortD cfg l).filter p := by
  intro l
  induction l using List.reverseRecOn with
  | nil => intro _; rfl
  | append_singleton l x ih =>
    intro ho
    obtain ⟨ho1, ho2⟩ := Ordered.snoc ho
    rw [sortD_snoc, ins_filter p ho2 (sortD_sorted ho1), List.filter_append, ← ih ho1]
    by_cases hp : p x = true
    · simp [List.filter, hp, sortD_snoc]
    · simp [List.filter, hp]

theorem sortD_first : ∀ {l : List (Entry T)} {d : Entry T} {ds : List (Entry T)},
    Ordered cfg (l.map (·.time)) → sortD cfg l = d :: ds →
    First cfg l d ∧ sortD cfg (l.erase d) = ds := by
  intro l
  induction l using List.reverseRecOn with
  | nil => intro d ds _ h; cases h
  | append_singleton l x ih =>
    intro d ds ho h
    obtain ⟨ho1, ho2⟩ := Ordered.snoc ho
    rw [sortD_snoc] at h
    cases hl : sortD cfg l with
    | nil =>
      have : l = [] := List.length_eq_zero_iff.mp (by
        have := (sortD_perm (cfg := cfg) l).length_eq; rw [hl] at this; simpa using this.symm)
      subst this
      rw [hl] at h
      simp only [ins, List.cons.injEq] at h
      obtain ⟨rfl, rfl⟩ := h
      exact ⟨⟨[], [], rfl, by simp, by simp⟩, by simp [sortD]⟩
    | cons e es =>
      have hsorted := sortD_sorted (cfg := cfg) ho1
      rw [hl] at h ho2 hsorted
      have hs' := List.pairwise_cons.mp hsorted
      simp only [ins] at h
      have hmem : ∀ f ∈ l, f = e ∨ f ∈ es := by
        intro f hf
        have := (sortD_perm (cfg := cfg) l).mem_iff.mpr hf
        rw [hl] at this
        exact List.mem_cons.mp this
      have hel : e ∈ l := by
        apply (sortD_perm (cfg := cfg) l).mem_iff.mp; rw [hl]; simp
      by_cases hx : cfg.precedes x.time e.time = true
      · rw [if_pos hx] at h
        simp only [List.cons.injEq] at h
        obtain ⟨rfl, rfl⟩ := h
        have hall : ∀ f ∈ l, cfg.precedes x.time f.time = true := by
          intro f hf
          rcases hmem f hf with rfl | hf'
          · exact hx
          · exact ho2.lt_of (b := e.time) (by simp) (by simp)
              (List.mem_cons_of_mem _ (List.mem_map_of_mem (List.mem_cons_of_mem _ hf'))) hx
              (hs'.1 f hf')
        have hxl : x ∉ l := by
          intro hc
          have h1 := hall x hc
          rw [ho2.irrefl (a := x.time) (by simp)] at h1
          cases h1
        refine ⟨⟨l, [], by simp, hall, by simp⟩, ?_⟩
        rw [List.erase_append_right _ hxl]
        simpa using hl
      · rw [if_neg hx] at h
        simp only [List.cons.injEq] at h
        obtain ⟨rfl, rfl⟩ := h
        obtain ⟨⟨a, b, e1, e2, e3⟩, e4⟩ := ih ho1 hl
        refine ⟨⟨a, b ++ [x], by simp [e1], e2, ?_⟩, ?_⟩
        · intro f hf
          rcases List.mem_append.mp hf with hf | hf
          · exact e3 f hf
          · simp only [List.mem_singleton] at hf
            subst hf
            simpa using hx
        · rw [List.erase_append_left _ hel, sortD_snoc, e4]

/-! ## Simulation -/

/-- The books agree with the lists. -/
structure Sim (σ : St T) (L : LSt T) : Prop where
  irq : σ.irq = L.irq
  immed : σ.immed = L.immed
  idle : σ.idle = L.idle
  dq : L.dq.Perm σ.pend

/-- With ordered times, moreover, the deferred list is the stable sort of the pending entries. -/
structure Ord (cfg : Cfg T R) (σ : St T) (L : LSt T) : Prop where
  dq : L.dq = sortD cfg σ.pend
  ordered : Ordered cfg (σ.pend.map (·.time))
  nonnull : ∀ d ∈ σ.pend, d.task ≠ NULL

omit [DecidableEq T] in
theorem first_mem {l : List (Entry T)} {d : Entry T} (h : First cfg l d) : d ∈ l := by
  obtain ⟨a, b, rfl, _⟩ := h; simp

/-- Looking for a runnable deferred task. -/
theorem fetch_sim {σ : St T} {L : LSt T} (now : T) (h : Sim σ L)
    (hst : σ.steps.head? = some .choosing) (hirq : σ.irq = []) :
    let f := lfetch cfg now L.dq
    Always (legal cfg) σ f.2.1 ∧
    Sim (track σ f.2.1) { L with dq := f.2.2 } ∧
    (track σ f.2.1).steps = (if f.1 = NULL then σ.steps else .chosen f.1 :: σ.steps.tail) ∧
    (track σ f.2.1).cur = σ.cur ∧ (track σ f.2.1).now = some now ∧ (track σ f.2.1).irq = [] ∧
    (Ord cfg σ L → Always (proper cfg) σ f.2.1 →
      Always (legalTime cfg) σ f.2.1 ∧ Ord cfg (track σ f.2.1) { L with dq := f.2.2 } ∧
      (f.1 = NULL → ∀ d ∈ (track σ f.2.1).pend, cfg.precedes now d.time = true)) := by
  obtain ⟨h1, h2, h3, h4⟩ := h
  obtain ⟨irq, pend, im, idle, nw, steps, cur⟩ := σ
  obtain ⟨irq', dq, im', curr', idle'⟩ := L
  simp only at h1 h2 h3 h4 hst hirq
  subst h1 h2 h3 hirq
  intro f
  cases dq with
  | nil =>
    have hp : pend = [] := h4.nil_eq.symm
    subst hp
    simp only [f, lfetch, Always, legal, legalTime, track_cons, track_nil, next, and_true,
      true_and, if_true]
    exact ⟨⟨rfl, rfl, rfl, h4⟩, fun ho _ => ⟨⟨ho.dq, ho.ordered, ho.nonnull⟩, by simp⟩⟩
  | cons d ds =>
    have hdm : d ∈ pend := h4.mem_iff.mp (by simp)
    have hperm : ds.Perm (pend.erase d) := by
      have := h4.erase d; simpa using this
    obtain ⟨dt, dk⟩ := d
    by_cases hp : cfg.precedes now dt = false
    · simp only [f, lfetch, hp, if_true, Always, legal, legalTime, track_cons, track_nil, next,
        and_true, true_and]
      refine ⟨⟨hst, hdm, now, rfl, hp⟩, ⟨rfl, rfl, rfl, hperm⟩, fun ho hpr => ?_⟩
      obtain ⟨e1, e2⟩ := sortD_first ho.ordered ho.dq.symm
      refine ⟨e1, ⟨e2.symm, ho.ordered.mono ?_, ?_⟩, ?_⟩
      · intro y hy
        obtain ⟨a, ha, rfl⟩ := List.mem_map.mp hy
        exact List.mem_map_of_mem (List.mem_of_mem_erase ha)
      · intro a ha
        exact ho.nonnull a (List.mem_of_mem_erase ha)
      · intro hn
        exact absurd hn (ho.nonnull _ hdm)
    · have hf : f = (NULL, [.clock now], ⟨dt, dk⟩ :: ds) := by simp only [f, lfetch]; rw [if_neg hp]
      rw [hf]
      simp only [Always, legal, legalTime, track_cons, track_nil, next, and_true, true_and, if_true]
      refine ⟨⟨rfl, rfl, rfl, h4⟩, fun ho hpr => ⟨⟨ho.dq, ho.ordered, ho.nonnull⟩, fun _ e he => ?_⟩⟩
      have hs := sortD_sorted ho.ordered
      rw [← ho.dq] at hs
      have hs' := List.pairwise_cons.mp hs
      have hlt : cfg.precedes now dt = true := by simpa using hp
      rcases List.mem_cons.mp (h4.mem_iff.mpr he) with rfl | he'
      · exact hlt
      · exact Ordered.lt_of (b := dt) hpr (by simp)
          (List.mem_cons_of_mem _ (List.mem_map_of_mem (f := (·.time)) hdm))
          (List.mem_cons_of_mem _ (List.mem_map_of_mem he)) hlt (hs'.1 e he')

/-- The selection of a step. -/
theorem select_sim {σ : St T} {L : LSt T} (now : T) (h : Sim σ L)
    (hst : σ.steps.head? = some .choosing) :
    Always (legal cfg) σ (lselect cfg now L).1 ∧
    Sim (track σ (lselect cfg now L).1) (lselect cfg now L).2 ∧
    (track σ (lselect cfg now L).1).steps = .chosen (lselect cfg now L).2.curr :: σ.steps.tail ∧
    (track σ (lselect cfg now L).1).cur = σ.cur ∧
    (Ord cfg σ L → Always (proper cfg) σ (lselect cfg now L).1 →
      Always (legalTime cfg) σ (lselect cfg now L).1 ∧
      Ord cfg (track σ (lselect cfg now L).1) (lselect cfg now L).2) := by
  unfold lselect
  cases hi : L.irq with
  | cons t r =>
    have h1 := h.irq
    rw [hi] at h1
    simp only [Always, legal, legalTime, track_cons, track_nil, next, and_true, true_and]
    exact ⟨⟨hst, by simp [h1]⟩, ⟨by simp [h1], h.immed, h.idle, h.dq⟩,
      fun ho _ => ⟨ho.dq, ho.ordered, ho.nonnull⟩⟩
  | nil =>
    have h1 := h.irq
    rw [hi] at h1
    obtain ⟨f1, f2, f3, f4, f5, f6, f7⟩ := fetch_sim (cfg := cfg) now h hst h1
    have hi2 := f2.irq
    have himm := f2.immed
    have hidl := f2.idle
    simp only at hi2 himm hidl
    by_cases hn : (lfetch cfg now L.dq).1 = NULL
    · rw [if_pos hn] at f3
      simp only [hn, ne_eq, not_true, if_false]
      cases hm : L.immed with
      | nil =>
        rw [hm] at himm
        simp only [always_append, track_append, Always, track_cons, track_nil, legal, legalTime,
          next, and_true]
        refine ⟨⟨f1, by rw [f3]; exact hst, f6, himm, hidl.symm⟩, ⟨f6, himm, hidl, f2.dq⟩,
          by rw [f3], f4, fun ho hp => ?_⟩
        obtain ⟨g1, g2, g3⟩ := f7 ho hp.1
        exact ⟨⟨g1, now, f5, g3 hn⟩, ⟨g2.dq, g2.ordered, g2.nonnull⟩⟩
      | cons t r =>
        rw [hm] at himm
        simp only [always_append, track_append, Always, track_cons, track_nil, legal, legalTime,
          next, and_true]
        refine ⟨⟨f1, by rw [f3]; exact hst, f6, by rw [himm]; rfl⟩,
          ⟨f6, by simp [himm], f2.idle, f2.dq⟩, by rw [f3], f4, fun ho hp => ?_⟩
        obtain ⟨g1, g2, g3⟩ := f7 ho hp.1
        exact ⟨⟨g1, now, f5, g3 hn⟩, ⟨g2.dq, g2.ordered, g2.nonnull⟩⟩
    · rw [if_neg hn] at f3
      simp only [hn, ne_eq, not_false_eq_true, if_true]
      refine ⟨f1, ⟨f6, f2.immed, f2.idle, f2.dq⟩, f3, f4, fun ho hp => ?_⟩
      obtain ⟨g1, g2, g3⟩ := f7 ho hp
      exact ⟨g1, ⟨g2.dq, g2.ordered, g2.nonnull⟩⟩

/-- What we maintain along a run. -/
def Good (cfg : Cfg T R) (σ : St T) (L : LSt T) (tr : List (Ev T)) (L' : LSt T) : Prop :=
  Always (legal cfg) σ tr ∧ Sim (track σ tr) L' ∧ (track σ tr).steps = σ.steps ∧
  (track σ tr).cur = L'.curr ∧
  (Ord cfg σ L → Always (proper cfg) σ tr →
    Always (legalTime cfg) σ tr ∧ Ord cfg (track σ tr) L')

theorem Good.trans {σ : St T} {L L1 L2 : LSt T} {a b : List (Ev T)}
    (h1 : Good cfg σ L a L1) (h2 : Good cfg (track σ a) L1 b L2) : Good cfg σ L (a ++ b) L2 := by
  obtain ⟨a1, a2, a3, a4, a5⟩ := h1
  obtain ⟨b1, b2, b3, b4, b5⟩ := h2
  refine ⟨(always_append _ _ _).mpr ⟨a1, b1⟩, by rw [track_append]; exact b2, ?_, ?_, ?_⟩
  · rw [track_append, b3, a3]
  · rw [track_append, b4]
  · intro ho hp
    obtain ⟨p1, p2⟩ := (always_append _ _ _).mp hp
    obtain ⟨c1, c2⟩ := a5 ho p1
    obtain ⟨d1, d2⟩ := b5 c2 p2
    exact ⟨(always_append _ _ _).mpr ⟨c1, d1⟩, by rw [track_append]; exact d2⟩

theorem Good.single {σ : St T} {L L1 : LSt T} {e : Ev T} (h1 : legal cfg σ e)
    (h2 : Sim (next σ e) L1) (h3 : (next σ e).steps = σ.steps) (h4 : (next σ e).cur = L1.curr)
    (h5 : Ord cfg σ L → proper cfg σ e → legalTime cfg σ e ∧ Ord cfg (next σ e) L1) :
    Good cfg σ L [e] L1 :=
  ⟨⟨h1, trivial⟩, h2, h3, h4, fun ho hp => ⟨⟨(h5 ho hp.1).1, trivial⟩, (h5 ho hp.1).2⟩⟩

theorem limmed_good {σ : St T} {L : LSt T} (h : Sim σ L) (hc : σ.cur = L.curr) (t : Val) :
    Good cfg σ L [.immedRet t (limmed cfg L t).1] (limmed cfg L t).2 := by
  unfold limmed
  split
  · rename_i hl
    refine Good.single (by simp [legal, h.immed, hl])
      ⟨h.irq, by simp [next, h.immed], h.idle, h.dq⟩ rfl hc
      (fun ho _ => ⟨trivial, ⟨ho.dq, ho.ordered, ho.nonnull⟩⟩)
  · rename_i hl
    exact Good.single (by simp [legal, h.immed, hl]) h rfl hc (fun ho _ => ⟨trivial, ho⟩)

theorem lisr_good {σ : St T} {L : LSt T} (h : Sim σ L) (hc : σ.cur = L.curr) (t : Val) :
    Good cfg σ L [.isrRet t (lisr cfg L t).1] (lisr cfg L t).2 := by
  unfold lisr
  split
  · rename_i hl
    refine Good.single (by simp [legal, h.irq, hl])
      ⟨by simp [next, h.irq], h.immed, h.idle, h.dq⟩ rfl hc
      (fun ho _ => ⟨trivial, ⟨ho.dq, ho.ordered, ho.nonnull⟩⟩)
  · rename_i hl
    exact Good.single (by simp only [legal, h.irq]; rw [if_neg hl]) h rfl hc (fun ho _ => ⟨trivial, ho⟩)

theorem ldefer_good {σ : St T} {L : LSt T} (h : Sim σ L) (hc : σ.cur = L.curr) (t : Val) (time : T) :
    Good cfg σ L [.deferRet t time (ldefer cfg L t time).1] (ldefer cfg L t time).2 := by
  unfold ldefer
  have hlen := h.dq.length_eq
  split
  · rename_i hl
    refine Good.single (by simp [legal, ← hlen, hl])
      ⟨h.irq, h.immed, h.idle, ?_⟩ rfl hc (fun ho hp => ⟨trivial, ⟨?_, ?_, ?_⟩⟩)
    · exact (ins_perm _ _).trans ((h.dq.cons _).trans (List.perm_append_comm (l₁ := [_])))
    · simp only [next]; rw [sortD_snoc, ho.dq]
    · refine Ordered.mono hp.1 ?_
      intro y hy
      simp only [next, List.map_append, List.mem_append, List.map_cons, List.map_nil,
        List.mem_singleton] at hy
      rcases hy with hy | rfl
      · exact List.mem_cons_of_mem _ hy
      · simp
    · intro d hd
      simp only [next, List.mem_append, List.mem_singleton] at hd
      rcases hd with hd | rfl
      · exact ho.nonnull d hd
      · exact hp.2
  · rename_i hl
    exact Good.single (by simp [legal, ← hlen, hl]) h rfl hc (fun ho _ => ⟨trivial, ho⟩)

theorem lremove_good {σ : St T} {L : LSt T} (h : Sim σ L) (hc : σ.cur = L.curr) (t : Val) :
    Good cfg σ L [.removeRet t (lremove L t).1] (lremove L t).2 := by
  unfold lremove
  refine Good.single ?_ ⟨h.irq, h.immed, h.idle, h.dq.filter _⟩ rfl hc
    (fun ho _ => ⟨trivial, ⟨?_, ho.ordered.mono ?_, ?_⟩⟩)
  · simp only [legal, h.dq.mem_iff]
  · simp only [next]; rw [sortD_filter _ ho.ordered, ho.dq]
  · intro y hy
    obtain ⟨a, ha, rfl⟩ := List.mem_map.mp hy
    exact List.mem_map_of_mem (List.mem_filter.mp ha).1
  · intro d hd
    exact ho.nonnull d (List.mem_filter.mp hd).1

theorem lnext_good {σ : St T} {L : LSt T} (h : Sim σ L) (hc : σ.cur = L.curr) :
    Good cfg σ L [.nextRet (lnext L)] L := by
  refine Good.single ?_ h rfl hc (fun ho _ => ⟨?_, ho⟩)
  · simp only [legal, lnext]
    have := h.dq
    cases hd : L.dq with
    | nil => rw [hd] at this; exact Or.inl ⟨this.nil_eq.symm, rfl⟩
    | cons d ds =>
      rw [hd] at this
      exact Or.inr ⟨d, this.mem_iff.mp (by simp), rfl⟩
  · simp only [legalTime, lnext]
    intro hne
    cases hd : L.dq with
    | nil => exact absurd (by have := h.dq; rw [hd] at this; exact this.nil_eq.symm) hne
    | cons d ds =>
      exact ⟨d, (sortD_first ho.ordered (ho.dq.symm.trans hd)).1, rfl⟩

theorem lstep_good {σ : St T} {L : LSt T} (now : T) (h : Sim σ L) (hc : σ.cur = L.curr)
    (call : LSt T → List (Ev T) × LSt T)
    (hcall : ∀ σ L, Sim σ L → σ.cur = L.curr → Good cfg σ L (call L).1 (call L).2) :
    Good cfg σ L (lstep cfg now call L).1 (lstep cfg now call L).2 := by
  unfold lstep
  obtain ⟨s1, s2, s3, s4, s5⟩ := select_sim (cfg := cfg) (σ := next σ .stepEnter) (L := L) now
    ⟨h.irq, h.immed, h.idle, h.dq⟩ rfl
  have hE : ∀ l, Always (legal cfg) σ (.stepEnter :: l) ↔
      Always (legal cfg) (next σ .stepEnter) l := by intro l; simp [Always, legal]
  have hP : ∀ l, Always (proper cfg) σ (.stepEnter :: l) ↔
      Always (proper cfg) (next σ .stepEnter) l := by intro l; simp [Always, proper]
  have hT : ∀ l, Always (legalTime cfg) σ (.stepEnter :: l) ↔
      Always (legalTime cfg) (next σ .stepEnter) l := by intro l; simp [Always, legalTime]
  have ho' : Ord cfg σ L → Ord cfg (next σ .stepEnter) L := fun ho =>
    ⟨ho.dq, ho.ordered, ho.nonnull⟩
  have e1 : (next σ .stepEnter).steps.tail = σ.steps := rfl
  rw [e1] at s3
  have hcur0 : (next σ .stepEnter).cur = σ.cur := rfl
  have htr : ∀ l, track σ (.stepEnter :: l) = track (next σ .stepEnter) l := fun _ => rfl
  simp only [List.cons_append]
  unfold Good
  simp only [hE, hT, hP, htr]
  generalize next σ .stepEnter = σ1 at *
  by_cases hn : (lselect cfg now L).2.curr = NULL
  · simp only [hn, ne_eq, not_true, if_false, List.append_nil, always_append, track_append, Always,
      track_cons, track_nil, and_true, next]
    rw [hn] at s3
    refine ⟨⟨s1, ?_⟩, ⟨s2.irq, s2.immed, s2.idle, s2.dq⟩, by rw [s3]; rfl, trivial, fun ho hp => ?_⟩
    · simp only [legal, s3]; exact Or.inl rfl
    · obtain ⟨a, b⟩ := s5 (ho' ho) hp.1
      exact ⟨⟨a, trivial⟩, ⟨b.dq, b.ordered, b.nonnull⟩⟩
  · simp only [hn, ne_eq, not_false_eq_true, if_true]
    obtain ⟨c1, c2, c3, c4, c5⟩ := hcall
      (next (track σ1 (lselect cfg now L).1) (.called (lselect cfg now L).2.curr))
      (lselect cfg now L).2 ⟨s2.irq, s2.immed, s2.idle, s2.dq⟩ rfl
    have hst : (next (track σ1 (lselect cfg now L).1) (.called (lselect cfg now L).2.curr)).steps
        = .running (lselect cfg now L).2.curr :: σ.steps := by
      simp only [next, s3]; rfl
    rw [hst] at c3
    simp only [List.append_assoc, List.cons_append, always_append, track_append, Always,
      track_cons, track_nil, and_true]
    refine ⟨⟨s1, ⟨?_, hn⟩, c1, ?_⟩, ⟨c2.irq, c2.immed, c2.idle, c2.dq⟩, ?_, rfl, fun ho hp => ?_⟩
    · rw [s3]; rfl
    · exact Or.inr ⟨_, by rw [c3]; rfl⟩
    · exact congrArg List.tail c3
    · obtain ⟨a, b⟩ := s5 (ho' ho) hp.1
      obtain ⟨a', b'⟩ := c5 ⟨b.dq, b.ordered, b.nonnull⟩ hp.2.2.1
      exact ⟨⟨a, trivial, a', trivial⟩, ⟨b'.dq, b'.ordered, b'.nonnull⟩⟩

/-- Every run of the list machine obeys the monitor. -/
theorem lrun_good (p : Prog T R) : ∀ {σ : St T} {L : LSt T}, Sim σ L → σ.cur = L.curr →
    Good cfg σ L (lrun cfg L p).1 (lrun cfg L p).2 := by
  induction p with
  | done => intro σ L h hc; exact ⟨trivial, h, rfl, hc, fun ho _ => ⟨trivial, ho⟩⟩
  | step now body next ih1 ih2 =>
    intro σ L h hc
    have h1 := lstep_good (cfg := cfg) now h hc _ (fun σ L h hc => ih1 (σ := σ) (L := L) h hc)
    exact h1.trans (ih2 h1.2.1 h1.2.2.2.1)
  | immed t next ih =>
    intro σ L h hc
    have h1 := limmed_good (cfg := cfg) h hc t
    exact h1.trans (ih h1.2.1 h1.2.2.2.1)
  | transfer t hook next ih1 ih2 =>
    intro σ L h hc
    have h0 : Good cfg σ L [.transferHook t] L :=
      Good.single trivial h rfl hc (fun ho _ => ⟨trivial, ho⟩)
    have h1 := ih1 (σ := σ) h hc
    have h2 := limmed_good (cfg := cfg) h1.2.1 h1.2.2.2.1 t
    have h3 := h0.trans (h1.trans (h2.trans (ih2 h2.2.1 h2.2.2.2.1)))
    simpa [lrun] using h3
  | fromIsr t next ih =>
    intro σ L h hc
    have h1 := lisr_good (cfg := cfg) h hc t
    exact h1.trans (ih h1.2.1 h1.2.2.2.1)
  | deferUntil t time next ih =>
    intro σ L h hc
    have h1 := ldefer_good (cfg := cfg) h hc t time
    exact h1.trans (ih h1.2.1 h1.2.2.2.1)
  | deferFor t now delay next ih =>
    intro σ L h hc
    have h0 : Good cfg σ L [.clock now] L :=
      Good.single trivial ⟨h.irq, h.immed, h.idle, h.dq⟩ rfl hc
        (fun ho _ => ⟨trivial, ⟨ho.dq, ho.ordered, ho.nonnull⟩⟩)
    have h1 := ldefer_good (cfg := cfg) h0.2.1 h0.2.2.2.1 t (cfg.offset now delay)
    exact h0.trans (h1.trans (ih h1.2.1 h1.2.2.2.1))
  | remove t next ih =>
    intro σ L h hc
    have h1 := lremove_good (cfg := cfg) h hc t
    exact h1.trans (ih h1.2.1 h1.2.2.2.1)
  | reset next ih =>
    intro σ L h hc
    have h1 : Good cfg σ L [.resetRet] (lreset L) :=
      Good.single trivial ⟨rfl, rfl, h.idle, List.Perm.refl _⟩ rfl rfl
        (fun ho _ => ⟨trivial, ⟨rfl, ho.ordered.mono (by simp [Spec.next]), by simp [Spec.next]⟩⟩)
    exact h1.trans (ih h1.2.1 h1.2.2.2.1)
  | setIdle t next ih =>
    intro σ L h hc
    have h1 : Good cfg σ L [.setIdleRet t] { L with idle := t } :=
      Good.single trivial ⟨h.irq, h.immed, rfl, h.dq⟩ rfl hc
        (fun ho _ => ⟨trivial, ⟨ho.dq, ho.ordered, ho.nonnull⟩⟩)
    exact h1.trans (ih h1.2.1 h1.2.2.2.1)
  | getIdle next ih =>
    intro σ L h hc
    have h1 : Good cfg σ L [.getIdleRet L.idle] L :=
      Good.single h.idle.symm h rfl hc (fun ho _ => ⟨trivial, ho⟩)
    exact h1.trans (ih h1.2.1 h1.2.2.2.1)
  | current next ih =>
    intro σ L h hc
    have h1 : Good cfg σ L [.currentRet L.curr] L :=
      Good.single hc.symm h rfl hc (fun ho _ => ⟨trivial, ho⟩)
    exact h1.trans (ih h1.2.1 h1.2.2.2.1)
  | nextTask next ih =>
    intro σ L h hc
    have h1 := lnext_good (cfg := cfg) h hc
    exact h1.trans (ih h1.2.1 h1.2.2.2.1)
  | wait t next ih =>
    intro σ L h hc
    have h1 : Good cfg σ L [.waitRet t .none] L :=
      Good.single rfl h rfl hc (fun ho _ => ⟨trivial, ho⟩)
    exact h1.trans (ih h1.2.1 h1.2.2.2.1)

end Mu.Sched
