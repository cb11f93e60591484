import Verif.Lemmas.SchedTrace

/-! # Consequences for reachable scheduler states -/

namespace Mu.Sched
open Spec

variable {T R : Type} [DecidableEq T] {cfg : Cfg T R}

/-- Everything known about a reachable state. -/
structure Inv (cfg : Cfg T R) (s : Sched T) (h : List (Ev T)) (L : LSt T) : Prop where
  rep : Rep cfg s L
  sim : Sim (books h) L
  cur : (books h).cur = L.curr
  legal : Always (legal cfg) (St.start T) h
  time : Always (proper cfg) (St.start T) h →
    Always (legalTime cfg) (St.start T) h ∧ Ord cfg (books h) L

theorem books_append (a b : List (Ev T)) : books (a ++ b) = track (books a) b := track_append _ _ _

theorem Inv.run (hw : cfg.Wf) {s : Sched T} {h : List (Ev T)} {L : LSt T} (hi : Inv cfg s h L)
    (p : Prog T R) : ∃ s', run cfg s p = .ok ((lrun cfg L p).1, s') ∧
      Inv cfg s' (h ++ (lrun cfg L p).1) (lrun cfg L p).2 := by
  obtain ⟨s', e1, e2⟩ := run_refines hw p hi.rep
  obtain ⟨g1, g2, g3, g4, g5⟩ := lrun_good (cfg := cfg) p hi.sim hi.cur
  refine ⟨s', e1, ⟨e2, by rw [books_append]; exact g2, by rw [books_append]; exact g4,
    (always_append _ _ _).mpr ⟨hi.legal, g1⟩, fun hp => ?_⟩⟩
  obtain ⟨p1, p2⟩ := (always_append _ _ _).mp hp
  obtain ⟨t1, t2⟩ := hi.time p1
  obtain ⟨t3, t4⟩ := g5 t2 p2
  exact ⟨(always_append _ _ _).mpr ⟨t1, t3⟩, by rw [books_append]; exact t4⟩

theorem Inv.enter (hw : cfg.Wf) {s : Sched T} {h : List (Ev T)} {L : LSt T} (hi : Inv cfg s h L)
    (now : T) : ∃ s', select cfg now s = .ok ((lselect cfg now L).1, s') ∧
      s'.curr = (lselect cfg now L).2.curr ∧
      (s'.curr ≠ NULL → Inv cfg s' (h ++ .stepEnter :: (lselect cfg now L).1 ++ [.called s'.curr])
        (lselect cfg now L).2) := by
  obtain ⟨s', e1, e2⟩ := select_ok hw hi.rep now
  obtain ⟨g1, g2, g3, g4, g5⟩ := select_sim (cfg := cfg) (σ := next (books h) .stepEnter) (L := L)
    now ⟨hi.sim.irq, hi.sim.immed, hi.sim.idle, hi.sim.dq⟩ rfl
  refine ⟨s', e1, e2.curr, fun hn => ?_⟩
  have hb : books (h ++ .stepEnter :: (lselect cfg now L).1 ++ [.called s'.curr]) =
      next (track (next (books h) .stepEnter) (lselect cfg now L).1) (.called s'.curr) := by
    rw [books_append, books_append]; rfl
  refine ⟨e2, ?_, ?_, ?_, ?_⟩
  · rw [hb]; exact ⟨g2.irq, g2.immed, g2.idle, g2.dq⟩
  · rw [hb]; exact e2.curr
  · rw [always_append, always_append]
    refine ⟨⟨hi.legal, trivial, g1⟩, ⟨?_, trivial⟩⟩
    rw [track_append]
    exact ⟨by show (track (next (books h) .stepEnter) _).steps.head? = _; rw [g3, e2.curr]; rfl, hn⟩
  · intro hp
    rw [always_append, always_append] at hp ⊢
    obtain ⟨⟨p1, _, p2⟩, p3⟩ := hp
    obtain ⟨t1, t2⟩ := hi.time p1
    obtain ⟨t3, t4⟩ := g5 ⟨t2.dq, t2.ordered, t2.nonnull⟩ p2
    refine ⟨⟨⟨t1, trivial, t3⟩, ⟨trivial, trivial⟩⟩, ?_⟩
    rw [hb]; exact ⟨t4.dq, t4.ordered, t4.nonnull⟩

theorem Inv.leave {s : Sched T} {h : List (Ev T)} {L : LSt T} (hi : Inv cfg s h L) {t : Val}
    (hs : (books h).steps.head? = some (.running t)) :
    Inv cfg { s with curr := NULL } (h ++ [.stepRet]) { L with curr := NULL } := by
  refine ⟨⟨hi.rep.irq, hi.rep.immed, hi.rep.immedCap, hi.rep.count,
    hi.rep.le, hi.rep.alloc, hi.rep.dq, rfl, hi.rep.idle⟩, ?_, ?_, ?_, ?_⟩
  · rw [books_append]; exact ⟨hi.sim.irq, hi.sim.immed, hi.sim.idle, hi.sim.dq⟩
  · rw [books_append]; rfl
  · exact (always_append _ _ _).mpr ⟨hi.legal, Or.inr ⟨t, hs⟩, trivial⟩
  · intro hp
    obtain ⟨t1, t2⟩ := hi.time ((always_append _ _ _).mp hp).1
    refine ⟨(always_append _ _ _).mpr ⟨t1, trivial, trivial⟩, ?_⟩
    rw [books_append]; exact ⟨t2.dq, t2.ordered, t2.nonnull⟩

theorem Inv.hook {s : Sched T} {h : List (Ev T)} {L : LSt T} (hi : Inv cfg s h L) (t : Val) :
    Inv cfg s (h ++ [.transferHook t]) L := by
  refine ⟨hi.rep, ?_, ?_, ?_, ?_⟩
  · rw [books_append]; exact hi.sim
  · rw [books_append]; exact hi.cur
  · exact (always_append _ _ _).mpr ⟨hi.legal, trivial, trivial⟩
  · intro hp
    obtain ⟨t1, t2⟩ := hi.time ((always_append _ _ _).mp hp).1
    refine ⟨(always_append _ _ _).mpr ⟨t1, trivial, trivial⟩, ?_⟩
    rw [books_append]; exact t2

theorem boot_inv (hw : cfg.Wf) {s : Sched T} (hb : Boot cfg s) :
    Inv cfg s [] ⟨[], [], [], NULL, NULL⟩ := by
  obtain ⟨s0, i1, i2, h1, h2, h3, rfl⟩ := hb
  refine ⟨init_rep hw h1 h2 h3, ⟨rfl, rfl, rfl, List.Perm.refl _⟩, rfl, trivial, fun _ => ⟨trivial, ?_⟩⟩
  exact ⟨rfl, ⟨by simp [books, track, St.start], by simp [books, track, St.start]⟩,
    by simp [books, track, St.start]⟩

theorem reach_inv (hw : cfg.Wf) {s : Sched T} {h : List (Ev T)} (hr : Reach cfg s h) :
    ∃ L, Inv cfg s h L := by
  induction hr with
  | boot hb => exact ⟨_, boot_inv hw hb⟩
  | calls p hr hp ih =>
    obtain ⟨L, hi⟩ := ih
    obtain ⟨s', e1, e2⟩ := hi.run hw p
    rw [hp] at e1
    cases e1
    exact ⟨_, e2⟩
  | inTask now hr hs hn ih =>
    obtain ⟨L, hi⟩ := ih
    obtain ⟨s', e1, e2, e3⟩ := hi.enter hw now
    rw [hs] at e1
    cases e1
    exact ⟨_, e3 hn⟩
  | leave hr hs ih =>
    obtain ⟨L, hi⟩ := ih
    exact ⟨_, hi.leave hs⟩
  | inHook t hr ih =>
    obtain ⟨L, hi⟩ := ih
    exact ⟨_, hi.hook t⟩

theorem always_at {Q : St T → Ev T → Prop} {a b : List (Ev T)} {e : Ev T} {σ : St T}
    (h : Always Q σ (a ++ e :: b)) : Q (track σ a) e := ((always_append _ _ _).mp h).2.1

/-! ## Facts about the books -/

theorem books_ordered_aux : ∀ (h : List (Ev T)) (σ : St T), Always (proper cfg) σ h →
    Ordered cfg (σ.pend.map (·.time)) → Ordered cfg ((track σ h).pend.map (·.time)) := by
  intro h
  induction h with
  | nil => intro σ _ ho; exact ho
  | cons e h ih =>
    intro σ hp ho
    refine ih _ hp.2 ?_
    have hp1 := hp.1
    cases e with
    | sel src t =>
      cases src with
      | deferred time =>
        refine ho.mono fun y hy => ?_
        obtain ⟨d, hd, rfl⟩ := List.mem_map.mp hy
        exact List.mem_map_of_mem (List.mem_of_mem_erase hd)
      | _ => exact ho
    | deferRet t time e =>
      cases e with
      | none =>
        refine Ordered.mono hp1.1 fun y hy => ?_
        simp only [next, List.map_append, List.mem_append, List.map_cons, List.map_nil,
          List.mem_singleton] at hy
        rcases hy with hy | rfl
        · exact List.mem_cons_of_mem _ hy
        · simp
      | _ => exact ho
    | removeRet t e =>
      refine ho.mono fun y hy => ?_
      obtain ⟨d, hd, rfl⟩ := List.mem_map.mp hy
      exact List.mem_map_of_mem (List.mem_filter.mp hd).1
    | resetRet => exact ho.mono (by simp [next])
    | immedRet t e => cases e <;> exact ho
    | isrRet t e => cases e <;> exact ho
    | _ => exact ho

theorem books_ordered (h : List (Ev T)) (hp : Always (proper cfg) (St.start T) h) :
    Ordered cfg ((books h).pend.map (·.time)) :=
  books_ordered_aux h _ hp ⟨by simp [St.start], by simp [St.start]⟩

theorem books_le_aux : ∀ (h : List (Ev T)) (σ : St T), Always (legal cfg) σ h →
    (σ.immed.length ≤ cfg.maxImmed ∧ σ.irq.length ≤ cfg.maxIrq - 1 ∧
      σ.pend.length ≤ cfg.maxDeferred) →
    ((track σ h).immed.length ≤ cfg.maxImmed ∧ (track σ h).irq.length ≤ cfg.maxIrq - 1 ∧
      (track σ h).pend.length ≤ cfg.maxDeferred) := by
  intro h
  induction h with
  | nil => intro σ _ ho; exact ho
  | cons e h ih =>
    intro σ hp ho
    refine ih _ hp.2 ?_
    have hp1 := hp.1
    obtain ⟨h1, h2, h3⟩ := ho
    cases e with
    | sel src t =>
      cases src with
      | deferred time =>
        exact ⟨h1, h2, Nat.le_trans (List.length_erase_le) h3⟩
      | irq => exact ⟨h1, by simp [next]; omega, h3⟩
      | immed => exact ⟨by simp [next]; omega, h2, h3⟩
      | idle => exact ⟨h1, h2, h3⟩
    | deferRet t time e =>
      cases e with
      | none =>
        simp only [legal] at hp1
        split at hp1
        · exact ⟨h1, h2, by simp [next]; omega⟩
        · cases hp1
      | _ => exact ⟨h1, h2, h3⟩
    | removeRet t e =>
      exact ⟨h1, h2, Nat.le_trans (List.length_filter_le _ _) h3⟩
    | resetRet => exact ⟨Nat.zero_le _, Nat.zero_le _, Nat.zero_le _⟩
    | immedRet t e =>
      cases e with
      | none =>
        simp only [legal] at hp1
        split at hp1
        · exact ⟨by simp [next]; omega, h2, h3⟩
        · cases hp1
      | _ => exact ⟨h1, h2, h3⟩
    | isrRet t e =>
      cases e with
      | none =>
        simp only [legal] at hp1
        split at hp1
        · exact ⟨h1, by simp [next]; omega, h3⟩
        · cases hp1
      | _ => exact ⟨h1, h2, h3⟩
    | _ => exact ⟨h1, h2, h3⟩

theorem books_le (h : List (Ev T)) (hl : Always (legal cfg) (St.start T) h) :
    (books h).immed.length ≤ cfg.maxImmed ∧ (books h).irq.length ≤ cfg.maxIrq - 1 ∧
      (books h).pend.length ≤ cfg.maxDeferred :=
  books_le_aux h _ hl ⟨Nat.zero_le _, Nat.zero_le _, Nat.zero_le _⟩

theorem pend_without {t : Val} : ∀ (h : List (Ev T)) (σ : St T), (∀ d ∈ σ.pend, d.task ≠ t) →
    (∀ time, .deferRet t time .none ∉ h) → ∀ d ∈ (track σ h).pend, d.task ≠ t := by
  intro h
  induction h with
  | nil => intro σ ho _; exact ho
  | cons e h ih =>
    intro σ ho hn
    refine ih _ ?_ (fun time hc => hn time (List.mem_cons_of_mem _ hc))
    cases e with
    | sel src u =>
      cases src with
      | deferred time => exact fun d hd => ho d (List.mem_of_mem_erase hd)
      | _ => exact ho
    | deferRet u time e =>
      cases e with
      | none =>
        intro d hd
        simp only [next, List.mem_append, List.mem_singleton] at hd
        rcases hd with hd | rfl
        · exact ho d hd
        · rintro rfl
          exact hn time (by simp)
      | _ => exact ho
    | removeRet u e => exact fun d hd => ho d (List.mem_filter.mp hd).1
    | resetRet => intro d hd; simp [next] at hd
    | immedRet u e => cases e <;> exact ho
    | isrRet u e => cases e <;> exact ho
    | _ => exact ho

theorem cur_keep : ∀ (b : List (Ev T)) (σ : St T),
    (∀ e ∈ b, e ≠ .stepRet ∧ e ≠ .resetRet ∧ ∀ u, e ≠ .called u) → (track σ b).cur = σ.cur := by
  intro b
  induction b with
  | nil => intro σ _; rfl
  | cons e b ih =>
    intro σ hb
    rw [track_cons, ih _ (fun x hx => hb x (List.mem_cons_of_mem _ hx))]
    obtain ⟨h1, h2, h3⟩ := hb e (by simp)
    cases e with
    | sel src u => cases src <;> rfl
    | called u => exact absurd rfl (h3 u)
    | stepRet => exact absurd rfl h1
    | resetRet => exact absurd rfl h2
    | immedRet u e => cases e <;> rfl
    | isrRet u e => cases e <;> rfl
    | deferRet u _ e => cases e <;> rfl
    | _ => rfl

theorem cur_outside : ∀ (b : List (Ev T)) (σ : St T), (σ.steps = [] → σ.cur = NULL) →
    (track σ b).steps = [] → (track σ b).cur = NULL := by
  intro b
  induction b with
  | nil => intro σ h; exact h
  | cons e b ih =>
    intro σ h
    refine ih _ ?_
    cases e with
    | sel src u =>
      cases src with
      | deferred time =>
        simp only [next]
        split
        · exact h
        · intro hc; cases hc
      | _ => intro hc; cases hc
    | called u => intro hc; cases hc
    | stepRet => intro _; rfl
    | resetRet => intro _; rfl
    | stepEnter => intro hc; cases hc
    | immedRet u e => cases e <;> exact h
    | isrRet u e => cases e <;> exact h
    | deferRet u _ e => cases e <;> exact h
    | _ => exact h

theorem isr_fifo : ∀ (b : List (Ev T)) (σ : St T), Always (legal cfg) σ b → .resetRet ∉ b →
    σ.irq ++ isrAccepted b = isrTaken b ++ (track σ b).irq := by
  intro b
  induction b with
  | nil => intro σ _ _; simp [isrAccepted, isrTaken, track]
  | cons e b ih =>
    intro σ hl hn
    have ih' := ih _ hl.2 (fun hc => hn (List.mem_cons_of_mem _ hc))
    rw [track_cons]
    have hl1 := hl.1
    cases e with
    | sel src u =>
      cases src with
      | irq =>
        obtain ⟨_, hh⟩ := hl1
        cases hi : σ.irq with
        | nil => rw [hi] at hh; cases hh
        | cons x r =>
          rw [hi] at hh; cases hh
          simp only [next, hi, List.tail_cons] at ih'
          simpa [isrAccepted, isrTaken, next, hi] using ih'
      | _ => simpa [isrAccepted, isrTaken, next] using ih'
    | resetRet => exact absurd (by simp) hn
    | isrRet u e =>
      cases e with
      | none => simpa [isrAccepted, isrTaken, next] using ih'
      | _ => simpa [isrAccepted, isrTaken, next] using ih'
    | immedRet u e => cases e <;> simpa [isrAccepted, isrTaken, next] using ih'
    | deferRet u _ e => cases e <;> simpa [isrAccepted, isrTaken, next] using ih'
    | _ => simpa [isrAccepted, isrTaken, next] using ih'

theorem immed_fifo : ∀ (b : List (Ev T)) (σ : St T), Always (legal cfg) σ b → .resetRet ∉ b →
    σ.immed ++ immedAccepted b = immedTaken b ++ (track σ b).immed := by
  intro b
  induction b with
  | nil => intro σ _ _; simp [immedAccepted, immedTaken, track]
  | cons e b ih =>
    intro σ hl hn
    have ih' := ih _ hl.2 (fun hc => hn (List.mem_cons_of_mem _ hc))
    rw [track_cons]
    have hl1 := hl.1
    cases e with
    | sel src u =>
      cases src with
      | immed =>
        obtain ⟨_, _, hh⟩ := hl1
        cases hi : σ.immed with
        | nil => rw [hi] at hh; cases hh
        | cons x r =>
          rw [hi] at hh; cases hh
          simp only [next, hi, List.tail_cons] at ih'
          simpa [immedAccepted, immedTaken, next, hi] using ih'
      | _ => simpa [immedAccepted, immedTaken, next] using ih'
    | resetRet => exact absurd (by simp) hn
    | immedRet u e =>
      cases e with
      | none => simpa [immedAccepted, immedTaken, next] using ih'
      | _ => simpa [immedAccepted, immedTaken, next] using ih'
    | isrRet u e => cases e <;> simpa [immedAccepted, immedTaken, next] using ih'
    | deferRet u _ e => cases e <;> simpa [immedAccepted, immedTaken, next] using ih'
    | _ => simpa [immedAccepted, immedTaken, next] using ih'

theorem conserve (t : Val) : ∀ (b : List (Ev T)) (σ : St T), Always (legal cfg) σ b →
    waiting t σ + ((isrAccepted b).count t + (immedAccepted b).count t +
      ((deferAccepted b).map (·.task)).count t) =
    ((isrTaken b).count t + (immedTaken b).count t + ((deferTaken b).map (·.task)).count t) +
      dropped t σ b + waiting t (track σ b) := by
  intro b
  induction b with
  | nil => intro σ _; simp [isrAccepted, immedAccepted, deferAccepted, isrTaken, immedTaken,
      deferTaken, dropped, track]
  | cons e b ih =>
    intro σ hl
    have ih' := ih _ hl.2
    rw [track_cons]
    have hl1 := hl.1
    cases e with
    | sel src u =>
      cases src with
      | irq =>
        obtain ⟨_, hh⟩ := hl1
        cases hi : σ.irq with
        | nil => rw [hi] at hh; cases hh
        | cons x r =>
          rw [hi] at hh; cases hh
          simp [isrAccepted, immedAccepted, deferAccepted, isrTaken, immedTaken, deferTaken,
            dropped, waiting, next, hi, List.count_cons] at ih' ⊢
          omega
      | immed =>
        obtain ⟨_, _, hh⟩ := hl1
        cases hi : σ.immed with
        | nil => rw [hi] at hh; cases hh
        | cons x r =>
          rw [hi] at hh; cases hh
          simp [isrAccepted, immedAccepted, deferAccepted, isrTaken, immedTaken, deferTaken,
            dropped, waiting, next, hi, List.count_cons] at ih' ⊢
          omega
      | deferred time =>
        obtain ⟨_, _, hm, _⟩ := hl1
        have hp := ((List.perm_cons_erase hm).map (·.task)).count_eq t
        simp [isrAccepted, immedAccepted, deferAccepted, isrTaken, immedTaken, deferTaken,
            dropped, waiting, next, List.count_cons] at ih' hp ⊢
        omega
      | idle =>
        simp [isrAccepted, immedAccepted, deferAccepted, isrTaken, immedTaken, deferTaken,
            dropped, waiting, next] at ih' ⊢
        omega
    | removeRet u e =>
      have hp : ((σ.pend.filter (fun d => d.task ≠ u)).map (·.task)).count t =
          if u = t then 0 else (σ.pend.map (·.task)).count t := by
        generalize σ.pend = l
        induction l with
        | nil => simp
        | cons d l ih =>
          by_cases hd : d.task = u
          · rw [List.filter_cons_of_neg (by simp [hd]), ih]
            by_cases hu : u = t
            · simp [hu]
            · simp [hu, List.count_cons, hd]
          · rw [List.filter_cons_of_pos (by simp [hd])]
            simp only [List.map_cons, List.count_cons, ih]
            by_cases hu : u = t
            · subst hu; simp [hd]
            · simp [hu]
      simp [isrAccepted, immedAccepted, deferAccepted, isrTaken, immedTaken, deferTaken,
            dropped, waiting, next] at ih' hp ⊢
      rw [hp] at ih'
      split at ih' <;> simp_all <;> omega
    | resetRet =>
      simp [isrAccepted, immedAccepted, deferAccepted, isrTaken, immedTaken, deferTaken,
            dropped, waiting, next] at ih' ⊢
      omega
    | immedRet u e =>
      cases e <;> simp [isrAccepted, immedAccepted, deferAccepted, isrTaken, immedTaken,
        deferTaken, dropped, waiting, next, List.count_cons] at ih' ⊢ <;> omega
    | isrRet u e =>
      cases e <;> simp [isrAccepted, immedAccepted, deferAccepted, isrTaken, immedTaken,
        deferTaken, dropped, waiting, next, List.count_cons] at ih' ⊢ <;> omega
    | deferRet u _ e =>
      cases e <;> simp [isrAccepted, immedAccepted, deferAccepted, isrTaken, immedTaken,
        deferTaken, dropped, waiting, next, List.count_cons] at ih' ⊢ <;> omega
    | _ =>
      simp [isrAccepted, immedAccepted, deferAccepted, isrTaken, immedTaken, deferTaken,
            dropped, waiting, next] at ih' ⊢
      omega

/-! ## Calls and choices -/

omit [DecidableEq T] in
theorem calls_append (a b : List (Ev T)) : Spec.calls (a ++ b) = Spec.calls a ++ Spec.calls b := by
  simp [Spec.calls, List.filterMap_append]

omit [DecidableEq T] in
theorem sels_append (a b : List (Ev T)) : sels (a ++ b) = sels a ++ sels b := by
  simp [sels, List.filterMap_append]

/-- Called = taken, NULL excepted. -/
def CS (tr : List (Ev T)) : Prop := Spec.calls tr = ((sels tr).map (·.2)).filter (· ≠ NULL)

omit [DecidableEq T] in
theorem CS.append {a b : List (Ev T)} (ha : CS a) (hb : CS b) : CS (a ++ b) := by
  unfold CS at *
  rw [calls_append, sels_append, List.map_append, List.filter_append, ha, hb]

omit [DecidableEq T] in
theorem lselect_cs (now : T) (L : LSt T) :
    Spec.calls (lselect cfg now L).1 = [] ∧
    ((sels (lselect cfg now L).1).map (·.2)).filter (· ≠ NULL) =
      if (lselect cfg now L).2.curr = NULL then [] else [(lselect cfg now L).2.curr] := by
  have aux : ∀ t : Val, (if ¬t = NULL then [t] else []) = if t = NULL then [] else [t] := by
    intro t; by_cases h : t = NULL <;> simp [h]
  unfold lselect
  cases L.irq with
  | cons x r => by_cases h : x = NULL <;> simp [Spec.calls, sels, h]
  | nil =>
    cases L.dq with
    | nil =>
      cases L.immed with
      | nil => by_cases h : L.idle = NULL <;> simp [Spec.calls, sels, lfetch, h]
      | cons x r => by_cases h : x = NULL <;> simp [Spec.calls, sels, lfetch, h]
    | cons d ds =>
      simp only [lfetch]
      by_cases hp : cfg.precedes now d.time = false
      · simp only [hp, if_true]
        by_cases hn : d.task = NULL
        · simp only [hn, ne_eq, not_true, if_false]
          cases L.immed with
          | nil => by_cases h : L.idle = NULL <;> simp [Spec.calls, sels, h]
          | cons x r => by_cases h : x = NULL <;> simp [Spec.calls, sels, h]
        · simp [Spec.calls, sels, hn]
      · simp only [if_neg hp, ne_eq, not_true, if_false]
        cases L.immed with
        | nil => by_cases h : L.idle = NULL <;> simp [Spec.calls, sels, h]
        | cons x r => by_cases h : x = NULL <;> simp [Spec.calls, sels, h]

omit [DecidableEq T] in
theorem lrun_cs (p : Prog T R) : ∀ L : LSt T, CS (lrun cfg L p).1 := by
  have single : ∀ (e : Ev T) (tr : List (Ev T)), Spec.calls [e] = [] → sels [e] = [] → CS tr →
      CS (e :: tr) := by
    intro e tr h1 h2 h3
    refine CS.append (a := [e]) ?_ h3
    simp [CS, h1, h2]
  induction p with
  | done => intro L; rfl
  | step now body next ih1 ih2 =>
    intro L
    refine CS.append ?_ (ih2 _)
    obtain ⟨h1, h2⟩ := lselect_cs (cfg := cfg) now L
    simp only [lstep, List.cons_append]
    refine single _ _ rfl rfl ?_
    by_cases hn : (lselect cfg now L).2.curr = NULL
    · simp only [hn, ne_eq, not_true, if_false, List.append_nil]
      refine CS.append ?_ (by rfl)
      rw [if_pos hn] at h2
      unfold CS; rw [h1, h2]
    · simp only [hn, ne_eq, not_false_eq_true, if_true]
      rw [List.append_assoc]
      rw [if_neg hn] at h2
      have := ih1 (lselect cfg now L).2
      unfold CS at this ⊢
      rw [calls_append, sels_append, List.map_append, List.filter_append, h1, h2]
      simp only [List.cons_append, List.nil_append]
      have e1 : Spec.calls (.called (lselect cfg now L).2.curr ::
          ((lrun cfg (lselect cfg now L).2 body).1 ++ [.stepRet])) =
          (lselect cfg now L).2.curr :: Spec.calls (lrun cfg (lselect cfg now L).2 body).1 := by
        simp [Spec.calls, List.filterMap_append]
      have e2 : sels (.called (lselect cfg now L).2.curr ::
          ((lrun cfg (lselect cfg now L).2 body).1 ++ [.stepRet])) =
          sels (lrun cfg (lselect cfg now L).2 body).1 := by
        simp [sels, List.filterMap_append]
      rw [e1, e2, this]
  | transfer t hook next ih1 ih2 =>
    intro L
    simp only [lrun, List.cons_append]
    exact single _ _ rfl rfl (CS.append (ih1 _) (single _ _ rfl rfl (ih2 _)))
  | deferFor t now delay next ih =>
    intro L
    exact single _ _ rfl rfl (single _ _ rfl rfl (ih _))
  | _ => rename_i ih; intro L; exact single _ _ rfl rfl (ih _)

theorem reach_calls (hw : cfg.Wf) {s : Sched T} {h : List (Ev T)} (hr : Reach cfg s h) : CS h := by
  induction hr with
  | boot hb => rfl
  | leave hr hs ih => exact ih.append rfl
  | inHook t hr ih => exact ih.append rfl
  | calls p hr hp ih =>
    obtain ⟨L, hi⟩ := reach_inv hw hr
    obtain ⟨s', e1, e2⟩ := hi.run hw p
    rw [hp] at e1
    cases e1
    exact ih.append (lrun_cs p L)
  | inTask now hr hs hn ih =>
    obtain ⟨L, hi⟩ := reach_inv hw hr
    obtain ⟨s', e1, e2, e3⟩ := hi.enter hw now
    rw [hs] at e1
    cases e1
    rw [List.append_assoc]
    refine ih.append ?_
    obtain ⟨h1, h2⟩ := lselect_cs (cfg := cfg) now L
    rw [e2] at hn ⊢
    rw [if_neg hn] at h2
    unfold CS
    have e4 : ∀ l : List (Ev T), Spec.calls (.stepEnter :: l) = Spec.calls l := fun l => by
      simp [Spec.calls]
    have e5 : ∀ l : List (Ev T), sels (.stepEnter :: l) = sels l := fun l => by
      simp [sels]
    rw [List.cons_append, e4, e5, calls_append, sels_append, h1]
    simp only [List.map_append, List.filter_append, h2]
    simp [Spec.calls, sels]

/-! ## Refused calls -/

omit [DecidableEq T] in
theorem immed_full (hw : cfg.Wf) {s : Sched T} {L : LSt T} (h : Rep cfg s L) (t : Val)
    (hc : ¬ L.immed.length < cfg.maxImmed) : immed cfg s t = .ok (.full, s) := by
  have := h.immedCap
  simp only [immed, Queue.put_full h.immed t (by omega), C.ok_bind, if_true]

omit [DecidableEq T] in
theorem isr_full {s : Sched T} {L : LSt T} (h : Rep cfg s L) (t : Val)
    (hc : ¬ L.irq.length < cfg.maxIrq - 1) : fromIsr s t = .ok (.full, s) := by
  obtain ⟨d, h1⟩ := h.irq
  simp only [fromIsr, (Spsc.put_rep h1 t).2 hc, C.ok_bind, if_true]

omit [DecidableEq T] in
theorem defer_full {s : Sched T} {L : LSt T} (h : Rep cfg s L) (t : Val) (time : T)
    (hc : ¬ L.dq.length < cfg.maxDeferred) : deferAux cfg s t time = .ok (.full, s) := by
  have h1 := h.count
  have h2 := h.le
  unfold deferAux
  rw [if_pos (by omega)]

end Mu.Sched
