import Verif.Spec.Task

namespace Mu.Task
open Spec

theorem conforms_append (a b : List Ev) : ∀ σ : St,
    Conforms σ (a ++ b) ↔ Conforms σ a ∧ Conforms (track σ a) b := by
  induction a with
  | nil => intro σ; simp [Conforms, track]
  | cons e a ih => intro σ; simp [Conforms, track, ih, and_assoc]

theorem track_append (a b : List Ev) (σ : St) : track σ (a ++ b) = track (track σ a) b := by
  simp [track]

/-- Books and memory agree. -/
structure Same (w : World) (σ : St) : Prop where
  task : σ.task = w.task
  sh : σ.stateHook = w.stateHook
  ch : σ.callHook = w.callHook
  th : σ.transferHook = w.transferHook

/-- What running a program does to the books. -/
def Good (σ : St) (r : List Ev × World) : Prop :=
  Conforms σ r.1 ∧ Same r.2 (track σ r.1) ∧ (track σ r.1).stack = σ.stack

theorem Good.seq {σ : St} {a : List Ev} {w : World} {b : List Ev × World} (h1 : Good σ (a, w))
    (h2 : Good (track σ a) b) : Good σ (a ++ b.1, b.2) :=
  ⟨(conforms_append _ _ _).mpr ⟨h1.1, h2.1⟩, by rw [track_append]; exact h2.2.1,
    by rw [track_append, h2.2.2]; exact h1.2.2⟩

theorem Good.one {σ : St} {w : World} {e : Ev} (h1 : legal σ e) (h2 : Same w (next σ e))
    (h3 : (next σ e).stack = σ.stack) : Good σ ([e], w) := ⟨⟨h1, trivial⟩, h2, h3⟩

theorem call_good {hook body : World → C (List Ev × World)}
    (hh : ∀ w σ r, Same w σ → userCode σ.stack → hook w = .ok r → Good σ r)
    (hb : ∀ w σ r, Same w σ → userCode σ.stack → body w = .ok r → Good σ r)
    {w : World} {σ : St} {t : Val} {r : List Ev × World} (hs : Same w σ) (hu : userCode σ.stack)
    (h : call w t hook body = .ok r) : Good σ r := by
  unfold call at h
  split at h
  · rename_i htn
    have fin : ∀ (σ1 : St) (w1 : World) (tr1 : List Ev), Conforms (next σ (.callEnter t)) tr1 →
        track (next σ (.callEnter t)) tr1 = σ1 → Same w1 σ1 →
        (σ1.stack = .hooked t :: σ.stack ∨ (σ1.stack = .entered t :: σ.stack ∧ σ1.callHook = NULL)) →
        (do let x ← w1.deref t
            if x.fn = NULL then (.error .null : C (List Ev × World))
            else do
              let (tr2, w) ← body w1
              .ok (Ev.callEnter t :: tr1 ++ Ev.fnCalled x.fn t :: tr2 ++ [Ev.fnDone, Ev.callRet t], w))
          = .ok r → Good σ r := by
      intro σ1 w1 tr1 hc ht hs1 hst h
      simp only [World.deref, htn, if_false, C.ok_bind] at h
      split at h
      · cases h
      cases hbw : body w1 with
      | error e => rw [hbw] at h; cases h
      | ok x =>
        obtain ⟨tr2, w2⟩ := x
        rw [hbw] at h
        cases h
        have hs2 : Same w1 (next σ1 (.fnCalled (w1.task t).fn t)) :=
          ⟨hs1.task, hs1.sh, hs1.ch, hs1.th⟩
        have hst2 : (next σ1 (.fnCalled (w1.task t).fn t)).stack = .running t :: σ.stack := by
          rcases hst with e | ⟨e, -⟩ <;> simp [next, St.top, e]
        have hl : legal σ1 (.fnCalled (w1.task t).fn t) := by
          refine ⟨htn, by rw [hs1.task], ?_⟩
          rcases hst with e | ⟨e, e'⟩
          · exact .inl (by simp [e])
          · exact .inr ⟨by simp [e], e'⟩
        obtain ⟨g1, g2, g3⟩ := hb _ _ _ hs2 (by rw [hst2]; trivial) hbw
        simp only at g1 g2 g3
        generalize hσ2 : track (next σ1 (.fnCalled (w1.task t).fn t)) tr2 = σ2 at *
        rw [hst2] at g3
        have hn : track σ (.callEnter t :: tr1 ++ .fnCalled (w1.task t).fn t :: tr2) = σ2 := by
          rw [track_append]
          change track (track (next σ (.callEnter t)) tr1) _ = σ2
          rw [ht]; exact hσ2
        refine ⟨?_, ?_, ?_⟩
        · rw [conforms_append, conforms_append]
          refine ⟨⟨⟨hu, hc⟩, ?_⟩, ?_⟩
          · change Conforms (track (next σ (.callEnter t)) tr1) _
            rw [ht]; exact ⟨hl, g1⟩
          · rw [hn]
            refine ⟨⟨t, by rw [g3]; rfl⟩, .inl ⟨htn, ?_⟩, trivial⟩
            simp [next, g3, St.top]
        · simp only
          rw [track_append, hn]
          simp only [track, List.foldl, next, g3, St.top]
          exact ⟨g2.task, g2.sh, g2.ch, g2.th⟩
        · simp only
          rw [track_append, hn]
          simp [track, next, g3, St.top]
    split at h
    · rename_i hch
      cases hhw : hook w with
      | error e => rw [hhw] at h; cases h
      | ok x =>
        obtain ⟨tr, w1⟩ := x
        rw [hhw] at h
        simp only [C.ok_bind] at h
        have hst : (next (next σ (.callEnter t)) (.hookCalled w.callHook t)).stack =
            .hooking t :: σ.stack := rfl
        obtain ⟨g1, g2, g3⟩ := hh w (next (next σ (.callEnter t)) (.hookCalled w.callHook t)) _
          ⟨hs.task, hs.sh, hs.ch, hs.th⟩ (by rw [hst]; trivial) hhw
        simp only at g1 g2 g3
        rw [hst] at g3
        have hn : ∀ l, track (next σ (.callEnter t)) (.hookCalled w.callHook t :: tr ++ l) =
            track (track (next (next σ (.callEnter t)) (.hookCalled w.callHook t)) tr) l := by
          intro l; rw [track_append]; rfl
        refine fin _ w1 _ ?_ rfl ?_ ?_ h
        · refine (conforms_append _ _ _).mpr ⟨⟨⟨htn, rfl, hs.ch.symm, hch⟩, g1⟩, ?_⟩
          refine ⟨⟨t, ?_⟩, trivial⟩
          have := hn []
          rw [List.append_nil] at this
          rw [this]
          simp [track] at g3 ⊢
          rw [g3]; rfl
        · rw [hn]
          simp only [track] at g3 g2 ⊢
          simp only [List.foldl, next, St.top] at g3 g2 ⊢
          rw [g3]
          exact ⟨g2.task, g2.sh, g2.ch, g2.th⟩
        · left
          rw [hn]
          simp only [track] at g3 ⊢
          simp only [List.foldl, next, St.top] at g3 ⊢
          rw [g3]
          simp [g3]
    · rename_i hch
      simp only [C.ok_bind, ne_eq, Classical.not_not] at h hch
      exact fin (next σ (.callEnter t)) w [] trivial rfl ⟨hs.task, hs.sh, hs.ch, hs.th⟩
        (.inr ⟨rfl, by rw [← hch]; exact hs.ch⟩) h
  · rename_i htn
    simp only [ne_eq, Classical.not_not] at htn
    subst htn
    cases h
    exact ⟨⟨hu, .inr ⟨rfl, rfl⟩, trivial⟩, ⟨hs.task, hs.sh, hs.ch, hs.th⟩, rfl⟩

theorem same_put {w : World} {σ : St} (hs : Same w σ) (t : Val) (x : Task) (st : List Phase) :
    Same (w.put t x) { σ with task := upd σ.task t x, stack := st } :=
  ⟨by simp only [World.put, hs.task]; rfl, hs.sh, hs.ch, hs.th⟩

theorem setState_good {hook : World → C (List Ev × World)}
    (hh : ∀ w σ r, Same w σ → userCode σ.stack → hook w = .ok r → Good σ r)
    {w : World} {σ : St} {t : Val} {s : Nat} {r : List Ev × World} (hs : Same w σ)
    (hu : userCode σ.stack) (h : setState w t s hook = .ok r) : Good σ r := by
  unfold setState at h
  split at h
  · rename_i htn
    split at h
    · rename_i hch
      cases hhw : hook w with
      | error e => rw [hhw] at h; cases h
      | ok x =>
        obtain ⟨tr, w1⟩ := x
        rw [hhw] at h
        simp only [C.ok_bind, World.deref, htn, if_false] at h
        cases h
        have hst : (next (next σ (.setEnter t s)) (.setHookCalled w.stateHook t s)).stack =
            .setHooking t s :: σ.stack := rfl
        obtain ⟨g1, g2, g3⟩ := hh w (next (next σ (.setEnter t s)) (.setHookCalled w.stateHook t s)) _
          ⟨hs.task, hs.sh, hs.ch, hs.th⟩ (by rw [hst]; trivial) hhw
        simp only at g1 g2 g3
        rw [hst] at g3
        have hn : ∀ l, track σ (.setEnter t s :: .setHookCalled w.stateHook t s :: tr ++ l) =
            track (track (next (next σ (.setEnter t s)) (.setHookCalled w.stateHook t s)) tr) l := by
          intro l; rw [track_append]; rfl
        generalize hσ2 : track (next (next σ (.setEnter t s)) (.setHookCalled w.stateHook t s)) tr
          = σ2 at *
        have heq : (.setEnter t s :: (.setHookCalled w.stateHook t s :: tr ++ [.setHookDone]) ++
            [.setRet t s t]) = (.setEnter t s :: .setHookCalled w.stateHook t s :: tr ++
            [.setHookDone, .setRet t s t]) := by simp
        rw [heq]
        refine ⟨?_, ?_, ?_⟩
        · refine (conforms_append _ _ _).mpr ⟨⟨hu, ⟨htn, rfl, hs.sh.symm, hch⟩, g1⟩, ?_⟩
          have := hn []
          rw [List.append_nil] at this
          rw [this]
          refine ⟨⟨t, s, by simp [track, g3]⟩, ⟨rfl, .inr ⟨htn, .inl ?_⟩⟩, trivial⟩
          simp [track, next, g3, St.top]
        · simp only
          rw [hn]
          simp only [track, List.foldl, next, g3, St.top, htn, if_false]
          rw [← g2.task]
          exact same_put g2 _ _ _
        · simp only
          rw [hn]
          simp [track, next, g3, St.top]
    · rename_i hch
      simp only [C.ok_bind, ne_eq, Classical.not_not, World.deref, htn, if_false] at h hch
      cases h
      refine ⟨⟨hu, ⟨rfl, .inr ⟨htn, .inr ⟨rfl, by rw [← hch]; exact hs.sh⟩⟩⟩, trivial⟩, ?_, rfl⟩
      simp only [List.nil_append, List.singleton_append, List.cons_append, track, List.foldl, next, htn, if_false]
      rw [← hs.task]
      exact same_put hs _ _ _
  · rename_i htn
    simp only [ne_eq, Classical.not_not] at htn
    subst htn
    cases h
    exact ⟨⟨hu, ⟨rfl, .inl ⟨rfl, rfl⟩⟩, trivial⟩, ⟨hs.task, hs.sh, hs.ch, hs.th⟩, rfl⟩

theorem transfer_good {hook : World → C (List Ev × World)}
    (hh : ∀ w σ r, Same w σ → userCode σ.stack → hook w = .ok r → Good σ r)
    {w : World} {σ : St} {t : Val} {r : List Ev × World} (hs : Same w σ)
    (hu : userCode σ.stack) (h : transfer w t hook = .ok r) : Good σ r := by
  unfold transfer at h
  split at h
  · rename_i hch
    cases hhw : hook w with
    | error e => rw [hhw] at h; cases h
    | ok x =>
      obtain ⟨tr, w1⟩ := x
      rw [hhw] at h
      cases h
      have hst : (next (next σ (.transferEnter t)) (.transferCalled w.transferHook t)).stack =
          .transHooking t :: σ.stack := rfl
      obtain ⟨g1, g2, g3⟩ := hh w
        (next (next σ (.transferEnter t)) (.transferCalled w.transferHook t)) _
        ⟨hs.task, hs.sh, hs.ch, hs.th⟩ (by rw [hst]; trivial) hhw
      simp only at g1 g2 g3
      rw [hst] at g3
      have hn : ∀ l, track σ (.transferEnter t :: .transferCalled w.transferHook t :: tr ++ l) =
          track (track (next (next σ (.transferEnter t)) (.transferCalled w.transferHook t)) tr) l := by
        intro l; rw [track_append]; rfl
      generalize hσ2 : track (next (next σ (.transferEnter t)) (.transferCalled w.transferHook t)) tr
        = σ2 at *
      refine ⟨?_, ?_, ?_⟩
      · refine (conforms_append _ _ _).mpr ⟨⟨hu, ⟨rfl, hs.th.symm, hch⟩, g1⟩, ?_⟩
        have := hn []
        rw [List.append_nil] at this
        rw [this]
        refine ⟨⟨t, by simp [track, g3]⟩, .inl ?_, trivial⟩
        simp [track, next, g3, St.top]
      · simp only
        rw [hn]
        simp only [track, List.foldl, next, g3, St.top]
        exact ⟨g2.task, g2.sh, g2.ch, g2.th⟩
      · simp only
        rw [hn]
        simp [track, next, g3, St.top]
  · rename_i hch
    simp only [ne_eq, Classical.not_not] at hch
    cases h
    exact ⟨⟨hu, .inr ⟨rfl, by rw [← hch]; exact hs.th⟩, trivial⟩,
      ⟨hs.task, hs.sh, hs.ch, hs.th⟩, rfl⟩

theorem run_good (p : Prog) : ∀ w σ r, Same w σ → userCode σ.stack → run w p = .ok r → Good σ r := by
  have seq : ∀ {w1 : World} {σ : St} {a : List Ev} {p : Prog} {r : List Ev × World},
      (∀ w σ r, Same w σ → userCode σ.stack → run w p = .ok r → Good σ r) →
      userCode σ.stack → Good σ (a, w1) →
      (do let (tr, w) ← run w1 p; (.ok (a ++ tr, w) : C (List Ev × World))) = .ok r → Good σ r := by
    intro w1 σ a p r ih hu hg h
    cases hr : run w1 p with
    | error e => rw [hr] at h; cases h
    | ok x =>
      rw [hr] at h
      cases h
      exact hg.seq (ih _ _ _ hg.2.1 (by rw [hg.2.2]; exact hu) hr)
  induction p with
  | done => intro w σ r hs hu h; cases h; exact ⟨trivial, hs, rfl⟩
  | init t fn st ui p ih =>
    intro w σ r hs hu h
    simp only [run, init, World.deref] at h
    split at h
    · cases h
    · rename_i htn
      refine seq (a := [_]) ih hu ?_ h; exact Good.one ⟨hu, htn, rfl⟩ (same_put hs t _ σ.stack) rfl
  | installCall k p ih =>
    intro w σ r hs hu h
    refine seq (a := [_]) ih hu ?_ h; exact Good.one hu ⟨hs.task, hs.sh, rfl, hs.th⟩ rfl
  | installState k p ih =>
    intro w σ r hs hu h
    refine seq (a := [_]) ih hu ?_ h; exact Good.one hu ⟨hs.task, rfl, hs.ch, hs.th⟩ rfl
  | installTransfer k p ih =>
    intro w σ r hs hu h
    refine seq (a := [_]) ih hu ?_ h; exact Good.one hu ⟨hs.task, hs.sh, hs.ch, rfl⟩ rfl
  | call t hk b p ih1 ih2 ih3 =>
    intro w σ r hs hu h
    simp only [run] at h
    cases hc : call w t (fun w => run w hk) (fun w => run w b) with
    | error e => rw [hc] at h; cases h
    | ok x =>
      rw [hc] at h
      exact seq ih3 hu (call_good ih1 ih2 hs hu hc) h
  | setState t s hk p ih1 ih2 =>
    intro w σ r hs hu h
    simp only [run] at h
    cases hc : setState w t s (fun w => run w hk) with
    | error e => rw [hc] at h; cases h
    | ok x =>
      rw [hc] at h
      exact seq ih2 hu (setState_good ih1 hs hu hc) h
  | transfer t hk p ih1 ih2 =>
    intro w σ r hs hu h
    simp only [run] at h
    cases hc : transfer w t (fun w => run w hk) with
    | error e => rw [hc] at h; cases h
    | ok x =>
      rw [hc] at h
      exact seq ih2 hu (transfer_good ih1 hs hu hc) h
  | getFn t p ih =>
    intro w σ r hs hu h
    simp only [run, World.deref] at h
    split at h
    · cases h
    · rename_i htn
      refine seq (a := [_]) ih hu ?_ h; exact Good.one ⟨hu, htn, by rw [hs.task]⟩ hs rfl
  | getState t p ih =>
    intro w σ r hs hu h
    simp only [run, World.deref] at h
    split at h
    · cases h
    · rename_i htn
      refine seq (a := [_]) ih hu ?_ h; exact Good.one ⟨hu, htn, by rw [hs.task]⟩ hs rfl
  | getInfo t p ih =>
    intro w σ r hs hu h
    simp only [run, World.deref] at h
    split at h
    · cases h
    · rename_i htn
      refine seq (a := [_]) ih hu ?_ h; exact Good.one ⟨hu, htn, by rw [hs.task]⟩ hs rfl
  | setInfo t u p ih =>
    intro w σ r hs hu h
    simp only [run, World.deref] at h
    split at h
    · cases h
    · rename_i htn
      refine seq (a := [_]) ih hu ?_ h
      refine Good.one ⟨hu, htn⟩ ?_ rfl
      have := same_put hs t { w.task t with info := u } σ.stack
      simp only [next]
      rw [← hs.task] at this
      rw [← hs.task]
      exact this

/-- Every task object has a function. -/
def Fns (w : World) : Prop := ∀ t, t ≠ NULL → (w.task t).fn ≠ NULL

theorem Fns.put {w : World} (h : Fns w) {t : Val} {x : Task} (hx : x.fn ≠ NULL) :
    Fns (w.put t x) := by
  intro u hu
  simp only [World.put]
  split
  · exact hx
  · exact h u hu

theorem run_ok (p : Prog) : ∀ w, Sane p → Fns w → ∃ r, run w p = .ok r ∧ Fns r.2 := by
  have seq : ∀ {w1 : World} {a : List Ev} {p : Prog},
      (∃ r, run w1 p = .ok r ∧ Fns r.2) →
      ∃ r, (do let (tr, w) ← run w1 p; (.ok (a ++ tr, w) : C (List Ev × World))) = .ok r ∧
        Fns r.2 := by
    rintro w1 a p ⟨r, h1, h2⟩
    exact ⟨(a ++ r.1, r.2), by rw [h1]; rfl, h2⟩
  induction p with
  | done => intro w _ h; exact ⟨_, rfl, h⟩
  | init t fn st ui p ih =>
    intro w hs h
    simp only [run, init, World.deref, if_neg hs.1]
    exact seq (a := [_]) (ih _ hs.2.2 (h.put hs.2.1))
  | installCall k p ih => intro w hs h; exact seq (a := [_]) (ih { w with callHook := k } hs h)
  | installState k p ih => intro w hs h; exact seq (a := [_]) (ih { w with stateHook := k } hs h)
  | installTransfer k p ih =>
    intro w hs h; exact seq (a := [_]) (ih { w with transferHook := k } hs h)
  | call t hk b p ih1 ih2 ih3 =>
    intro w hs h
    have : ∃ r, call w t (fun w => run w hk) (fun w => run w b) = .ok r ∧ Fns r.2 := by
      unfold call
      by_cases ht : t = NULL
      · simp only [ht, ne_eq, not_true_eq_false, if_false]; exact ⟨_, rfl, h⟩
      · simp only [ne_eq, ht, not_false_eq_true, if_true]
        by_cases hc : w.callHook = NULL
        · simp only [hc, not_true_eq_false, if_false, C.ok_bind, World.deref, ht,
            if_neg (h t ht)]
          obtain ⟨r, e1, e2⟩ := ih2 w hs.2.1 h
          simp only [e1, C.ok_bind]; exact ⟨_, rfl, e2⟩
        · simp only [hc, not_false_eq_true, if_true]
          obtain ⟨r, e1, e2⟩ := ih1 w hs.1 h
          simp only [e1, C.ok_bind, World.deref, ht, if_false, if_neg (e2 t ht)]
          obtain ⟨r', e3, e4⟩ := ih2 r.2 hs.2.1 e2
          simp only [e3, C.ok_bind]; exact ⟨_, rfl, e4⟩
    obtain ⟨r, e1, e2⟩ := this
    simp only [run, e1]
    exact seq (ih3 _ hs.2.2 e2)
  | setState t s hk p ih1 ih2 =>
    intro w hs h
    have : ∃ r, setState w t s (fun w => run w hk) = .ok r ∧ Fns r.2 := by
      unfold setState
      by_cases ht : t = NULL
      · simp only [ht, ne_eq, not_true_eq_false, if_false]; exact ⟨_, rfl, h⟩
      · simp only [ne_eq, ht, not_false_eq_true, if_true]
        by_cases hc : w.stateHook = NULL
        · simp only [hc, not_true_eq_false, if_false, C.ok_bind, World.deref, ht]
          exact ⟨_, rfl, h.put (h t ht)⟩
        · simp only [hc, not_false_eq_true, if_true]
          obtain ⟨r, e1, e2⟩ := ih1 w hs.1 h
          simp only [e1, C.ok_bind, World.deref, ht, if_false]
          exact ⟨_, rfl, e2.put (e2 t ht)⟩
    obtain ⟨r, e1, e2⟩ := this
    simp only [run, e1]
    exact seq (ih2 _ hs.2 e2)
  | transfer t hk p ih1 ih2 =>
    intro w hs h
    have : ∃ r, transfer w t (fun w => run w hk) = .ok r ∧ Fns r.2 := by
      unfold transfer
      by_cases hc : w.transferHook = NULL
      · simp only [hc, ne_eq, not_true_eq_false, if_false]; exact ⟨_, rfl, h⟩
      · simp only [ne_eq, hc, not_false_eq_true, if_true]
        obtain ⟨r, e1, e2⟩ := ih1 w hs.1 h
        simp only [e1, C.ok_bind]; exact ⟨_, rfl, e2⟩
    obtain ⟨r, e1, e2⟩ := this
    simp only [run, e1]
    exact seq (ih2 _ hs.2 e2)
  | getFn t p ih =>
    intro w hs h
    simp only [run, World.deref, if_neg hs.1]; exact seq (a := [_]) (ih w hs.2 h)
  | getState t p ih =>
    intro w hs h
    simp only [run, World.deref, if_neg hs.1]; exact seq (a := [_]) (ih w hs.2 h)
  | getInfo t p ih =>
    intro w hs h
    simp only [run, World.deref, if_neg hs.1]; exact seq (a := [_]) (ih w hs.2 h)
  | setInfo t u p ih =>
    intro w hs h
    simp only [run, World.deref, if_neg hs.1]
    exact seq (a := [_]) (ih _ hs.2 (h.put (h t hs.1)))

end Mu.Task
