import Verif.Lemmas.SrcIsrCalls

/-! # `mu_sched_step`, interrupted -/

namespace Mu.CS

namespace Act

/-- From the calculus of rely and guarantee. -/
theorem wp_safe {S α : Type} {R : RG S} {E : Env} {J : S → Heap → Prop} (hg : ∀ σ h, J σ h → E.good h)
    (hrel : ∀ σ h h1, J σ h → E.rel h h1 → ∃ σ', J σ' h1 ∧ R.rely σ σ') (hrep : ∀ σ h, J σ h → R.rep σ h)
    (hguar : ∀ σ σ' h h', J σ h → R.guar σ σ' → R.rep σ' h' → Heap.Only (R.cells σ) h h' → J σ' h')
    {t : Act α} {K : S → Prop} {Q : α → (S → Prop) → Prop} (w : t.wp R K Q) (hK : R.Stable K) {σ : S} {h : Heap} (k : K σ) (j : J σ h) :
    t.safe E h fun a h' => ∃ σ' K', J σ' h' ∧ K' σ' ∧ Q a K' := by
  induction t generalizing K σ h with
  | done a =>
    intro h1 r
    obtain ⟨σ', j', r'⟩ := hrel _ _ _ j r
    exact ⟨hg _ _ j', σ', K, j', hK _ _ r' k, w⟩
  | fail e => exact absurd w id
  | mem f c ih =>
    intro h1 r
    obtain ⟨σ', j', r'⟩ := hrel _ _ _ j r
    obtain ⟨v, h2, σ2, K2, e1, e2, e3, e4, e5, e6, e7⟩ := w σ' h1 (hK _ _ r' k) (hrep _ _ j')
    exact ⟨hg _ _ j', v, h2, e1, ih v e7 e4 e5 (hguar _ _ _ _ j' e2 e3 e6.1)⟩
  | pick c ih => exact fun b => ih b (w b) hK k j

variable {E : Env} {A : Arch} {K : ACalls} {n : Nat} {h : Heap} {l : Locals}

theorem safe_seq {a b : Stmt} {Q : Flow × Locals → Heap → Prop}
    (s : (execA A K n a l).safe E h fun x h' => x.1 = .next ∧ (execA A K n b x.2).safe E h' Q) : (execA A K n (.seq a b) l).safe E h Q := by
  simp only [execA]
  rw [bind_eq, safe_bind_iff]
  refine safe_mono s fun x h' => ?_
  rintro ⟨h1, h2⟩
  simp only [h1]
  exact h2

theorem safe_ite {c : Expr} {a b : Stmt} {Q : Flow × Locals → Heap → Prop}
    (s : (evalCondA A K c l).safe E h fun x h' => if x.1 then (execA A K n a x.2).safe E h' Q else (execA A K n b x.2).safe E h' Q) :
    (execA A K n (.ite c a b) l).safe E h Q := by
  simp only [execA]
  rw [bind_eq, safe_bind_iff]
  refine safe_mono s fun x h' => ?_
  obtain ⟨p, x⟩ := x
  cases p <;> exact fun h => h

end Act

namespace Isr

open Act Conc

variable {A : Arch} {X : AExt} {U : User} {prec : CVal → CVal → Bool} {off : CVal → CVal → CVal}
variable {Gd : List Seen → Prop} {T : Tale U prec off Gd}
variable {s : Replay} {m h : Heap}

/-- The cell of the current task. -/
def curCell : Base → Int → Prop := fun b o => b = .glob .s_sched ∧ o = 9

theorem curCell_own : Own (.glob .s_sched) 9 := .inl ⟨rfl, by decide⟩

theorem Mem.cur {σ : Agenda} (hm : Mem m σ) : m.at (.glob .s_sched) 9 = some σ.cur := by
  obtain ⟨hd, ix, q⟩ := hm
  exact q.cur

theorem Mem.setCur {σ : Agenda} (hm : Mem m σ) {t : CVal} (ht : t ≠ .undef) : Mem (m.upd (.glob .s_sched) 9 t) { σ with cur := t } := by
  obtain ⟨hd, ix, q⟩ := hm
  obtain ⟨s, r, m1, hc⟩ := q.model (A := Arch.lp64) (prec := fun _ _ => false) (off := fun a _ => a)
  have r' := r.setCurr (v := t) ht
  have o : Heap.Only schedOwn m (m.upd (.glob .s_sched) 9 t) := (Heap.Only.refl _ _).upd (Or.inl rfl)
  have m' : Mu.Sched.Rep (schedCfg Arch.lp64 (fun _ _ => false) (fun a _ => a)) { s with curr := enc t }
      ({ { σ with irq := [] } with cur := t } : Agenda).num := by
    obtain ⟨h1, h2, h3, h4, h5, h6, h7, h8, h9⟩ := m1
    exact ⟨h1, h2, h3, h4, h5, h6, h7, rfl, h9⟩
  obtain ⟨hd', ix', q'⟩ := Heap.Scheduler.of_model (q.vars.sizes.only o) r' m'
  exact ⟨hd', ix', q'⟩

/-- A store to the cell of the current task. -/
theorem store_cur_safe (H : Honest A X U prec off) (i : In T s m h) {σ : Agenda} (hm : Mem m σ) {t : CVal} {Q : CVal → Heap → Prop}
    (hq : ∀ h', In T s (m.upd (.glob .s_sched) 9 t) h' → Q t h') : (store (.ptr (.glob .s_sched) 9) t).safe (env A X T) h Q := by
  intro h1 r
  have j := i.outsides H r
  have h9 : h1.at (.glob .s_sched) 9 = some σ.cur := by rw [j.load curCell_own]; exact hm.cur
  refine ⟨j.good, t, h1.upd (.glob .s_sched) 9 t, ?_, ?_⟩
  · have hst : h1.store (.ptr (.glob .s_sched) 9) t = .ok (h1.upd (.glob .s_sched) 9 t) := Heap.store_in (v := t) rfl (by rw [h9]; rfl)
    simp only [hst]; rfl
  · have on : Heap.Only Own h1 (h1.upd (.glob .s_sched) 9 t) := (Heap.Only.refl _ _).upd curCell_own
    refine safe_in_done H (j.only H on fun b o ho => ?_) hq
    by_cases e : b = .glob .s_sched ∧ o = 9
    · obtain ⟨rfl, rfl⟩ := e
      rw [Heap.at_upd_same rfl (by rw [h9]; rfl), Heap.at_upd_same rfl (by rw [hm.cur]; rfl)]
    · rw [Heap.at_upd_sep (fun x => e ⟨x.1.symm, x.2.symm⟩), Heap.at_upd_sep (fun x => e ⟨x.1.symm, x.2.symm⟩)]
      exact j.load ho

variable [T.Full]

/-! ## A look at the interrupt queue -/

/-- While `mu_spsc_get` runs: it has not taken effect, or the queue was empty, or it has taken a task. -/
structure Getting {U : User} {prec : CVal → CVal → Bool} {off : CVal → CVal → CVal} {Gd : List Seen → Prop} (T : Tale U prec off Gd) (s : Replay) (l : List Phase) (m : Heap) (q : G) (h : Heap) : Prop where
  var : q.var = some (.glob .s_sched, 9)
  now : ∃ s1 irq, In0 T curCell (s1.at irq) m q h ∧
    ((q.obj.c = .pending (.get (.glob .s_sched) 9) ∧ s1 = s) ∨
      (q.obj.c = .done ⟨.int 1, some .null⟩ ∧ s1 = { s with steps := .looking :: l }) ∨
      (∃ t, q.obj.c = .done ⟨.int 0, some t⟩ ∧ (t = .null ∨ U.task t) ∧ s1 = { s with σ := { s.σ with cur := t }, steps := .chosen t :: l }))

theorem var_ok {q : G} (h : q.var = some (.glob .s_sched, 9)) : VarOk q := fun eb eo he => by
  rw [h] at he
  cases he
  simp [SchedVar]

theorem get_safe (H : Honest A X U prec off) (i : In T s m h) {σ : Agenda} (hm : Mem m σ) {l : List Phase} (hs : s.steps = .entered :: l)
    (n : Nat) :
    (semA A X prog n .mu_spsc_get [.ptr (.glob .s_sched) 0, .ptr (.glob .s_sched) 9]).safe (env A X T) h fun r h' =>
      (r = .int 1 ∧ In T { s with steps := .looking :: l } (m.upd (.glob .s_sched) 9 .null) h') ∨
      (r = .int 0 ∧ ∃ t, (t = .null ∨ U.task t) ∧
        In T { s with σ := { s.σ with cur := t }, steps := .chosen t :: l } (m.upd (.glob .s_sched) 9 t) h') := by
  cases n with
  | zero => exact ⟨rfl, fun h1 r => (i.outsides H r).good⟩
  | succ n =>
    obtain ⟨irq, q, hv, i0⟩ := i
    have h9 : h.at (.glob .s_sched) 9 = some σ.cur := by rw [i0.agree _ _ curCell_own id]; exact hm.cur
    let q0 : G := { q with obj := { q.obj with c := .pending (.get (.glob .s_sched) 9) }, var := some (.glob .s_sched, 9), w := σ.cur }
    have r0 : Rep irqPlace q0 h := by
      have r := i0.rep
      refine ⟨r.mask, r.head, r.tail, r.store, r.len, r.items, r.nx, r.slots, fun eb eo he => ?_⟩
      have he : some (Base.glob .s_sched, (9 : Int)) = some (eb, eo) := he
      cases he
      refine ⟨h9, rfl, ?_⟩
      rintro (⟨-, -, h2⟩ | ⟨h2, -⟩)
      · simp [irqPlace] at h2
      · simp [irqPlace] at h2
    have j0 : Getting T s l m q0 h := ⟨rfl, s, irq, ⟨i0.log, i0.inv, r0, i0.items, i0.tasks, i0.full, fun b o ho _ => i0.agree b o ho id, i0.callHook,
      i0.transferHook⟩, .inl ⟨rfl, rfl⟩⟩
    refine safe_mono (wp_safe (R := rgC irqPlace) (J := Getting T s l m) ?_ ?_ ?_ ?_ (get_wp' (A := A) (Y := X) irqPlace_ok n) ?_ (σ := q0)
      ⟨rfl, rfl⟩ j0) ?_
    · rintro q h ⟨_, s1, irq, j, -⟩
      exact T.sound j.log
    · rintro q h h1 ⟨hv, s1, irq, j, p⟩ r
      obtain ⟨irq', q', j', r'⟩ := j.outsides H (var_ok hv) r
      exact ⟨q', ⟨r'.2.2.2.1.trans hv, s1, irq', j', by rw [r'.2.2.1]; exact p⟩, r'⟩
    · rintro q h ⟨_, s1, irq, j, -⟩
      exact j.rep
    · rintro q q' h h' ⟨hv, s1, irq, j, p⟩ g r o
      have r : Rep irqPlace q' h' := r
      have g : Eff 8 .consumer q.obj q'.obj ∧ relyP q q' ∧ q'.var = q.var := g
      have o0 := o
      have o : Heap.Only (fun b o => irqPlace.cells b o ∨ q.var = some (b, o)) h h' :=
        Heap.Only.mono (S := (rgC irqPlace).cells q) o fun b o hb => by
          rcases hb with ⟨rfl, rfl⟩ | hb
          · exact .inl (.inl ⟨rfl, by omega, by omega⟩)
          · exact .inr hb
      obtain ⟨f1, f2⟩ := H.frame h h' (o.mono fun b o hb => by
        rcases hb with hb | hb
        · exact irq_schedVar hb
        · exact var_ok hv _ _ hb) j.inv
      refine ⟨g.2.2.trans hv, ?_⟩
      have full' : Full h' := by
        refine j.full.only (S := (rgC irqPlace).cells q) o0 (fun i _ hx => ?_)
        rcases hx with ⟨hx, -⟩ | hx
        · simp [irqPlace] at hx
        · rw [hv] at hx; cases hx
      have jj : ∀ s2 : Replay, T.holds (U.log h') s2 → q'.obj.items = s2.σ.irq → (T.stale = false → ∀ t ∈ s2.σ.irq, t = .null ∨ U.task t) →
          In0 T curCell s2 m q' h' := by
        intro s2 a1 a2 a3
        refine ⟨a1, f1, r, a2, a3, full', fun b o' ho hb => ?_, ?_, ?_⟩
        · rw [o.cell _ _ (by
            rintro (hx | hx)
            · exact ho.not_irq hx
            · rw [hv] at hx; cases hx; exact hb ⟨rfl, rfl⟩)]
          exact j.agree b o' ho hb
        · rw [o.cell _ _ (by
            rintro (hx | hx)
            · simp [irqPlace, Conc.Place.cells, spscCells] at hx
            · rw [hv] at hx; cases hx)]
          exact j.callHook
        · rw [o.cell _ _ (by
            rintro (hx | hx)
            · simp [irqPlace, Conc.Place.cells, spscCells] at hx
            · rw [hv] at hx; cases hx)]
          exact j.transferHook
      have lg : T.holds (U.log h') (s1.at irq) := by rw [f2]; exact j.log
      have hit := j.items
      rcases g.1 with e | ⟨c, e, e'⟩
      · refine ⟨s1, irq, jj _ lg (by rw [e]; exact hit) j.tasks, by rw [e]; exact p⟩
      · have e : q.obj.c = .pending c := e
        have e' : q'.obj = { q.obj.set .consumer (.done (c.spec 8 q.obj.items).1) with items := (c.spec 8 q.obj.items).2 } := e'
        rcases p with ⟨p, rfl⟩ | ⟨p, -⟩ | ⟨t, p, -⟩
        · rw [p] at e
          obtain rfl : SCall.get (.glob .s_sched) 9 = c := by injection e
          rw [Replay.at_irq] at hit
          cases irq with
          | nil =>
            rw [hit] at e'
            refine ⟨{ s1 with steps := .looking :: l }, [], jj _ (Tale.Full.look lg ?_) ?_ (by simp), .inr (.inl ⟨?_, rfl⟩)⟩
            · simp [Replay.look, Replay.at, hs]
            · rw [e']; rfl
            · rw [e']; rfl
          | cons t irq =>
            rw [hit] at e'
            have ht := j.tasks Tale.Full.live t (by simp)
            refine ⟨{ s1 with σ := { s1.σ with cur := t }, steps := .chosen t :: l }, irq, jj _ (Tale.Full.look lg ?_) ?_ (fun hst u hu => j.tasks hst u (by
              rw [Replay.at_irq] at hu ⊢; exact List.mem_cons_of_mem _ hu)), .inr (.inr ⟨t, ?_, ht, rfl⟩)⟩
            · simp [Replay.look, Replay.at, hs]
            · rw [e']; rfl
            · rw [e']; rfl
        · rw [p] at e; cases e
        · rw [p] at e; cases e
    · intro q q' r k
      have r : relyC q q' := r
      exact ⟨r.2.2.1.trans k.1, r.2.2.2.1.trans k.2⟩
    · rintro r h' ⟨q', K', ⟨hv', s1, irq', j, p⟩, k, hr, hd⟩
      have hd := hd q' k
      have fin : ∀ t, q'.w = t → t ≠ .undef → In T s1 (m.upd (.glob .s_sched) 9 t) h' := by
        intro t ht hu
        refine ⟨irq', { q' with var := none }, rfl, j.log, j.inv, ?_, j.items, j.tasks, j.full, fun b o ho _ => ?_, j.callHook, j.transferHook⟩
        · have r := j.rep
          exact ⟨r.mask, r.head, r.tail, r.store, r.len, r.items, r.nx, r.slots, fun eb eo he => by cases he⟩
        · by_cases e : b = .glob .s_sched ∧ o = 9
          · obtain ⟨rfl, rfl⟩ := e
            rw [(j.rep.var _ _ hv').1, ht, Heap.at_upd_same rfl (by rw [hm.cur]; rfl)]
          · rw [Heap.at_upd_sep (fun x => e ⟨x.1.symm, x.2.symm⟩)]
            exact j.agree b o ho e
      rcases p with ⟨p, -⟩ | ⟨p, rfl⟩ | ⟨t, p, ht, rfl⟩
      · rw [p] at hd; cases hd
      · rw [p] at hd
        injection hd with hd
        injection hd with hd1 hd2
        injection hd2 with hd2
        exact .inl ⟨hd1.symm, fin .null hd2.symm (by simp)⟩
      · rw [p] at hd
        injection hd with hd
        injection hd with hd1 hd2
        injection hd2 with hd2
        exact .inr ⟨hd1.symm, t, ht, fin t hd2.symm (task_ne_undef H j.inv ht)⟩

/-! ## The choice, when the queue was empty -/

/-- The last of the choice in `mu_sched_step`: immediate, idle. -/
def rest2 : Stmt :=
  .ite (.bin (.cmp .eq .int) (.call .mu_queue_get [.fld (.glob .s_sched) 4, .fld (.glob .s_sched) 9]) (.num 1))
    .skip
    (.expr (.store (.fld (.glob .s_sched) 9) (.load (.fld (.glob .s_sched) 10))))

/-- The rest of the choice: deferred, immediate, idle. -/
def rest : Stmt :=
  .ite (.bin (.pcmp .ne) (.store (.fld (.glob .s_sched) 9) (.call .fetch_runnable_deferred_task__sched [])) .null) .skip rest2

/-- `mu_spsc_get` calls nothing. -/
theorem get_indep (X X' : Ext) (n : Nat) : sem A X prog (n + 1) .mu_spsc_get = sem A X' prog (n + 1) .mu_spsc_get := by
  funext h args
  rfl

/-- Without interrupts. -/
theorem rest_seq (H : Honest A X U prec off) {σ : Agenda} {hd ix : Nat} (q : m.Scheduler hd ix σ) (hi : σ.irq = []) (n : Nat) :
    ∃ mB, Agree (m.upd (.glob .s_sched) 9 .null) mB ∧ ∀ now, now ≠ .undef → ∃ mA hd' ix',
      exec A ⟨sem A (stillX prec off now) prog (n + 3), (stillX prec off now).cb (sem A (stillX prec off now) prog (n + 3))⟩ (n + 3) rest
        ⟨[.ptr (.glob .s_sched) 9], mB⟩ = .ok (.next, ⟨[.ptr (.glob .s_sched) 9], mA⟩) ∧ mA.Scheduler hd' ix' (σ.choose prec now) := by
  obtain ⟨s, r, m1, hc⟩ := q.model (A := A) (prec := prec) (off := off)
  have hget : Spsc.get s.irq = .ok (.empty, NULL, s.irq) := by
    obtain ⟨d, h1⟩ := m1.irq
    have : (Agenda.num σ).irq = [] := by simp [Agenda.num, hi]
    rw [this] at h1
    exact Mu.Sched.spsc_get_nil h1
  have n9 : ¬ SCells (.glob .s_sched) 0 (.glob .s_irq_store) 0 s.irq.store.length (.glob .s_sched) 9 := by
    rintro (hc | hc)
    · omega
    · simp at hc
  obtain ⟨mB, e1, e2, e3, e4⟩ := src_spsc_get (A := A) (X := stillX prec off .null) (n + 2) r.irq (eb := .glob .s_sched) (eo := 9) rfl
    (by rw [r.curr]; rfl) n9 hget (by simp [NULL])
  refine ⟨mB, fun b o ho => ?_, fun now hn => ?_⟩
  · by_cases e : b = .glob .s_sched ∧ o = 9
    · obtain ⟨rfl, rfl⟩ := e
      rw [e3, Heap.at_upd_same rfl (by rw [r.curr]; rfl)]
      simp [NULL]
    · rw [Heap.at_upd_sep (fun x => e ⟨x.1.symm, x.2.symm⟩)]
      refine e4.cell _ _ ?_
      rintro (hx | hx)
      · rw [r.irqLen] at hx
        exact ho.not_irq hx
      · exact e hx
  · have hX := still_clock H hn
    have hok : ∀ now, ∃ evs s', Mu.Sched.select (schedCfg A prec off) now s = .ok (evs, s') := fun now => by
      obtain ⟨s', hs, -⟩ := Mu.Sched.select_ok (schedCfg_wf A) m1 now
      exact ⟨_, s', hs⟩
    obtain ⟨now', evs, s', mA, f1, f2, f3, f4⟩ := src_select n hX r hc hok
      (K := ⟨sem A (stillX prec off now) prog (n + 3), (stillX prec off now).cb (sem A (stillX prec off now) prog (n + 3))⟩) rfl
    obtain ⟨s'', g1, g2⟩ := Mu.Sched.select_ok (schedCfg_wf A) m1 now'
    rw [f1] at g1
    obtain ⟨rfl, rfl⟩ := Prod.mk.inj (Except.ok.inj g1)
    have hsz : mA.SchedSizes ∧ now' = now := by
      rcases f4 with ⟨-, -, hB, hC, k1, k2, k3⟩ | ⟨⟨t, k0⟩, -⟩
      · have k1 : (Except.ok (now, hB) : C (CVal × Heap)) = .ok (now', hC) := k1
        obtain ⟨rfl, rfl⟩ := Prod.mk.inj (Except.ok.inj k1)
        exact ⟨(q.vars.sizes.only k2).only k3, rfl⟩
      · exfalso
        unfold Mu.Sched.lselect Agenda.num at k0
        simp only [hi, List.map_nil] at k0
        cases hd : σ.due <;> simp only [hd, List.map_nil, List.map_cons, Mu.Sched.lfetch] at k0 <;>
          cases hm : σ.immed <;> simp only [hm, List.map_nil, List.map_cons] at k0 <;> (repeat' split at k0) <;> simp at k0
    obtain ⟨hsz, rfl⟩ := hsz
    rw [num_choose now' hi] at g2
    obtain ⟨hd', ix', q'⟩ := Heap.Scheduler.of_model hsz f2 g2
    refine ⟨mA, hd', ix', ?_, q'⟩
    rw [get_indep _ (stillX prec off now')] at e1
    generalize hK : (⟨sem A (stillX prec off now') prog (n + 3), (stillX prec off now').cb (sem A (stillX prec off now') prog (n + 3))⟩ : Calls) = K at f3 ⊢
    have hf : K.fn .mu_spsc_get = sem A (stillX prec off now') prog (n + 3) .mu_spsc_get := by rw [← hK]
    have f3' : exec A K (n + 3) (.ite (.bin (.cmp .eq (.common .enum .int)) (.call .mu_spsc_get [.fld (.glob .s_sched) 0, .var 0]) (.num 0))
       .skip rest) ⟨[.ptr (.glob .s_sched) 9], m⟩ = _ := f3
    rw [← f3']
    have e1' : sem A (stillX prec off now') prog (n + 3) .mu_spsc_get m [.ptr (.glob .s_sched) 0, .ptr (.glob .s_sched) 9] = .ok (.int 1, mB) := e1
    simp [csrc, hf, e1', CVal.ofBool, conv_enum0, conv_enum1]

/-- `fetch_runnable_deferred_task` reads the clock once, first. -/
theorem offC_fetch (H : Honest A X U prec off) {n N : Nat} (hn : n ≤ N) :
    OffC X (fun _ => True) (semA A X prog n .fetch_runnable_deferred_task__sched [])
      (fun now => semA A (stillA prec off now) prog N .fetch_runnable_deferred_task__sched []) := by
  cases n with
  | zero => exact .more
  | succ n =>
    obtain ⟨N, rfl⟩ : ∃ k, N = k + 1 := ⟨N - 1, by omega⟩
    have hn : n ≤ N := by omega
    have tk : ∀ now, TypedK (tyFn false 3) (lib A X n) (lib A (stillA prec off now) N) := fun now => off_semA (still_typed H now) hn
    have split : ∀ (K : ACalls) (n : Nat), Src.fetch_runnable_deferred_task__sched.act A K n [] =
        (K.fn .mu_time_now []).bind fun r => (execA A K n Src.fetch_runnable_deferred_task__sched.body.snd.snd [.undef, r]).bind fun y => .done y.1.result := by
      intro K n
      show ((((((K.fn .mu_time_now []).bind _).bind _).bind _).bind _).bind _) = _
      simp only [Act.bind_assoc, Act.bind]
      rfl
    show OffC X _ (Src.fetch_runnable_deferred_task__sched.act A (lib A X n) n [])
      fun now => Src.fetch_runnable_deferred_task__sched.act A (lib A (stillA prec off now) N) N []
    simp only [split]
    refine OffC.bind (offC_now hn) fun now r _ => ?_
    refine Off.bind (off_execA (Γ := [.defer, .any]) (R := .any) (tk now) hn _ _ (by decide) ?_) fun y _ => .done trivial
    intro i t v ht hv
    match i, ht, hv with
    | 0, ht, hv => cases ht; cases hv; exact .inl rfl
    | 1, ht, hv => cases ht; trivial

theorem offC_rest (H : Honest A X U prec off) {n N : Nat} (hn : n ≤ N) :
    OffC X (fun _ => True) (execA A (lib A X n) n rest [.ptr (.glob .s_sched) 9])
      (fun now => execA A (lib A (stillA prec off now) N) N rest [.ptr (.glob .s_sched) 9]) := by
  have tk : ∀ now, TypedK (tyFn false 4) (lib A X n) (lib A (stillA prec off now) N) := fun now => off_semA (still_typed H now) hn
  let G : ACalls → Nat → CVal → Act (Flow × Locals) := fun K n v =>
    (store (.ptr (.glob .s_sched) 9) v).bind fun _ => (op A (.pcmp .ne) v .null).bind fun r => (lift r.truth).bind fun b =>
      if b then .done (.next, [.ptr (.glob .s_sched) 9])
      else execA A K n rest2 [.ptr (.glob .s_sched) 9]
  have split : ∀ (K : ACalls) (n : Nat), execA A K n rest [.ptr (.glob .s_sched) 9] =
      .pick fun _ => .pick fun _ => (K.fn .fetch_runnable_deferred_task__sched []).bind (G K n) := by
    intro K n
    simp only [rest, execA, evalCondA, evalA, evalArgsA, bind_eq, Act.both, Act.bind]
    congr 1
    funext b1
    cases b1 <;> simp only [Act.bind] <;> congr 1 <;> funext b2 <;> cases b2 <;> simp only [Act.bind, Act.bind_assoc] <;> rfl
  simp only [split]
  refine .pick fun _ => .pick fun _ => OffC.bind (offC_fetch H hn) fun now v _ => ?_
  refine Off.bind (off_store (t := .sched 9) (.inr rfl) rfl) fun _ _ => ?_
  refine Off.bind (off_op rfl _ _) fun r _ => ?_
  refine Off.bind (Off.lift (Q := fun _ => True) fun _ _ => trivial) fun b _ => ?_
  cases b
  · refine Off.mono (off_execA (Γ := [.any]) (R := .any) (tk now) hn _ _ (by decide) ?_) fun _ _ => trivial
    intro i t v ht hv
    match i, ht, hv with
    | 0, ht, hv => cases ht; trivial
  · exact .done trivial

theorem choose_cur (σ : Agenda) (c now : CVal) : ({ σ with cur := c } : Agenda).choose prec now = σ.choose prec now := by
  unfold Agenda.choose Agenda.queued
  cases σ.due <;> cases σ.immed <;> rfl

theorem choose_at (σ : Agenda) (i : List CVal) (now : CVal) :
    ({ σ with irq := i } : Agenda).choose prec now = { σ.choose prec now with irq := i } := by
  unfold Agenda.choose Agenda.queued
  cases σ.due <;> cases σ.immed <;> simp only <;> (repeat' split) <;> rfl

/-- The choice, with interrupts. -/
theorem rest_safe (H : Honest A X U prec off) {σ : Agenda} (hm : Mem m σ) {l : List Phase} (hs : s.steps = .looking :: l) (hσ : s.σ = σ)
    (i : In T s (m.upd (.glob .s_sched) 9 .null) h) (n : Nat) :
    (execA A (lib A X n) n rest [.ptr (.glob .s_sched) 9]).safe (env A X T) h fun x h' => x = (.next, [.ptr (.glob .s_sched) 9]) ∧
      ∃ now m', now ≠ .undef ∧ Mem m' (σ.choose prec now) ∧
        In T ⟨σ.choose prec now, .chosen (σ.choose prec now).cur :: l, now, s.callHook, s.transferHook⟩ m' h' := by
  obtain ⟨hd, ix, q⟩ := hm
  obtain ⟨mB, ag, hB⟩ := rest_seq (A := A) (X := X) (U := U) (prec := prec) (off := off) H q rfl n
  have tB : Typed mB := by
    show mB.at _ _ = _
    rw [ag _ _ (.inl ⟨rfl, by decide⟩), Heap.at_upd_sep (by simp)]
    exact q.immedStore
  have i' : In T s mB h := by
    refine i.only H (Heap.Only.refl _ _) fun b o ho => ?_
    rw [ag b o ho]; exact i.load ho
  have hr : ∀ now, (lib A (stillA prec off now) (n + 3)).Runs
      ⟨sem A (stillX prec off now) prog (n + 3), (stillX prec off now).cb (sem A (stillX prec off now) prog (n + 3))⟩ :=
    fun now => ⟨semA_run (still_runs now) prog (n + 3), fun _ _ _ => rfl⟩
  have fm : ∀ now, (execA A (lib A (stillA prec off now) (n + 3)) (n + 3) rest [.ptr (.glob .s_sched) 9]).Firm := fun now =>
    firm_execA ⟨firm_semA (still_runs now) (still_confluent now) _, fun _ _ => firm_fail _⟩ (hr now) (sem_quiet _) _ rest (by decide) _
  have run : ∀ now, now ≠ .undef → ∃ mA, (execA A (lib A (stillA prec off now) (n + 3)) (n + 3) rest [.ptr (.glob .s_sched) 9]).run mB =
      .ok ((.next, [.ptr (.glob .s_sched) 9]), mA) ∧ Mem mA (σ.choose prec now) := by
    intro now hn
    obtain ⟨mA, hd', ix', e, q'⟩ := hB now hn
    refine ⟨mA, ?_, hd', ix', ?_⟩
    · rw [execA_run (hr now), e]; rfl
    · rw [choose_at] at q'; exact q'
  subst hσ
  refine safe_mono (frozenC H (offC_rest H (N := n + 3) (by omega)) (s' := fun now => ⟨s.σ.choose prec now, .chosen (s.σ.choose prec now).cur :: l, now, s.callHook, s.transferHook⟩) tB i'
    (fun now irq lg hl => ?_) fun now hn e' o => ?_) ?_
  · refine Tale.Full.see hl ?_
    simp only [Replay.see, Replay.at, hs, choose_at]
  · obtain ⟨mA, e, -⟩ := run now hn
    have := (fm now mB _ o _).2 e
    cases this
  · rintro v h' ⟨-, now, m1, hn, o, j⟩
    obtain ⟨mA, e, qA⟩ := run now hn
    have := (fm now mB _ o (v, m1)).1 rfl
    rw [e] at this
    obtain ⟨rfl, rfl⟩ := Prod.mk.inj (Except.ok.inj this)
    exact ⟨rfl, now, mA, hn, qA, j⟩

end Isr
end Mu.CS
