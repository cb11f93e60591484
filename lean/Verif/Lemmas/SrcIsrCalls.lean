import Verif.Lemmas.SrcIsrEnv
import Verif.Props.SrcSched

/-! # The calls of the interrupted program -/

namespace Mu.CS

namespace Act
variable {E : Env} {α β σ : Type} {h : Heap}

theorem bind_assoc {γ : Type} (t : Act α) (f : α → Act β) (g : β → Act γ) : (t.bind f).bind g = t.bind fun x => (f x).bind g := by
  induction t with
  | done a => rfl
  | fail e => rfl
  | mem f c ih => simp only [Act.bind, ih]
  | pick c ih => simp only [Act.bind, ih]

theorem safe_both {a : σ → Act (α × σ)} {b : σ → Act (β × σ)} {s : σ} {Q : α × β × σ → Heap → Prop} :
    (both a b s).safe E h Q ↔
      ((a s).safe E h fun x h' => (b x.2).safe E h' fun y h'' => Q (x.1, y.1, y.2) h'') ∧
      ((b s).safe E h fun y h' => (a y.2).safe E h' fun x h'' => Q (x.1, y.1, x.2) h'') := by
  have key : ∀ {γ δ : Type} {t : Act γ} {u : γ → Act δ} {g : γ → δ → α × β × σ},
      (t.bind fun x => (u x).bind fun y => .done (g x y)).safe E h Q ↔ t.safe E h fun x h' => (u x).safe E h' fun y h'' => Q (g x y) h'' := by
    intro γ δ t u g
    rw [safe_bind_iff]
    have : ∀ x h', ((u x).bind fun y => (.done (g x y) : Act (α × β × σ))).safe E h' Q ↔ (u x).safe E h' fun y h'' => Q (g x y) h'' := by
      intro x h'
      generalize u x = w
      induction w generalizing h' with
      | done a => exact Iff.rfl
      | fail e => exact Iff.rfl
      | mem f c ih =>
        refine forall_congr' fun h1 => imp_congr_right fun _ => and_congr_right fun _ => exists_congr fun v => exists_congr fun h2 =>
          and_congr_right fun _ => ih v _
      | pick c ih => exact forall_congr' fun b => ih b _
    simp only [this]
  simp only [Act.both]
  show (∀ b, _) ↔ _
  rw [Bool.forall_bool]
  rw [key (t := b s) (u := fun y => a y.2) (g := fun y x => (x.1, y.1, x.2)), key (t := a s) (u := fun x => b x.2) (g := fun x y => (x.1, y.1, y.2))]
  exact And.comm

theorem safe_done_safe {a : α} {k : α → Act β} {Q : α → β → Heap → Prop} :
    ((Act.done a).safe E h fun a h' => (k a).safe E h' (Q a)) ↔ (k a).safe E h (Q a) :=
  ⟨fun s => (s h (E.refl h)).2, fun s _ r => ⟨safe_good s r, safe_rel s r⟩⟩

end Act

namespace Isr

open Act Conc

variable {A : Arch} {X : AExt} {U : User} {prec : CVal → CVal → Bool} {off : CVal → CVal → CVal}
variable {Gd : List Seen → Prop} {T : Tale U prec off Gd}
variable {s : Replay} {m h : Heap}

/-- Memory holds the agenda, except for the interrupt queue. -/
def Mem (m : Heap) (σ : Agenda) : Prop := ∃ hd ix, m.Scheduler hd ix { σ with irq := [] }

theorem Mem.typed {σ : Agenda} (hm : Mem m σ) : Typed m := by
  obtain ⟨hd, ix, q⟩ := hm
  exact q.immedStore

/-- Everything on the agenda is a task or NULL. -/
structure Clean (U : User) (σ : Agenda) : Prop where
  immed : ∀ t ∈ σ.immed, t = .null ∨ U.task t
  due : ∀ d ∈ σ.due, d.task = .null ∨ U.task d.task
  cur : σ.cur = .null ∨ U.task σ.cur
  idle : σ.idle = .null ∨ U.task σ.idle

theorem safe_in_done {α : Type} {a : α} {Q : α → Heap → Prop} (H : Honest A X U prec off) (i : In T s m h)
    (hq : ∀ h', In T s m h' → Q a h') : (Act.done a).safe (env A X T) h Q :=
  fun _ r => ⟨(i.outsides H r).good, hq _ (i.outsides H r)⟩

theorem safe_in_load {p v : CVal} {Q : CVal → Heap → Prop} (H : Honest A X U prec off) (i : In T s m h)
    (hp : ∀ h', In T s m h' → h'.load p = .ok v) (hq : ∀ h', In T s m h' → Q v h') :
    (load p).safe (env A X T) h Q := by
  intro h1 r
  have j := i.outsides H r
  refine ⟨j.good, v, h1, by simp only [hp h1 j]; rfl, safe_in_done H j hq⟩

/-- Reading the clock. -/
theorem offC_now {n N : Nat} (hn : n ≤ N) :
    OffC X (Ty.Val .any) (semA A X prog n .mu_time_now []) (fun now => semA A (stillA prec off now) prog N .mu_time_now []) := by
  cases n with
  | zero => exact .more
  | succ n =>
    obtain ⟨N, rfl⟩ : ∃ k, N = k + 1 := ⟨N - 1, by omega⟩
    exact OffC.clock (k := .done) (k' := fun _ => .done) fun now => .done trivial

/-- The library, with the clock and without. -/
abbrev lib (A : Arch) (X : AExt) (n : Nat) : ACalls := ⟨semA A X prog n, X.cb (semA A X prog n)⟩

theorem offC_call_now {Γ : List Ty} {n N : Nat} (hn : n ≤ N) {l : Locals} (hl : LocTy Γ l) :
    OffC X (fun x => Ty.Val .any x.1 ∧ LocTy Γ x.2) (evalA A (lib A X n) (.call .mu_time_now []) l)
      (fun now => evalA A (lib A (stillA prec off now) N) (.call .mu_time_now []) l) :=
  OffC.bind (k := fun v => .done (v, l)) (k' := fun _ v => .done (v, l)) (offC_now hn) fun _ _ _ => .done ⟨trivial, hl⟩

theorem frozenC_call (H : Honest A X U prec off) {n N : Nat} {f : Fn} {args : List CVal} {Q : CVal → Prop}
    (x : OffC X Q (semA A X prog n f args) (fun now => semA A (stillA prec off now) prog N f args))
    {s' : CVal → Replay} {r : CVal → CVal} {m' : CVal → Heap} (tm : Typed m) (i : In T s m h)
    (hs : ∀ now irq l, T.holds l (s.at irq) → T.holds (l ++ [.clock now]) ((s' now).at irq))
    (e : ∀ now, now ≠ .undef → sem A (stillX prec off now) prog N f m args = .ok (r now, m' now)) :
    (semA A X prog n f args).safe (env A X T) h fun v h' => ∃ now, now ≠ .undef ∧ v = r now ∧ In T (s' now) (m' now) h' := by
  have fm := fun now => firm_semA (A := A) (still_runs (prec := prec) (off := off) now) (still_confluent now) N f args
  have run : ∀ now, now ≠ .undef → (semA A (stillA prec off now) prog N f args).run m = .ok (r now, m' now) := fun now hn => by
    rw [semA_run (still_runs now)]; exact e now hn
  refine safe_mono (frozenC H x tm i hs fun now hn e' o => ?_) ?_
  · have := (fm now m _ o (r now, m' now)).2 (run now hn)
    cases this
  · rintro v h' ⟨-, now, m1, hn, o, j⟩
    have := (fm now m _ o (v, m1)).1 rfl
    rw [run now hn] at this
    obtain ⟨rfl, rfl⟩ := Prod.mk.inj (Except.ok.inj this)
    exact ⟨now, hn, rfl, j⟩

theorem vals_any (vs : List CVal) : Vals (vs.map fun _ => .any) vs := by
  induction vs with
  | nil => exact .nil
  | cons v vs ih => exact .cons trivial ih

/-- `mu_sched_defer_for` reads the clock once. -/
theorem offC_defer_for (H : Honest A X U prec off) {n N : Nat} (hn : n ≤ N) {t d : CVal} (hd : d ≠ .undef) :
    OffC X (fun _ => True) (semA A X prog n .mu_sched_defer_for [t, d]) (fun now => semA A (stillA prec off now) prog N .mu_sched_defer_for [t, d]) := by
  cases n with
  | zero => exact .more
  | succ n =>
    obtain ⟨N, rfl⟩ : ∃ k, N = k + 1 := ⟨N - 1, by omega⟩
    have hn : n ≤ N := by omega
    have tk : ∀ now, TypedK (tyFn false 3) (lib A X n) (lib A (stillA prec off now) N) := fun now => off_semA (still_typed H now) hn
    have hl : LocTy [.any, .any, .any] [t, d, .undef] := LocTy.start (us := [.any]) (vals_any [t, d]) 1
    have hy : lift (Locals.get [t, d, .undef] 1) = .done d := by cases d <;> first | rfl | exact absurd rfl hd
    have c1 : OffC X (fun x => LocTy [.any, .any, .any] x.2)
        (evalArgsA A (lib A X n) [.call .mu_time_now [], .var 1] [t, d, .undef])
        (fun now => evalArgsA A (lib A (stillA prec off now) N) [.call .mu_time_now [], .var 1] [t, d, .undef]) := by
      have args : ∀ K : ACalls, evalArgsA A K [.var 1] [t, d, .undef] = .pick fun _ => .done ([d], [t, d, .undef]) := by
        intro K
        simp only [evalArgsA, evalA, bind_eq, Act.both, hy, Act.bind]
        congr 1
        funext b
        cases b <;> rfl
      refine OffC.bind (Q := fun x => LocTy [.any, .any, .any] x.2.2) (k' := fun _ (x : CVal × List CVal × Locals) => .done (x.1 :: x.2.1, x.2.2)) (.pick fun b => ?_)
        fun now x hx => .done hx
      cases b
      · simp only [args, Act.bind]
        refine .pick (k' := fun now _ => _) fun b => ?_
        exact OffC.bind (k := fun (x : CVal × Locals) => .done (x.1, [d], x.2)) (k' := fun _ (x : CVal × Locals) => .done (x.1, [d], x.2))
          (Q' := fun (x : CVal × List CVal × Locals) => LocTy [.any, .any, .any] x.2.2) (offC_call_now hn hl) fun _ x hx => .done hx.2
      · refine OffC.bind (offC_call_now hn hl) fun now x hx => ?_
        exact Off.bind (off_evalArgsA (tk now) [.var 1] [.any] _ rfl hx.2) fun y hy => .done hy.2
    have split : ∀ (K : ACalls) (n : Nat), Src.mu_sched_defer_for.act A K n [t, d] =
        ((evalArgsA A K [.call .mu_time_now [], .var 1] [t, d, .undef]).bind fun x => (K.fn .mu_time_offset x.1).bind fun r =>
          (execA A K n (.ret (.call .defer_aux__sched [.var 0, .var 2])) (x.2.set 2 r)).bind fun y => .done y.1.result) := by
      intro K n
      show ((((((evalArgsA A K _ _).bind _).bind _).bind _).bind _).bind _) = _
      rw [Act.bind_assoc, Act.bind_assoc, Act.bind_assoc, Act.bind_assoc]
      congr 1
      funext x
      simp only [Act.bind_assoc, Act.bind, bind_eq]
    show OffC X _ (Src.mu_sched_defer_for.act A (lib A X n) n [t, d]) fun now => Src.mu_sched_defer_for.act A (lib A (stillA prec off now) N) N [t, d]
    simp only [split]
    refine OffC.bind c1 fun now x hx => ?_
    refine Off.bind (tk now .mu_time_offset (x.1.map fun _ => .any) .any x.1 rfl (vals_any _)) fun r _ => ?_
    exact Off.bind (off_execA (R := .any) (tk now) hn _ _ (by decide) (hx.set fun t ht => by
      have : t = .any := by simpa using ht.symm
      subst this; trivial)) fun y _ => .done trivial

/-- Arguments that are locals. -/
theorem args_var (K : ACalls) {i : Nat} {l : Locals} {v : CVal} (hv : l.get i = .ok v) : evalArgsA A K [.var i] l = .pick fun _ => .done ([v], l) := by
  simp only [evalArgsA, evalA, bind_eq, Act.both, hv, lift_ok, Act.bind]
  congr 1
  funext b
  cases b <;> rfl

theorem get_arg {v : CVal} (h : v ≠ .undef) : Locals.get [v] 0 = .ok v := by cases v <;> first | rfl | exact absurd rfl h

theorem Agenda.schedule_at (σ : Agenda) (t : CVal) (i : List CVal) : ({ σ with irq := i } : Agenda).schedule t = ((σ.schedule t).1, { (σ.schedule t).2 with irq := i }) := by
  unfold Agenda.schedule
  split <;> rfl

theorem Agenda.defer_at (σ : Agenda) (t x : CVal) (i : List CVal) :
    ({ σ with irq := i } : Agenda).defer prec t x = ((σ.defer prec t x).1, { (σ.defer prec t x).2 with irq := i }) := by
  unfold Agenda.defer
  split <;> rfl

/-- What the calls do does not depend on the interrupt queue. -/
theorem answer_at {c : Req} (ho : c.open = true) (k : CVal) (σ : Agenda) (i : List CVal) :
    c.answer prec off k { σ with irq := i } = ((c.answer prec off k σ).1, { (c.answer prec off k σ).2 with irq := i }) := by
  cases c <;> simp only [Req.open, Bool.false_eq_true] at ho <;> simp only [Req.answer, Agenda.schedule_at, Agenda.defer_at] <;> rfl

theorem see_clock (hu : s.user = true) (now : CVal) : s.see prec off (.clock now) = some { s with clock := now } := by
  simp only [Replay.see]
  split
  · rename_i l e
    simp [Replay.user, Phase.user, e] at hu
  · rw [if_pos hu]

/-- `mu_sched_immed`. -/
theorem immed_safe (H : Honest A X U prec off) {t : CVal} (ht : t = .null ∨ U.task t) (i : In T s m h) (hm : Mem m s.σ) (n : Nat) :
    (semA A X prog n .mu_sched_immed [t]).safe (env A X T) h fun r h' => ∃ m', r = (s.σ.schedule t).1.val ∧
      Mem m' (s.σ.schedule t).2 ∧ In T s m' h' := by
  have tm := hm.typed
  obtain ⟨hd, ix, q⟩ := hm
  obtain ⟨m', hd', ix', e, q', -⟩ := C128_immed A (stillX prec off .null) (n + 20) q (task_ne_undef H i.inv ht)
  rw [Agenda.schedule_at] at e q'
  refine safe_mono (frozen_call H tm i (d := 4) (ts := [.any]) (t := .any) (by decide) (vals_any [t]) (by omega) e) ?_
  rintro r h' ⟨rfl, j⟩
  exact ⟨m', rfl, ⟨hd', ix', q'⟩, j⟩

variable [T.Full]

/-- The program calls the scheduler. -/
theorem req_safe (H : Honest A X U prec off) {c : Req} (hc : c.Ok U) (ho : c.open = true) (hn : ∀ t, c ≠ .transfer t) (i : In T s m h) (hm : Mem m s.σ)
    (hu : s.user = true) (n : Nat) :
    (c.act (semA A X prog n)).safe (env A X T) h fun r h' => ∃ s1 m', r = (c.answer prec off s1.clock s1.σ).1 ∧
      Mem m' (c.answer prec off s1.clock s1.σ).2 ∧ In T s1 m' h' ∧ s1.σ = s.σ ∧ s1.steps = s.steps := by
  have tm := hm.typed
  have hm0 := hm
  obtain ⟨hd, ix, q⟩ := hm
  have nu : ∀ {t : CVal}, t = .null ∨ U.task t → t ≠ .undef := fun ht => task_ne_undef H i.inv ht
  have hX : Clock (stillX prec off .null) prec off := still_clock H (by simp)
  have qs := C128_questions A (stillX prec off .null) (n + 20) q
  cases c with
  | fromIsr t => cases ho
  | reset => cases ho
  | immed t =>
    refine safe_mono (immed_safe H hc i hm0 n) ?_
    rintro r h' ⟨m', e1, e2, j⟩
    exact ⟨s, m', e1, e2, j, rfl, rfl⟩
  | transfer t => exact absurd rfl (hn t)
  | deferUntil t x =>
    obtain ⟨m', hd', ix', e, q', -⟩ := C128_defer_until A (n + 20) hX q (nu hc.1) hc.2
    rw [Agenda.defer_at] at e q'
    refine safe_mono (frozen_call H tm i (d := 4) (ts := [.any, .any]) (t := .any) (by decide) (vals_any [t, x]) (by omega) e) ?_
    rintro r h' ⟨rfl, j⟩
    exact ⟨s, m', rfl, ⟨hd', ix', q'⟩, j, rfl, rfl⟩
  | deferFor t x =>
    have ex : ∀ now, ∃ r m', now ≠ .undef → sem A (stillX prec off now) prog (n + 20 + 23) .mu_sched_defer_for m [t, x] = .ok (r, m') ∧
        r = (s.σ.defer prec t (off now x)).1.val ∧ Mem m' (s.σ.defer prec t (off now x)).2 := by
      intro now
      by_cases hn : now = .undef
      · exact ⟨.undef, m, fun h => absurd hn h⟩
      · obtain ⟨m', hd', ix', e, q', -⟩ := C128_defer_for A (n + 20) (still_clock H hn) q (h1 := m) (now := now) (nu hc.1) hc.2 rfl
        rw [Agenda.defer_at] at e q'
        exact ⟨_, m', fun _ => ⟨e, rfl, hd', ix', q'⟩⟩
    choose r m' hr using ex
    refine safe_mono (frozenC_call H (s' := fun now => { s with clock := now }) (r := r) (m' := m') (offC_defer_for H (n := n) (N := n + 20 + 23) (by omega) hc.2) tm i
      (fun now irq l hl => Tale.Full.see hl (see_clock (s := s.at irq) hu now)) fun now hn => (hr now hn).1) ?_
    rintro v h' ⟨now, hn, rfl, j⟩
    exact ⟨{ s with clock := now }, m' now, (hr now hn).2.1, (hr now hn).2.2, j, rfl, rfl⟩
  | remove t =>
    obtain ⟨m', hd', ix', e, q', -⟩ := C128_remove A (stillX prec off .null) (n + 20) q (nu hc)
    refine safe_mono (frozen_call H tm i (d := 4) (ts := [.any]) (t := .any) (by decide) (vals_any [t]) (by omega) e) ?_
    rintro r h' ⟨rfl, j⟩
    exact ⟨s, m', rfl, ⟨hd', ix', q'⟩, j, rfl, rfl⟩
  | setIdle t =>
    obtain ⟨m', hd', ix', e, q', -⟩ := C128_set_idle A (stillX prec off .null) (n + 20) q (nu hc)
    refine safe_mono (frozen_call H tm i (d := 4) (ts := [.any]) (t := .any) (by decide) (vals_any [t]) (by omega) e) ?_
    rintro r h' ⟨rfl, j⟩
    exact ⟨s, m', rfl, ⟨hd', ix', q'⟩, j, rfl, rfl⟩
  | getIdle =>
    refine safe_mono (frozen_call H tm i (d := 4) (ts := []) (t := .any) (by decide) .nil (by omega) (qs .null).2.1) ?_
    rintro r h' ⟨rfl, j⟩
    exact ⟨s, m, rfl, ⟨hd, ix, q⟩, j, rfl, rfl⟩
  | current =>
    refine safe_mono (frozen_call H tm i (d := 4) (ts := []) (t := .any) (by decide) .nil (by omega) (qs .null).1) ?_
    rintro r h' ⟨rfl, j⟩
    exact ⟨s, m, rfl, ⟨hd, ix, q⟩, j, rfl, rfl⟩
  | next =>
    refine safe_mono (frozen_call H tm i (d := 4) (ts := []) (t := .any) (by decide) .nil (by omega) (qs .null).2.2.1) ?_
    rintro r h' ⟨rfl, j⟩
    exact ⟨s, m, rfl, ⟨hd, ix, q⟩, j, rfl, rfl⟩
  | wait t =>
    refine safe_mono (frozen_call H tm i (d := 4) (ts := [.any]) (t := .any) (by decide) (vals_any [t]) (by omega) (qs t).2.2.2) ?_
    rintro r h' ⟨rfl, j⟩
    exact ⟨s, m, rfl, ⟨hd, ix, q⟩, j, rfl, rfl⟩

end Isr
end Mu.CS
