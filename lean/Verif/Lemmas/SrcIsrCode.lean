import Verif.Lemmas.SrcIsrReset

/-! # The interrupted program -/

namespace Mu.CS.Isr

open Act Conc

variable {A : Arch} {X : AExt} {U : User} {prec : CVal → CVal → Bool} {off : CVal → CVal → CVal}
variable {Gd : List Seen → Prop} {T : Tale U prec off Gd} [T.Full]
variable {s : Replay} {m h : Heap}

/-- Memory holds what the log says. -/
structure Holds {U : User} {prec : CVal → CVal → Bool} {off : CVal → CVal → CVal} {Gd : List Seen → Prop} (T : Tale U prec off Gd) (s : Replay) (m h : Heap) : Prop where
  here : In T s m h
  mem : Mem m s.σ
  clean : Clean U s.σ

theorem Holds.outsides (H : Honest A X U prec off) (i : Holds T s m h) {h1 : Heap} (r : Outsides A X U h h1) : Holds T s m h1 :=
  ⟨i.here.outsides H r, i.mem, i.clean⟩

/-- User code, with the library looked at for `n` nested calls, does as it should. -/
def CodeSafe (A : Arch) (X : AExt) {U : User} {prec : CVal → CVal → Bool} {off : CVal → CVal → CVal} {Gd : List Seen → Prop} (T : Tale U prec off Gd) (n : Nat) : Prop :=
  ∀ a, Code (semA A X prog n) U a → ∀ s m h, Holds T s m h → s.user = true →
    a.safe (env A X T) h fun _ h' => ∃ s' m', Holds T s' m' h' ∧ s'.steps = s.steps

/-- The hooks are those the user has installed. -/
theorem In.hooks (i : In T s m h) : s.callHook = U.callHook.isSome ∧ s.transferHook = U.transferHook.isSome := by
  obtain ⟨irq, q, -, j⟩ := i
  exact T.hooks (s := s.at irq) j.log

/-- The hook is called if there is one. -/
theorem hook_safe (H : Honest A X U prec off) (i : In T s m h) {n : Nat} {t : CVal} (ht : t ≠ .undef) {g : Glob} {hk : Option Nat}
    (hg : ∀ h', In T s m h' → h'.at (.glob g) 0 = some (hookVal hk)) {P : Heap → Prop}
    (stable : ∀ h1 h2, P h1 → Outsides A X U h1 h2 → P h2 ∧ (env A X T).good h2)
    (hn : hk = none → ∀ h', In T s m h' → P h')
    (hs : ∀ f, hk = some f → ∀ h', In T s m h' → (X.cb (semA A X prog n) f [t]).safe (env A X T) h' fun _ h2 => P h2) :
    (execA A (lib A X n) n (.ite (.bin (.pcmp .ne) (.load (.glob g)) .null) (.expr (.callp (.load (.glob g)) [.var 0])) .skip) [t]).safe
      (env A X T) h fun x h' => x = (.next, [t]) ∧ P h' := by
  have hd : ∀ a : Flow × Locals, a = (.next, [t]) → ∀ h1, P h1 → (Act.done a).safe (env A X T) h1 fun x h' => x = (.next, [t]) ∧ P h' :=
    fun a ha h1 p h2 r => ⟨(stable h1 h2 p r).2, ha, (stable h1 h2 p r).1⟩
  have ld : ∀ h', In T s m h' → h'.load (.ptr (.glob g) 0) = .ok (hookVal hk) := fun h' j =>
    Heap.load_some (by cases hk <;> simp [hookVal]) (hg h' j)
  refine safe_ite ?_
  have hc : evalCondA A (lib A X n) (.bin (.pcmp .ne) (.load (.glob g)) .null) [t] = .pick fun _ => (load (.ptr (.glob g) 0)).bind fun v =>
      (op A (.pcmp .ne) v .null).bind fun w => (lift w.truth).bind fun b => .done (b, [t]) := by
    simp only [evalCondA, evalA, bind_eq, Act.both, Act.bind]
    congr 1
    funext b
    cases b <;> simp only [Act.bind, Act.bind_assoc] <;> rfl
  rw [hc]
  intro _
  rw [safe_bind_iff]
  refine safe_in_load H i ld fun h1 i1 => ?_
  cases hk with
  | none =>
    refine safe_in_done H i1 fun h2 i2 => ?_
    exact hd _ rfl _ (hn rfl _ i2)
  | some f =>
    refine safe_in_done H i1 fun h2 i2 => ?_
    rw [if_pos (by simp [hookVal])]
    let K : CVal → Act (Flow × Locals) := fun v => (match v with
      | .fn f => ((lib A X n).cb f [t])
      | .null => .fail .null
      | _ => .fail .ptr).bind fun _ => .done (.next, [t])
    have hK : ∀ h3, In T s m h3 → (K (.fn f)).safe (env A X T) h3 fun x h' => x = (.next, [t]) ∧ P h' := by
      intro h3 i3
      show (((lib A X n).cb f [t]).bind _).safe _ _ _
      rw [safe_bind_iff]
      exact safe_mono (hs f rfl _ i3) fun _ h4 p => hd _ rfl _ p
    have hcall : execA A (lib A X n) n (.expr (.callp (.load (.glob g)) [.var 0])) [t] = .pick fun b =>
        if b then (load (.ptr (.glob g) 0)).bind fun v => .pick fun _ => K v else .pick fun _ => (load (.ptr (.glob g) 0)).bind K := by
      simp only [execA, evalA, bind_eq, Act.both, args_var _ (get_arg ht), Act.bind]
      congr 1
      funext b
      cases b
      · simp only [Act.bind, Act.bind_assoc, Bool.false_eq_true, if_false]
        congr 1
        funext _
        congr 1
        funext v
        cases v <;> simp only [Act.bind, Act.bind_assoc, K]
      · simp only [Act.bind, Act.bind_assoc, if_true, args_var _ (get_arg ht)]
        congr 1
        funext v
        congr 1
        funext _
        cases v <;> simp only [Act.bind, Act.bind_assoc, K]
    rw [hcall]
    intro b
    cases b
    · intro _
      rw [safe_bind_iff]
      exact safe_in_load H i2 ld hK
    · show ((load (.ptr (.glob g) 0)).bind fun v => .pick fun _ => K v).safe _ _ _
      rw [safe_bind_iff]
      exact safe_in_load H i2 ld fun h3 i3 _ => hK h3 i3

/-- `mu_task_call`: nothing, or the task is called and returns. -/
theorem task_call_safe (H : Honest A X U prec off) {n : Nat} (ih : ∀ k, k < n → CodeSafe A X T k) (i : Holds T s m h) {t : CVal}
    {l : List Phase} (hs : s.steps = .chosen t :: l) (ht : t = .null ∨ U.task t) :
    (semA A X prog n .mu_task_call [t]).safe (env A X T) h fun _ h' => ∃ s' m' p, Holds T s' m' h' ∧ s'.steps = p :: l ∧
      (p = .running ∨ p = .chosen .null) := by
  cases n with
  | zero => exact ⟨rfl, fun h1 r => (i.outsides H r).here.good⟩
  | succ n =>
    show ((execA A (lib A X n) n Src.mu_task_call.body [t]).bind fun x => .done x.1.result).safe _ _ _
    rw [safe_bind_iff]
    rcases ht with rfl | ht
    · intro b
      cases b <;> exact fun h1 r => ⟨(i.outsides H r).here.good, safe_in_done H (i.outsides H r).here fun h2 j => ⟨s, m, _, ⟨j, i.mem, i.clean⟩, hs, .inr rfl⟩⟩
    · obtain ⟨b, o, f, rfl, -⟩ := H.valid h t i.here.inv ht
      refine safe_ite ?_
      have hc : evalCondA A (lib A X n) (.bin (.pcmp .ne) (.var 0) .null) [.ptr b o] = .pick fun _ => .done (true, [.ptr b o]) := by
        show Act.pick _ = _
        congr 1
        funext b
        cases b <;> rfl
      rw [hc]
      intro _
      refine safe_in_done H i.here fun h1 i1 => ?_
      show (execA A (lib A X n) n (.seq _ _) _).safe _ _ _
      refine safe_seq ?_
      -- the hook
      let P : Heap → Prop := fun h' => ∃ s1 m1, Holds T s1 m1 h' ∧
        (U.callHook = none ∧ s1.steps = .chosen (.ptr b o) :: l ∨ s1.steps = .hooked (.ptr b o) :: l)
      have hook := hook_safe H i1 (n := n) (t := .ptr b o) (by simp) (g := .s_call_hook) (hk := U.callHook)
        (fun h' j => by obtain ⟨irq, q, -, j⟩ := j; exact j.callHook) (P := P)
        (by
          rintro h1 h2 ⟨s1, m1, j, e⟩ r
          exact ⟨⟨s1, m1, j.outsides H r, e⟩, (j.outsides H r).here.good⟩)
        (fun e h' j => ⟨s, m, ⟨j, i.mem, i.clean⟩, .inl ⟨e, hs⟩⟩)
        (by
          intro f e h3 i3
          obtain ⟨g, k, e1, hg, hk⟩ := H.hook n f (.ptr b o) e ht
          rw [e1]
          intro h4 r
          have j := i3.outsides H r
          refine ⟨j.good, ?_⟩
          obtain ⟨v, h5, e5, a5⟩ := hg h4 j.inv
          refine ⟨v, h5, e5, ?_⟩
          have hc : s.callHook = true := by rw [j.hooks.1, e]; rfl
          have j5 : In T { s with steps := .hooked (.ptr b o) :: l } m h5 :=
            j.adds a5 fun irq hl => Tale.Full.see hl (by simp [Replay.see, Replay.at, hs, hc])
          refine safe_mono (ih n (by omega) _ (hk v) _ m h5 ⟨j5, i.mem, i.clean⟩ (by simp [Replay.user, Phase.user])) ?_
          rintro u h6 ⟨s', m', j6, e6⟩
          exact ⟨s', m', j6, .inr e6⟩)
      refine safe_mono hook ?_
      rintro _ h2 ⟨rfl, s1, m1, i2, e1⟩
      refine ⟨rfl, ?_⟩
      -- the function
      have call : ∀ f h3, U.code f → In T s1 m1 h3 → ((((lib A X n).cb f [.ptr b o]).bind fun r => .done (r, ([.ptr b o] : Locals))).bind fun x => .done (Flow.next, x.2)).safe (env A X T) h3
          fun x h' => (Act.done x.1.result).safe (env A X T) h' fun _ h' => ∃ s' m' p, Holds T s' m' h' ∧ s'.steps = p :: l ∧
            (p = .running ∨ p = .chosen .null) := by
        intro f h3 hf i3
        rw [Act.bind_assoc, safe_bind_iff]
        obtain ⟨g, k, e, hg, hk⟩ := H.task n f (.ptr b o) hf ht
        show (X.cb (semA A X prog n) f [.ptr b o]).safe _ _ _
        rw [e]
        intro h4 r
        have j := i3.outsides H r
        refine ⟨j.good, ?_⟩
        obtain ⟨v, h5, e5, a5⟩ := hg h4 j.inv
        refine ⟨v, h5, e5, ?_⟩
        have j5 : In T { s1 with steps := .running :: l } m1 h5 := j.adds a5 fun irq hl => Tale.Full.see hl (by
          rcases e1 with ⟨e1, e2⟩ | e2
          · have hc : s1.callHook = false := by rw [j.hooks.1, e1]; rfl
            simp [Replay.see, Replay.at, e2, hc]
          · simp [Replay.see, Replay.at, e2])
        refine safe_mono (ih n (by omega) _ (hk v) _ m1 h5 ⟨j5, i2.mem, i2.clean⟩ (by simp [Replay.user, Phase.user])) ?_
        rintro u h6 ⟨s', m', j6, e6⟩
        exact safe_in_done H j6.here fun h7 j7 => safe_in_done H j7 fun h8 j8 => ⟨s', m', .running, ⟨j8, j6.mem, j6.clean⟩, e6, .inl rfl⟩
      have ld : ∀ {α : Type} {k : CVal → Act α} {h3 : Heap} {Q : α → Heap → Prop}, In T s1 m1 h3 →
          (∀ f h4, U.code f → In T s1 m1 h4 → (k (.fn f)).safe (env A X T) h4 Q) →
          (Act.mem (fun h => do let v ← h.load (.ptr b (o + (0 : Nat))); .ok (v, h)) k).safe (env A X T) h3 Q := by
        intro α k h3 Q i3 hk h4 r
        have j := i3.outsides H r
        obtain ⟨b', o', f, e, hf, hc⟩ := H.valid h4 _ j.inv ht
        cases e
        refine ⟨j.good, .fn f, h4, ?_, hk f h4 hc j⟩
        simp only [Nat.cast_zero, Int.add_zero, Heap.load_some (by simp) hf]; rfl
      intro p
      cases p
      · intro p
        cases p <;> exact ld i2.here fun f h4 hf i4 => call f h4 hf i4
      · refine ld i2.here fun f h4 hf i4 => ?_
        intro p
        cases p <;> exact call f h4 hf i4

theorem load_cur_safe (H : Honest A X U prec off) (i : In T s m h) {σ : Agenda} (hm : Mem m σ) (hu : σ.cur ≠ .undef)
    {Q : CVal → Heap → Prop} (hq : ∀ h', In T s m h' → Q σ.cur h') : (load (.ptr (.glob .s_sched) 9)).safe (env A X T) h Q :=
  safe_in_load H i (fun h' i' => Heap.load_some hu (by rw [i'.load curCell_own]; exact hm.cur)) hq

/-- What a call answers. -/
theorem Clean.gives {σ : Agenda} (c : Clean U σ) (q : Req) (clk : CVal) : q.gives U (q.answer prec off clk σ).1 := by
  cases q with
  | setIdle t => exact rfl
  | reset => exact rfl
  | getIdle => exact c.idle
  | current => exact c.cur
  | next =>
    show σ.next = .null ∨ U.task σ.next
    unfold Agenda.next
    split
    · exact .inl rfl
    · rename_i d l e
      exact c.due d (by rw [e]; simp)
  | wait t => exact ⟨.none, rfl⟩
  | _ => exact ⟨_, rfl⟩

theorem Clean.choose {σ : Agenda} (c : Clean U σ) (now : CVal) : Clean U (σ.choose prec now) := by
  have qd : ∀ {σ : Agenda}, Clean U σ → Clean U σ.queued := by
    intro σ c
    unfold Agenda.queued
    split
    · rename_i t l e
      refine ⟨fun t' ht => c.immed t' (by rw [e]; exact List.mem_cons_of_mem _ ht), c.due, c.immed t (by rw [e]; simp), c.idle⟩
    · exact ⟨c.immed, c.due, c.idle, c.idle⟩
  unfold Agenda.choose
  split
  · rename_i d l e
    have cl : Clean U { σ with due := l } := ⟨c.immed, fun x hx => c.due x (by rw [e]; exact List.mem_cons_of_mem _ hx), c.cur, c.idle⟩
    split
    · exact qd c
    · split
      · exact qd cl
      · exact ⟨cl.immed, cl.due, c.due d (by rw [e]; simp), cl.idle⟩
  · exact qd c

/-- `mu_sched_step`, up to the note that it has returned. -/
theorem step_safe (H : Honest A X U prec off) {n : Nat} (ih : ∀ k, k < n → CodeSafe A X T k) (i : Holds T s m h)
    {l : List Phase} (hs : s.steps = .entered :: l) :
    (semA A X prog n .mu_sched_step []).safe (env A X T) h fun _ h' => ∃ s' m' p, In T s' m' h' ∧ Mem m' { s'.σ with cur := .null } ∧
      Clean U s'.σ ∧ s'.steps = p :: l ∧ (p = .running ∨ p = .chosen .null) := by
  cases n with
  | zero => exact ⟨rfl, fun h1 r => (i.outsides H r).here.good⟩
  | succ n =>
    show ((execA A (lib A X n) n Src.mu_sched_step.body [.undef]).bind fun x => .done x.1.result).safe _ _ _
    rw [safe_bind_iff]
    refine safe_seq ?_
    have e1 : execA A (lib A X n) n (.expr (.setv 0 (.fld (.glob .s_sched) 9))) [.undef] = .done (.next, [.ptr (.glob .s_sched) 9]) := rfl
    refine Eq.mpr (congrArg (fun t => Act.safe _ t h _) e1) ?_
    refine safe_in_done H i.here fun h1 i1 => ⟨rfl, ?_⟩
    refine safe_seq ?_
    -- the call of the task, and the return
    have fin : ∀ s1 m1 h1, Holds T s1 m1 h1 → s1.steps = .chosen s1.σ.cur :: l →
        (execA A (lib A X n) n (.seq (.expr (.call .mu_task_call [.load (.fld (.glob .s_sched) 9)])) (.expr (.store (.fld (.glob .s_sched) 9) .null)))
          [.ptr (.glob .s_sched) 9]).safe (env A X T) h1 fun x h' => (Act.done x.1.result).safe (env A X T) h' fun _ h' =>
            ∃ s' m' p, In T s' m' h' ∧ Mem m' { s'.σ with cur := .null } ∧ Clean U s'.σ ∧ s'.steps = p :: l ∧ (p = .running ∨ p = .chosen .null) := by
      intro s1 m1 h1 j1 e1
      refine safe_seq ?_
      have hu := task_ne_undef H j1.here.inv j1.clean.cur
      have call : (execA A (lib A X n) n (.expr (.call .mu_task_call [.load (.fld (.glob .s_sched) 9)])) [.ptr (.glob .s_sched) 9]).safe (env A X T) h1
          fun x h' => x = (.next, [.ptr (.glob .s_sched) 9]) ∧ ∃ s' m' p, Holds T s' m' h' ∧ s'.steps = p :: l ∧ (p = .running ∨ p = .chosen .null) := by
        have split : execA A (lib A X n) n (.expr (.call .mu_task_call [.load (.fld (.glob .s_sched) 9)])) [.ptr (.glob .s_sched) 9] =
            .pick fun _ => (load (.ptr (.glob .s_sched) 9)).bind fun v => ((lib A X n).fn .mu_task_call [v]).bind fun _ => .done (.next, [.ptr (.glob .s_sched) 9]) := by
          simp only [execA, evalA, evalArgsA, bind_eq, Act.both, Act.bind]
          congr 1
          funext b1
          cases b1 <;> simp only [Act.bind, Act.bind_assoc] <;> rfl
        rw [split]
        intro _
        rw [safe_bind_iff]
        refine load_cur_safe H j1.here j1.mem hu fun h2 j2 => ?_
        rw [safe_bind_iff]
        refine safe_mono (task_call_safe H (fun k hk => ih k (by omega)) ⟨j2, j1.mem, j1.clean⟩ e1 j1.clean.cur) ?_
        rintro v h3 ⟨s', m', p, j3, x⟩
        exact safe_in_done H j3.here fun h4 j4 => ⟨rfl, s', m', p, ⟨j4, j3.mem, j3.clean⟩, x⟩
      refine safe_mono call ?_
      rintro _ h2 ⟨rfl, s', m', p, j2, x⟩
      refine ⟨rfl, ?_⟩
      have key : ∀ k : CVal → Act (Flow × Locals), k .null = .done (.next, [.ptr (.glob .s_sched) 9]) →
          ((store (.ptr (.glob .s_sched) 9) .null).bind k).safe (env A X T) h2 fun x h' => (Act.done x.1.result).safe (env A X T) h' fun _ h' =>
            ∃ s' m' p, In T s' m' h' ∧ Mem m' { s'.σ with cur := .null } ∧ Clean U s'.σ ∧ s'.steps = p :: l ∧ (p = .running ∨ p = .chosen .null) := by
        intro k hk
        rw [safe_bind_iff]
        refine store_cur_safe H j2.here j2.mem fun h3 j3 => ?_
        rw [hk]
        exact safe_in_done H j3 fun h4 j4 => safe_in_done H j4 fun h5 j5 => ⟨s', _, p, j5, j2.mem.setCur (by simp), j2.clean, x⟩
      intro b
      cases b <;> exact key _ rfl
    refine safe_ite ?_
    have split : evalCondA A (lib A X n) (.bin (.cmp .eq (.common .enum .int)) (.call .mu_spsc_get [.fld (.glob .s_sched) 0, .var 0]) (.num 0))
        [.ptr (.glob .s_sched) 9] = .pick fun _ => .pick fun _ => .pick fun _ =>
          (semA A X prog n .mu_spsc_get [.ptr (.glob .s_sched) 0, .ptr (.glob .s_sched) 9]).bind fun r =>
            (op A (.cmp .eq (.common .enum .int)) r (.int 0)).bind fun v => (lift v.truth).bind fun b => .done (b, [.ptr (.glob .s_sched) 9]) := by
      simp only [evalCondA, evalA, evalArgsA, bind_eq, Act.both, Act.bind]
      congr 1
      funext b1
      cases b1 <;> simp only [Act.bind] <;> congr 1 <;> funext b2 <;> cases b2 <;> simp only [Act.bind] <;> congr 1 <;> funext b3 <;>
        cases b3 <;> simp only [Act.bind, Act.bind_assoc, Locals.get] <;> rfl
    refine Eq.mpr (congrArg (fun t => Act.safe _ t h1 _) split) ?_
    intro _ _ _
    rw [safe_bind_iff]
    have c0 : op A (.cmp .eq (ITy.enum.common .int)) (.int 0) (.int 0) = .done (.ofBool true) := cmp_enum A (i := 0) (j := 0) (by decide) (by decide)
    have c1 : op A (.cmp .eq (ITy.enum.common .int)) (.int 1) (.int 0) = .done (.ofBool false) := cmp_enum A (i := 1) (j := 0) (by decide) (by decide)
    refine safe_mono (get_safe H i1 i.mem hs n) ?_
    rintro r h2 (⟨rfl, i2⟩ | ⟨rfl, t, ht, i2⟩)
    · rw [c1]
      refine safe_in_done H i2 fun h3 i3 => ?_
      show (execA A (lib A X n) n rest _).safe _ _ _
      refine safe_mono (rest_safe (s := { s with steps := .looking :: l }) H i.mem (l := l) rfl rfl i3 n) ?_
      rintro _ h4 ⟨rfl, now, m', hn, hm', i4⟩
      exact ⟨rfl, fin _ m' h4 ⟨i4, hm', i.clean.choose now⟩ rfl⟩
    · rw [c0]
      refine safe_in_done H i2 fun h3 i3 => ?_
      rw [if_pos (by decide)]
      refine safe_in_done H i3 fun h4 i4 => ⟨rfl, ?_⟩
      exact fin _ _ h4 ⟨i4, i.mem.setCur (task_ne_undef H i4.inv ht), ⟨i.clean.immed, i.clean.due, ht, i.clean.idle⟩⟩ rfl

theorem Clean.schedule {σ : Agenda} (c : Clean U σ) {t : CVal} (ht : t = .null ∨ U.task t) : Clean U (σ.schedule t).2 := by
  unfold Agenda.schedule
  split
  · refine ⟨fun u hu => ?_, c.due, c.cur, c.idle⟩
    rcases List.mem_append.1 hu with hu | hu
    · exact c.immed u hu
    · rw [List.mem_singleton.1 hu]; exact ht
  · exact c

/-- `mu_sched_transfer`. -/
theorem transfer_safe (H : Honest A X U prec off) {n : Nat} (ih : ∀ k, k < n → CodeSafe A X T k) (i : Holds T s m h)
    (hu : s.user = true) {t : CVal} (ht : t = .null ∨ U.task t) :
    (semA A X prog n .mu_sched_transfer [t]).safe (env A X T) h fun r h' => ∃ s1 m', r = (s1.σ.schedule t).1.val ∧
      Mem m' (s1.σ.schedule t).2 ∧ In T s1 m' h' ∧ Clean U s1.σ ∧ s1.user = true ∧ s1.fits (.transfer t) = true ∧
      s1.after (.transfer t) = s.steps := by
  have nu : t ≠ .undef := task_ne_undef H i.here.inv ht
  cases n with
  | zero => exact ⟨rfl, fun h1 r => (i.here.outsides H r).good⟩
  | succ n =>
    have bd : ∀ a : Act CVal, (a.bind fun x => .done x) = a := by
      intro a
      induction a with
      | done a => rfl
      | fail e => rfl
      | mem f c ih => simp only [Act.bind, ih]
      | pick c ih => simp only [Act.bind, ih]
    have e : semA A X prog (n + 1) .mu_sched_transfer [t] = .pick fun _ => (semA A X prog n .mu_task_call_transfer_hook [t]).bind fun _ =>
        .pick fun _ => semA A X prog n .mu_sched_immed [t] := by
      show ((execA A (lib A X n) n Src.mu_sched_transfer.body [t]).bind fun x => .done x.1.result) = _
      simp only [Src.mu_sched_transfer, execA, evalA, bind_eq, args_var _ (get_arg nu), Act.bind, Act.bind_assoc]
      simp only [Flow.result, bd]
    rw [e]
    intro _
    rw [safe_bind_iff]
    let P : Heap → Prop := fun h' => ∃ s1 m1, Holds T s1 m1 h' ∧ s1.user = true ∧ s1.fits (.transfer t) = true ∧
      s1.after (.transfer t) = s.steps
    have stable : ∀ h1 h2, P h1 → Outsides A X U h1 h2 → P h2 ∧ (env A X T).good h2 := by
      rintro h1 h2 ⟨s1, m1, j, e⟩ r
      exact ⟨⟨s1, m1, j.outsides H r, e⟩, (j.outsides H r).here.good⟩
    have hook : (semA A X prog n .mu_task_call_transfer_hook [t]).safe (env A X T) h fun _ h' => P h' := by
      cases n with
      | zero => exact ⟨rfl, fun h1 r => (i.here.outsides H r).good⟩
      | succ n =>
        show ((execA A (lib A X n) n Src.mu_task_call_transfer_hook.body [t]).bind fun x => .done x.1.result).safe _ _ _
        rw [safe_bind_iff]
        refine safe_mono (hook_safe H i.here (n := n) nu (g := .s_transfer_hook) (hk := U.transferHook)
          (fun h' j => by obtain ⟨irq, q, -, j⟩ := j; exact j.transferHook) (P := P) stable ?_ ?_) ?_
        · intro e h' j
          have hc : s.transferHook = false := by rw [j.hooks.2, e]; rfl
          exact ⟨s, m, ⟨j, i.mem, i.clean⟩, hu, by simp [Replay.fits, hc], by simp [Replay.after, hc]⟩
        · intro f e h3 i3
          obtain ⟨g, k, e1, hg, hk⟩ := H.transfer n f t e ht
          rw [e1]
          intro h4 r
          have j := i3.outsides H r
          refine ⟨j.good, ?_⟩
          obtain ⟨v, h5, e5, a5⟩ := hg h4 j.inv
          refine ⟨v, h5, e5, ?_⟩
          have hc : s.transferHook = true := by rw [j.hooks.2, e]; rfl
          have j5 : In T { s with steps := .transferring t :: s.steps } m h5 :=
            j.adds a5 fun irq hl => Tale.Full.see hl (by
              have e5 : (s.at irq).user = true := hu
              simp only [Replay.see, e5, Replay.at_transferHook, hc, Bool.and_self, if_true]; rfl)
          refine safe_mono (ih n (by omega) _ (hk v) _ m h5 ⟨j5, i.mem, i.clean⟩ (by simp [Replay.user, Phase.user])) ?_
          rintro u h6 ⟨s', m', j6, e6⟩
          have hc' : s'.transferHook = true := by rw [j6.here.hooks.2, e]; rfl
          exact ⟨s', m', j6, by simp [Replay.user, e6, Phase.user], by simp [Replay.fits, e6], by simp [Replay.after, hc', e6]⟩
        · rintro x h6 ⟨rfl, p⟩
          exact fun h7 r => ⟨(stable _ _ p r).2, (stable _ _ p r).1⟩
    refine safe_mono hook ?_
    rintro _ h' ⟨s1, m1, j, e1, e2, e3⟩
    intro _
    refine safe_mono (immed_safe H ht j.here j.mem n) ?_
    rintro r h2 ⟨m', x1, x2, j2⟩
    exact ⟨s1, m', x1, x2, j2, j.clean, e1, e2, e3⟩

/-- The program calls the scheduler. -/
theorem call_safe (H : Honest A X U prec off) {n : Nat} (ih : ∀ k, k < n → CodeSafe A X T k) (i : Holds T s m h)
    (hu : s.user = true) {c : Req} (hc : c.Ok U) (ho : c.open = true) :
    (c.act (semA A X prog n)).safe (env A X T) h fun r h' => ∃ s1 m', r = (c.answer prec off s1.clock s1.σ).1 ∧
      Mem m' (c.answer prec off s1.clock s1.σ).2 ∧ In T s1 m' h' ∧ Clean U s1.σ ∧ s1.user = true ∧ s1.fits c = true ∧
      s1.after c = s.steps := by
  by_cases hn : ∃ t, c = .transfer t
  · obtain ⟨t, rfl⟩ := hn
    exact transfer_safe H ih i hu hc
  · refine safe_mono (req_safe H hc ho (fun t e => hn ⟨t, e⟩) i.here i.mem hu n) ?_
    rintro r h' ⟨s1, m', e1, e2, j1, e3, e4⟩
    refine ⟨s1, m', e1, e2, j1, e3 ▸ i.clean, by unfold Replay.user; rw [e4]; exact hu, ?_, ?_⟩
    · cases c <;> first | rfl | exact absurd ⟨_, rfl⟩ hn
    · rw [← e4]
      cases c <;> first | rfl | exact absurd ⟨_, rfl⟩ hn

theorem Clean.answer {σ : Agenda} (c : Clean U σ) {r : Req} (hc : r.Ok U) (ho : r.open = true) (k : CVal) : Clean U (r.answer prec off k σ).2 := by
  have sch : ∀ t, (t = .null ∨ U.task t) → Clean U (σ.schedule t).2 := by
    intro t ht
    unfold Agenda.schedule
    split
    · refine ⟨fun u hu => ?_, c.due, c.cur, c.idle⟩
      rcases List.mem_append.1 hu with hu | hu
      · exact c.immed u hu
      · rw [List.mem_singleton.1 hu]; exact ht
    · exact c
  have ins : ∀ (d : Due) (l : List Due), (d.task = .null ∨ U.task d.task) → (∀ x ∈ l, x.task = .null ∨ U.task x.task) →
      ∀ x ∈ insertDue prec d l, x.task = .null ∨ U.task x.task := by
    intro d l hd hl
    induction l with
    | nil => intro x hx; rw [List.mem_singleton.1 hx]; exact hd
    | cons y l ih =>
      intro x hx
      unfold insertDue at hx
      split at hx
      · rcases List.mem_cons.1 hx with rfl | hx
        · exact hd
        · exact hl x hx
      · rcases List.mem_cons.1 hx with rfl | hx
        · exact hl x (by simp)
        · exact ih (fun z hz => hl z (List.mem_cons_of_mem _ hz)) x hx
  have dfr : ∀ t x, (t = .null ∨ U.task t) → Clean U (σ.defer prec t x).2 := by
    intro t x ht
    unfold Agenda.defer
    split
    · exact ⟨c.immed, ins _ _ ht c.due, c.cur, c.idle⟩
    · exact c
  cases r with
  | fromIsr t => cases ho
  | reset => cases ho
  | immed t => exact sch t hc
  | transfer t => exact sch t hc
  | deferUntil t x => exact dfr t x hc.1
  | deferFor t x => exact dfr t _ hc.1
  | remove t => exact ⟨c.immed, fun d hd => c.due d (List.mem_filter.1 hd).1, c.cur, c.idle⟩
  | setIdle t => exact ⟨c.immed, c.due, c.cur, hc⟩
  | getIdle => exact c
  | current => exact c
  | next => exact c
  | wait t => exact c

/-- All user code does as it should. -/
theorem code_safe (W : U.resets = true → T.Wipe) (H : Honest A X U prec off) (n : Nat) : CodeSafe A X T n := by
  induction n using Nat.strongRecOn with
  | _ n ih =>
  intro a ha
  induction ha with
  | done v => exact fun s m h i _ => safe_in_done H i.here fun h' j => ⟨s, m, ⟨j, i.mem, i.clean⟩, rfl⟩
  | more => exact fun s m h i _ => ⟨rfl, fun h1 r => (i.outsides H r).here.good⟩
  | own hf _ ihk =>
    intro s m h i hu h1 r
    have j := i.outsides H r
    obtain ⟨v, h2, e, a⟩ := hf h1 j.here.inv
    refine ⟨j.here.good, v, h2, e, ihk v s m h2 ⟨j.here.adds a fun irq hl => by simpa using hl, j.mem, j.clean⟩ hu⟩
  | pick _ ihk => exact fun s m h i hu b => ihk b s m h i hu
  | @call c g k hc ho hg _ ihk =>
    intro s m h i hu
    rw [safe_bind_iff]
    rcases ho with ho | ⟨rfl, hres⟩
    case' inr =>
      refine safe_mono (reset_safe (W hres) H i.mem i.here hu n) ?_
      rintro r h' ⟨rfl, m', hm', j1⟩
      intro h1 ro
      have j2 := j1.outsides H ro
      have hgv : Req.reset.gives U .undef := rfl
      obtain ⟨v, h2, e, a⟩ := hg _ hgv h1 j2.inv
      refine ⟨j2.good, v, h2, e, ?_⟩
      exact ihk _ v hgv { s with σ := s.σ.reset } m' h2 ⟨j2.reset (W hres) a, hm',
        ⟨by simp [Agenda.reset], by simp [Agenda.reset], .inl rfl, i.clean.idle⟩⟩ hu
    refine safe_mono (call_safe H ih i hu hc ho) ?_
    rintro r h' ⟨s1, m', e1, e2, j1, e3, hu1, e4, e5⟩
    intro h1 ro
    have j2 := j1.outsides H ro
    have hgv : c.gives U r := by rw [e1]; exact e3.gives c s1.clock
    obtain ⟨v, h2, e, a⟩ := hg r hgv h1 j2.inv
    refine ⟨j2.good, v, h2, e, ?_⟩
    have j3 : In T { s1 with σ := (c.answer prec off s1.clock s1.σ).2, steps := s.steps } m' h2 := by
      refine j2.adds a fun irq hl => Tale.Full.see hl ?_ (fun r e => by cases e; cases ho)
      simp only [Replay.see]
      have e6 : (s1.at irq).user = true := hu1
      have e7 : (s1.at irq).fits c = true := by rw [← e4]; cases c <;> rfl
      have e8 : (s1.at irq).after c = s.steps := by rw [← e5]; cases c <;> rfl
      have e9 : c.answer prec off (s1.at irq).clock (s1.at irq).σ = _ := answer_at (prec := prec) (off := off) ho s1.clock s1.σ irq
      rw [e9, e6, e7, e8, e1]
      simp [Replay.at]
    exact ihk r v hgv { s1 with σ := (c.answer prec off s1.clock s1.σ).2, steps := s.steps } m' h2 ⟨j3, e2, e3.answer hc ho _⟩ hu
  | @step g g' k hg hg' _ ihk =>
    intro s m h i hu h1 r
    have j := i.outsides H r
    obtain ⟨v, h2, e, a⟩ := hg h1 j.here.inv
    refine ⟨j.here.good, v, h2, e, ?_⟩
    have j2 : In T { s with steps := .entered :: s.steps } m h2 := j.here.adds a fun irq hl => Tale.Full.see hl (by
      have : (s.at irq).user = true := hu
      simp only [Replay.see, this, if_true]; rfl)
    rw [safe_bind_iff]
    refine safe_mono (step_safe H ih ⟨j2, i.mem, i.clean⟩ rfl) ?_
    rintro r h3 ⟨s', m', p, j3, e1, e2, e3, e4⟩
    intro h4 ro
    have j4 := j3.outsides H ro
    obtain ⟨v, h5, e5, a5⟩ := hg' r h4 j4.inv
    refine ⟨j4.good, v, h5, e5, ?_⟩
    have j5 : In T { s' with σ := { s'.σ with cur := .null }, steps := s.steps } m' h5 := by
      refine j4.adds a5 fun irq hl => Tale.Full.see hl ?_
      rcases e4 with rfl | rfl <;> simp [Replay.see, Replay.at, e3]
    have := ihk r v _ m' h5 ⟨j5, e1, ⟨e2.immed, e2.due, .inl rfl, e2.idle⟩⟩ (by unfold Replay.user at hu ⊢; exact hu)
    exact this

end Mu.CS.Isr
