import Verif.Lemmas.SrcLocalSound
import Verif.Lemmas.SrcSpscConc
import Verif.Lemmas.SrcSched

/-! # What holds of memory whatever interrupts do -/

namespace Mu.CS.Isr

open Act Conc

/-- Where the interrupt queue is. -/
def irqPlace : Conc.Place := ⟨.glob .s_sched, 0, .glob .s_irq_store, 0, 8⟩

theorem irqPlace_ok : irqPlace.Ok :=
  ⟨rfl, rfl, ⟨3, rfl⟩, by decide, by decide, fun i _ k _ => by simp [irqPlace]⟩

/-- Another interrupt queue. -/
def Replay.at (s : Replay) (irq : List CVal) : Replay := { s with σ := { s.σ with irq := irq } }

@[simp] theorem Replay.at_at (s : Replay) (i j : List CVal) : (s.at i).at j = s.at j := rfl
@[simp] theorem Replay.at_irq (s : Replay) (i : List CVal) : (s.at i).σ.irq = i := rfl
@[simp] theorem Replay.at_self (s : Replay) : s.at s.σ.irq = s := rfl
@[simp] theorem Replay.at_steps (s : Replay) (i : List CVal) : (s.at i).steps = s.steps := rfl
@[simp] theorem Replay.at_clock (s : Replay) (i : List CVal) : (s.at i).clock = s.clock := rfl
@[simp] theorem Replay.at_callHook (s : Replay) (i : List CVal) : (s.at i).callHook = s.callHook := rfl
@[simp] theorem Replay.at_transferHook (s : Replay) (i : List CVal) : (s.at i).transferHook = s.transferHook := rfl

/-- Hooks do not change. -/
theorem Replays.hooks {prec : CVal → CVal → Bool} {off : CVal → CVal → CVal} {s s' : Replay} {l : List Seen} (r : Replays prec off s l s') :
    s'.callHook = s.callHook ∧ s'.transferHook = s.transferHook := by
  induction r with
  | nil => exact ⟨rfl, rfl⟩
  | see _ h ih =>
    rw [← ih.1, ← ih.2]
    simp only [Replay.see] at h
    revert h
    split <;> (repeat' split) <;> intro h <;> first | (cases h; done) | (obtain rfl := Option.some.inj h; exact ⟨rfl, rfl⟩)
  | look _ h ih =>
    rw [← ih.1, ← ih.2]
    simp only [Replay.look] at h
    revert h
    (repeat' split) <;> intro h <;> first | (cases h; done) | (obtain rfl := Option.some.inj h; exact ⟨rfl, rfl⟩)

/-- No slot of the interrupt queue is indeterminate. -/
def Full (h : Heap) : Prop := ∀ i : Nat, i < 8 → h.at (.glob .s_irq_store) i ≠ some .undef

theorem Full.only {S : Base → Int → Prop} {h h' : Heap} (f : Full h) (o : Heap.Only S h h') (hS : ∀ i : Nat, i < 8 → ¬ S (.glob .s_irq_store) i) :
    Full h' := by
  intro i hi
  rw [o.cell _ _ (hS i hi)]
  exact f i hi

/-- The producer may be about to write a slot. -/
def Putting (q : G) : Prop := (∃ v, q.obj.p = .pending (.put v)) ∧ q.obj.items.length < 7

/-- The same, in the middle of a call: except for the slot that is written. -/
def FullBut (q : G) (h : Heap) : Prop :=
  ∀ i : Nat, i < 8 → (Putting q → i ≠ (q.d + q.obj.items.length) % 8) → h.at (.glob .s_irq_store) i ≠ some .undef

/-- The producer's step. -/
theorem FullBut.step {q q' : G} {h h' : Heap} (f : FullBut q h) (o : Heap.Only (irqPlace.pcell q) h h') (r : Rep irqPlace q' h')
    (hd : q'.d = q.d) (hi : q'.obj = q.obj ∨ ¬ Putting q ∨
      q'.obj.items.length = q.obj.items.length + 1) : FullBut q' h' := by
  intro i hi8 hn
  by_cases e : Putting q ∧ i = (q.d + q.obj.items.length) % 8
  · obtain ⟨e0, e⟩ := e
    rcases hi with hi | hi | hi
    · refine absurd e (by rw [← hd, ← hi]; refine hn ?_; unfold Putting; rw [hi]; exact e0)
    · exact absurd e0 hi
    · have h1 : q.obj.items.length < q'.obj.items.length := by omega
      have := r.items q.obj.items.length _ (List.getElem?_eq_getElem h1)
      have e2 : h'.at (.glob .s_irq_store) i = some q'.obj.items[q.obj.items.length] := by
        rw [e, ← hd]
        simpa [irqPlace] using this.1
      rw [e2]
      exact fun x => this.2 (Option.some.inj x)
  · rw [o.cell _ _ (by
      rintro ⟨h0, ⟨h1, -⟩ | ⟨-, h2⟩⟩
      · simp [irqPlace] at h1
      · simp only [irqPlace] at h2
        exact e ⟨h0, by omega⟩)]
    exact f i hi8 fun p x => e ⟨p, x⟩

/-- A way of explaining logs: which `Replay` may explain a log, and what is asserted of a log at any moment.  It follows interrupts.
(While `mu_sched_reset` works, the interrupt queue may be `stale`: it holds anything.) -/
structure Tale (U : User) (prec : CVal → CVal → Bool) (off : CVal → CVal → CVal) (G : List Seen → Prop) where
  holds : List Seen → Replay → Prop
  stale : Bool
  isr : ∀ {l s s' t r}, holds l s → s.see prec off (.did (.fromIsr t) r) = some s' → holds (l ++ [.did (.fromIsr t) r]) s'
  sound : ∀ {l s}, holds l s → G l
  hooks : ∀ {l s}, holds l s → s.callHook = U.callHook.isSome ∧ s.transferHook = U.transferHook.isSome

/-- It follows everything but `mu_sched_reset`. -/
class Tale.Full {U : User} {prec : CVal → CVal → Bool} {off : CVal → CVal → CVal} {G : List Seen → Prop} (T : Tale U prec off G) : Prop where
  live : T.stale = false
  see' : ∀ {l s s' e}, T.holds l s → s.see prec off e = some s' → (∀ r, e ≠ .did .reset r) → T.holds (l ++ [e]) s'
  look : ∀ {l s s'}, T.holds l s → s.look = some s' → T.holds l s'

theorem Tale.Full.see {U : User} {prec : CVal → CVal → Bool} {off : CVal → CVal → CVal} {G : List Seen → Prop} {T : Tale U prec off G} [T.Full]
    {l : List Seen} {s s' : Replay} {e : Seen} (h : T.holds l s) (g : s.see prec off e = some s') (n : ∀ r, e ≠ .did .reset r := by simp) :
    T.holds (l ++ [e]) s' := see' h g n

section
variable (A : Arch) (X : AExt) {U : User} {prec : CVal → CVal → Bool} {off : CVal → CVal → CVal} {G : List Seen → Prop} (T : Tale U prec off G)

/-- Memory `h` at a moment when the log says `s`, the interrupt queue is `q`, and the scheduler's other variables are as in `m`,
except possibly those of `B`. -/
structure In0 (B : Base → Int → Prop) (s : Replay) (m : Heap) (q : Conc.G) (h : Heap) : Prop where
  log : T.holds (U.log h) s
  inv : U.inv h
  rep : Rep irqPlace q h
  items : q.obj.items = s.σ.irq
  tasks : T.stale = false → ∀ t ∈ s.σ.irq, t = .null ∨ U.task t
  full : Full h
  agree : ∀ b o, Own b o → ¬ B b o → h.at b o = m.at b o
  callHook : h.at (.glob .s_call_hook) 0 = some (hookVal U.callHook)
  transferHook : h.at (.glob .s_transfer_hook) 0 = some (hookVal U.transferHook)

/-- No exception. -/
def noCell : Base → Int → Prop := fun _ _ => False

/-- The same, whatever the interrupt queue holds. -/
def In (s : Replay) (m h : Heap) : Prop := ∃ irq q, q.var = none ∧ In0 T noCell (s.at irq) m q h

variable (U)

/-- What happens outside, any number of times. -/
inductive Outsides : Heap → Heap → Prop
  | nil (h) : Outsides h h
  | snoc {h h1 h2} : Outsides h h1 → Outside A X U h1 h2 → Outsides h h2

theorem Outsides.trans {h h1 h2 : Heap} (a : Outsides A X U h h1) (b : Outsides A X U h1 h2) : Outsides A X U h h2 := by
  induction b with
  | nil => exact a
  | snoc _ o ih => exact .snoc ih o

variable {U}

/-- Interrupts happen, and the log is right at all times. -/
def env (_ : Tale U prec off G) : Env where
  rel := Outsides A X U
  good h := G (U.log h)
  refl := .nil
  trans := Outsides.trans A X U
end

variable {A : Arch} {X : AExt} {U : User} {prec : CVal → CVal → Bool} {off : CVal → CVal → CVal}
variable {Gd : List Seen → Prop} {T : Tale U prec off Gd}

theorem Own.schedVar {b : Base} {o : Int} (h : Own b o) : SchedVar b := by
  rcases h with ⟨rfl, -⟩ | rfl | rfl <;> simp [SchedVar]

theorem irq_schedVar {b : Base} {o : Int} (h : irqPlace.cells b o) : SchedVar b := by
  rcases h with ⟨rfl, -⟩ | ⟨rfl, -⟩ <;> simp [SchedVar, irqPlace]

theorem Own.not_irq {b : Base} {o : Int} (h : Own b o) : ¬ irqPlace.cells b o := by
  rintro (⟨rfl, -, h2⟩ | ⟨rfl, -⟩)
  · rcases h with ⟨-, h⟩ | h | h
    · simp only [irqPlace] at h2; omega
    · simp [irqPlace] at h
    · simp [irqPlace] at h
  · simp [Own, irqPlace] at h

/-- The queue is untouched by changes elsewhere. -/
theorem rep_frame {S : Base → Int → Prop} {q : G} {h h' : Heap} (r : Rep irqPlace q h) (o : Heap.Only S h h')
    (hS : ∀ b o, irqPlace.cells b o → ¬ S b o) (hv : ∀ eb eo, q.var = some (eb, eo) → ¬ S eb eo) : Rep irqPlace q h' := by
  have hc : ∀ k : Int, 0 ≤ k → k < 4 → ¬ S irqPlace.b (irqPlace.o + k) := fun k h0 h4 =>
    hS _ _ (.inl ⟨rfl, by simp only [irqPlace]; omega, by simp only [irqPlace]; omega⟩)
  have hs : ∀ i : Nat, i < irqPlace.N → ¬ S irqPlace.sb (irqPlace.so + i) := fun i hi => hS _ _ (.inr ⟨rfl, by omega, by omega⟩)
  have hN : 0 < irqPlace.N := irqPlace_ok.pos
  refine ⟨?_, ?_, ?_, ?_, r.len, ?_, ?_, ?_, ?_⟩
  · have := hc 0 (by omega) (by omega)
    rw [Int.add_zero] at this
    rw [o.cell _ _ this]; exact r.mask
  · rw [o.cell _ _ (hc 1 (by omega) (by omega))]; exact r.head
  · rw [o.cell _ _ (hc 2 (by omega) (by omega))]; exact r.tail
  · rw [o.cell _ _ (hc 3 (by omega) (by omega))]; exact r.store
  · intro i v hi
    rw [o.cell _ _ (hs _ (Nat.mod_lt _ hN))]; exact r.items i v hi
  · rw [o.cell _ _ (hs _ (Nat.mod_lt _ hN))]; exact r.nx
  · intro i hi
    rw [o.cell _ _ (hs i hi)]; exact r.slots i hi
  · intro eb eo he
    rw [o.cell _ _ (hv eb eo he)]; exact r.var eb eo he

/-- The variable that a call of `mu_spsc_get` is about to set is the scheduler's. -/
def VarOk (q : G) : Prop := ∀ eb eo, q.var = some (eb, eo) → SchedVar eb

/-- User code changes its memory and adds to the log. -/
theorem In0.adds {B : Base → Int → Prop} {s s' : Replay} {m h h' : Heap} {q : G} {es : List Seen} (i : In0 T B s m q h)
    (hv : VarOk q) (a : U.Adds es h h') (hs : T.holds (U.log h ++ es) s') (hq : s'.σ.irq = s.σ.irq) :
    In0 T B s' m q h' := by
  have nf : ∀ b, Free b → ¬ SchedVar b := fun b h => h.1
  refine ⟨by rw [a.log]; exact hs, a.inv, rep_frame i.rep a.only (fun b o hb hf => nf b hf (irq_schedVar hb)) (fun eb eo he hf => nf _ hf (hv eb eo he)),
    by rw [hq]; exact i.items, by rw [hq]; exact i.tasks,
    i.full.only a.only (fun i _ hf => nf _ hf (by simp [SchedVar])), fun b o ho hb => ?_, ?_, ?_⟩
  · rw [a.only.cell _ _ (fun hf => nf b hf ho.schedVar)]; exact i.agree b o ho hb
  · rw [a.only.cell _ _ (fun hf => hf.2.1 rfl)]; exact i.callHook
  · rw [a.only.cell _ _ (fun hf => hf.2.2 rfl)]; exact i.transferHook

/-- The scheduler's own code. -/
theorem In0.only {B : Base → Int → Prop} {s : Replay} {m m' h h' : Heap} {q : G} (H : Honest A X U prec off) (i : In0 T B s m q h)
    (o : Heap.Only Own h h') (hv : q.var = none) (a : ∀ b o, Own b o → ¬ B b o → h'.at b o = m'.at b o) : In0 T B s m' q h' := by
  obtain ⟨h1, h2⟩ := H.frame h h' (o.mono fun b o ho => ho.schedVar) i.inv
  refine ⟨by rw [h2]; exact i.log, h1, rep_frame i.rep o (fun b o hb ho => ho.not_irq hb) (fun eb eo he => by rw [hv] at he; cases he),
    i.items, i.tasks, i.full.only o (fun i _ => by simp [Own]), a, ?_, ?_⟩
  · rw [o.cell _ _ (by simp [Own])]; exact i.callHook
  · rw [o.cell _ _ (by simp [Own])]; exact i.transferHook

/-! ## An interrupt -/

/-- From knowledge in the calculus of rely and guarantee to outcomes without interference. -/
theorem wp_out {S : Type} {R : RG S} {α : Type} {t : Act α} {K : S → Prop} {Q : α → (S → Prop) → Prop} {P : S → Heap → Prop}
    (hP : ∀ σ σ' h h', P σ h → R.guar σ σ' → R.rep σ' h' → Heap.Only (R.cells σ) h h' → P σ' h')
    (w : t.wp R K Q) {σ : S} {h h' : Heap} {v : α} (hk : K σ) (hr : R.rep σ h) (p : P σ h) (o : t.Out h (.ok (v, h'))) :
    ∃ σ' K', R.rep σ' h' ∧ K' σ' ∧ Q v K' ∧ P σ' h' := by
  induction t generalizing K σ h with
  | done a => cases o; exact ⟨σ, K, hr, hk, w, p⟩
  | fail e => exact absurd w id
  | mem f k ih =>
    obtain ⟨u, h1, σ1, K1, e1, e2, e3, e4, e5, e6, e7⟩ := w σ h hk hr
    cases o with
    | mem e o =>
      rw [e1] at e
      obtain ⟨rfl, rfl⟩ := Prod.mk.inj (Except.ok.inj e)
      exact ih _ e7 e5 e3 (hP _ _ _ _ p e2 e3 e6.1) o
  | pick k ih =>
    cases o with
    | pick b o => exact ih b (w b) hk hr p o

theorem relyC_trans {a b c : G} (x : relyC a b) (y : relyC b c) : relyC a c :=
  ⟨y.1.trans x.1, x.2.1.trans y.2.1, y.2.2.1.trans x.2.2.1, y.2.2.2.1.trans x.2.2.2.1, y.2.2.2.2.trans x.2.2.2.2⟩

/-- Error codes are compared as numbers. -/
theorem cmp_enum (A : Arch) {i j : Nat} (hi : i < 32768) (hj : j < 32768) :
    op A (.cmp .eq (ITy.enum.common .int)) (.int i) (.int j) = .done (.ofBool (decide (i = j))) := by
  simp only [op, Op.run, conv_enum A hi, conv_enum A hj, COp.run, lift_ok, Int.natCast_inj]

/-- `mu_sched_from_isr`, at one level of calls. -/
theorem from_isr_wp {t : CVal} (ht : t ≠ .undef) (n : Nat) :
    (semA A X prog (n + 2) .mu_sched_from_isr [t]).wp (rgP irqPlace) (fun σ => σ.obj.p = .pending (.put t))
      fun r K => ∀ σ, K σ → ∃ x, σ.obj.p = .done ⟨x, none⟩ ∧ r = if x = .int 2 then .int 1 else .int 0 := by
  have e : semA A X prog (n + 2) .mu_sched_from_isr [t] =
    Src.mu_sched_from_isr.act A ⟨semA A X prog (n + 1), X.cb (semA A X prog (n + 1))⟩ (n + 1) [t] := rfl
  have w := put_wp' (A := A) (Y := X) irqPlace_ok ht n
  rw [e]
  have E : Src.mu_sched_from_isr.act A ⟨semA A X prog (n + 1), X.cb (semA A X prog (n + 1))⟩ (n + 1) [t] =
    (execA A ⟨semA A X prog (n + 1), X.cb (semA A X prog (n + 1))⟩ (n + 1) Src.mu_sched_from_isr.body [t]).bind fun x => .done x.1.result := rfl
  rw [E]
  generalize hK : (⟨semA A X prog (n + 1), X.cb (semA A X prog (n + 1))⟩ : ACalls) = K
  have hf : K.fn = semA A X prog (n + 1) := by rw [← hK]
  simp only [irqPlace] at w
  have use : lift t.use = .done t := by cases t <;> first | rfl | exact absurd rfl ht
  simp only [CVal.use] at use
  have key : (semA A X prog (n + 1) .mu_spsc_put [.ptr (.glob .s_sched) 0, t]).wp (rgP irqPlace) (fun σ => σ.obj.p = .pending (.put t))
      fun a K' => (op A (.cmp .eq (ITy.enum.common .int)) a (.int 2)).wp (rgP irqPlace) K' fun a K' =>
        (lift a.truth).wp (rgP irqPlace) K' fun a K' =>
          (if a = true then (done (CVal.int 1, [t])).bind fun x => done (Flow.ret x.1, x.2)
            else (done (CVal.int 0, [t])).bind fun x => done (Flow.ret x.1, x.2)).wp (rgP irqPlace) K' fun a K' =>
              ∀ σ : G, K' σ → ∃ x, σ.obj.p = .done ⟨x, none⟩ ∧ a.1.result = if x = .int 2 then .int 1 else .int 0 := by
    refine wp_mono w fun r K h => ?_
    have c1 := cmp_enum A (i := 0) (j := 2) (by decide) (by decide)
    have c2 := cmp_enum A (i := 2) (j := 2) (by decide) (by decide)
    simp only [Nat.cast_ofNat, Nat.cast_zero] at c1 c2
    rcases h.1 with rfl | rfl
    · rw [c1]
      exact fun σ hσ => ⟨_, h.2 σ hσ, rfl⟩
    · rw [c2]
      exact fun σ hσ => ⟨_, h.2 σ hσ, rfl⟩
  simpa [Src.mu_sched_from_isr, execA, evalCondA, evalA, evalArgsA, bind_eq, wp_bind_iff, wp_done, wp_both, Locals.get, CVal.use, lift_ok, hf, use] using key

/-- What the interrupt does to the queue. -/
theorem from_isr_out {t r : CVal} {n : Nat} {h h1 : Heap} {q : G} (ht : t ≠ .undef) (hr : Rep irqPlace q h) (hf : Full h)
    (o : (semA A X prog n .mu_sched_from_isr [t]).Out h (.ok (r, h1))) :
    ∃ q', Rep irqPlace q' h1 ∧ relyC q q' ∧ Full h1 ∧ Heap.Only irqPlace.cells h h1 ∧
      ((q.obj.items.length < 7 ∧ r = .int 0 ∧ q'.obj.items = q.obj.items ++ [t]) ∨
        (¬ q.obj.items.length < 7 ∧ r = .int 1 ∧ q'.obj.items = q.obj.items)) := by
  match n, o with
  | 0, o => cases o
  | 1, o =>
    exfalso
    have e : semA A X prog 1 .mu_sched_from_isr [t] =
      (execA A ⟨semA A X prog 0, X.cb (semA A X prog 0)⟩ 0 Src.mu_sched_from_isr.body [t]).bind fun x => .done x.1.result := rfl
    have use : lift t.use = .done t := by cases t <;> first | rfl | exact absurd rfl ht
    simp only [CVal.use] at use
    have hz : ∀ f args, semA A X prog 0 f args = .fail .diverge := fun _ _ => rfl
    rw [e] at o
    simp [Src.mu_sched_from_isr, execA, evalCondA, evalA, evalArgsA, bind_eq, Act.bind, Act.both, Locals.get, CVal.use, lift_ok, hz, use] at o
    have np : ∀ {α : Type} {k : Bool → Act α} {h : Heap} {x}, (Act.pick k).Out h (.ok x) → ∃ b, (k b).Out h (.ok x) := by
      intro α k h x o
      cases o with | pick b o => exact ⟨b, o⟩
    have nf : ∀ {α : Type} {e : Fault} {h : Heap} {x}, ¬ (Act.fail e : Act α).Out h (.ok x) := by
      intro α e h x o
      cases o
    obtain ⟨b, o⟩ := np o
    cases b
    all_goals
      obtain ⟨b, o⟩ := np o
      cases b
    all_goals
      obtain ⟨b, o⟩ := np o
      cases b
    all_goals exact nf o
  | n + 2, o =>
    let q0 : G := { q with obj := { q.obj with p := .pending (.put t) } }
    have hr0 : Rep irqPlace q0 h := ⟨hr.mask, hr.head, hr.tail, hr.store, hr.len, hr.items, hr.nx, hr.slots, hr.var⟩
    obtain ⟨q', K', e1, e2, e3, e4, e45, e5, e6⟩ := wp_out (P := fun σ h1 => relyC q0 σ ∧ FullBut σ h1 ∧ Heap.Only irqPlace.cells h h1 ∧
        ((σ.obj.p = .pending (.put t) ∧ σ.obj.items = q.obj.items) ∨
          (σ.obj.p = .done (SCall.spec 8 q.obj.items (.put t)).1 ∧ σ.obj.items = (SCall.spec 8 q.obj.items (.put t)).2)))
      (fun σ σ' a b p g r' o => by
        obtain ⟨p1, pf, p2, p3⟩ := p
        have g : Eff 8 .producer σ.obj σ'.obj ∧ relyC σ σ' := g
        refine ⟨relyC_trans p1 g.2, FullBut.step pf o r' g.2.1 ?_, p2.trans (Heap.Only.mono (S := irqPlace.pcell σ) o fun _ _ hc =>
          Place.pcells_sub (Place.pcell_sub irqPlace_ok hc)), ?_⟩
        · rcases g.1 with e | ⟨c, e, e'⟩
          · exact .inl e
          · rcases p3 with ⟨p3, -⟩ | ⟨p3, -⟩
            · have e : σ.obj.p = .pending c := e
              rw [p3] at e
              obtain rfl : SCall.put t = c := by injection e
              by_cases hl : σ.obj.items.length < 7
              · exact .inr (.inr (by rw [e']; simp [SCall.spec, hl]))
              · exact .inr (.inl fun x => hl x.2)
            · have e : σ.obj.p = .pending c := e
              rw [p3] at e
              cases e
        rcases g.1 with e | ⟨c, e, e'⟩
        · rw [e]; exact p3
        · rcases p3 with ⟨p3, p4⟩ | ⟨p3, p4⟩
          · have e : σ.obj.p = .pending c := e
            rw [p3] at e
            obtain rfl : SCall.put t = c := by injection e
            right
            rw [e', p4]
            exact ⟨rfl, rfl⟩
          · have e : σ.obj.p = .pending c := e
            rw [p3] at e
            cases e)
      (from_isr_wp ht n) (σ := q0) rfl hr0 ⟨relyC_refl _, fun i hi _ => hf i hi, Heap.Only.refl _ _, .inl ⟨rfl, rfl⟩⟩ o
    obtain ⟨x, x1, x2⟩ := e3 q' e2
    refine ⟨q', e1, e4, fun i hi => e45 i hi fun hp => ?_, e5, ?_⟩
    · obtain ⟨⟨v, hp⟩, -⟩ := hp
      rw [x1] at hp
      cases hp
    rcases e6 with ⟨y1, -⟩ | ⟨y1, y2⟩
    · rw [x1] at y1; cases y1
    · rw [x1] at y1
      injection y1 with y1
      by_cases hl : q.obj.items.length < 7
      · simp only [SCall.spec, show 8 - 1 = 7 from rfl, hl, if_true] at y1 y2
        injection y1 with y1
        subst y1
        exact .inl ⟨hl, x2, y2⟩
      · simp only [SCall.spec, show 8 - 1 = 7 from rfl, hl, if_false] at y1 y2
        injection y1 with y1
        subst y1
        exact .inr ⟨hl, x2, y2⟩

theorem task_ne_undef {t : CVal} {h : Heap} (H : Honest A X U prec off) (hi : U.inv h) (ht : t = .null ∨ U.task t) : t ≠ .undef := by
  rcases ht with rfl | ht
  · simp
  · obtain ⟨b, o, f, rfl, -⟩ := H.valid h t hi ht
    simp

/-- What happens outside changes the interrupt queue, and that only as the consumer can rely on. -/
theorem In0.outside {B : Base → Int → Prop} {s : Replay} {m h h' : Heap} {q : G} (H : Honest A X U prec off)
    (i : In0 T B s m q h) (hv : VarOk q) (o : Outside A X U h h') :
    ∃ irq q', In0 T B (s.at irq) m q' h' ∧ relyC q q' := by
  cases o with
  | own a => exact ⟨s.σ.irq, q, i.adds hv a (by simpa using i.log) rfl, relyC_refl q⟩
  | @isr h1 _ t r n ht o a =>
    obtain ⟨q', e1, e2, ef, e3, e4⟩ := from_isr_out (task_ne_undef H i.inv ht) i.rep i.full o
    obtain ⟨f1, f2⟩ := H.frame h h1 (e3.mono fun b o hb => irq_schedVar hb) i.inv
    have hlog := i.log
    rw [← f2] at hlog
    have hv' : VarOk q' := fun eb eo he => hv eb eo (by rw [← e2.2.2.2.1]; exact he)
    have hi := i.items
    -- in the middle
    let s1 := s.at q'.obj.items
    have j : ∀ l, T.holds l s1 → U.log h1 = l → (T.stale = false → ∀ t ∈ q'.obj.items, t = .null ∨ U.task t) → In0 T B s1 m q' h1 := by
      intro l hl e ht
      refine ⟨e ▸ hl, f1, e1, rfl, ht, ef, fun b o ho hb => ?_, ?_, ?_⟩
      · rw [e3.cell _ _ ho.not_irq]; exact i.agree b o ho hb
      · rw [e3.cell _ _ (by simp [irqPlace, Conc.Place.cells, spscCells])]; exact i.callHook
      · rw [e3.cell _ _ (by simp [irqPlace, Conc.Place.cells, spscCells])]; exact i.transferHook
    have see : s.see prec off (.did (.fromIsr t) r) = some s1 := by
      rcases e4 with ⟨g1, rfl, g3⟩ | ⟨g1, rfl, g3⟩
      · rw [hi] at g1 g3
        simp [Replay.see, Replay.fits, Replay.after, Req.isr, Req.answer, Agenda.interrupt, g1, g3, SErr.val, s1, Replay.at]
      · rw [hi] at g1 g3
        simp [Replay.see, Replay.fits, Replay.after, Req.isr, Req.answer, Agenda.interrupt, g1, g3, SErr.val, s1, Replay.at]
    have tk : T.stale = false → ∀ u ∈ q'.obj.items, u = .null ∨ U.task u := by
      intro hst
      rcases e4 with ⟨-, -, g⟩ | ⟨-, -, g⟩ <;> rw [g, hi]
      · intro u hu
        rcases List.mem_append.1 hu with hu | hu
        · exact i.tasks hst u hu
        · rw [List.mem_singleton.1 hu]; exact ht
      · exact i.tasks hst
    refine ⟨q'.obj.items, q', ?_, e2⟩
    have nf : ∀ b, Free b → ¬ SchedVar b := fun b h => h.1
    refine ⟨by rw [a.log]; exact T.isr hlog see, a.inv, rep_frame e1 a.only (fun b o hb hf => nf b hf (irq_schedVar hb))
      (fun eb eo he hf => nf _ hf (hv' eb eo he)), rfl, tk, ef.only a.only (fun i _ hf => nf _ hf (by simp [SchedVar])), fun b o ho hb => ?_, ?_, ?_⟩
    · rw [a.only.cell _ _ (fun hf => nf b hf ho.schedVar), e3.cell _ _ ho.not_irq]; exact i.agree b o ho hb
    · rw [a.only.cell _ _ (fun hf => hf.2.1 rfl), e3.cell _ _ (by simp [irqPlace, Conc.Place.cells, spscCells])]; exact i.callHook
    · rw [a.only.cell _ _ (fun hf => hf.2.2 rfl), e3.cell _ _ (by simp [irqPlace, Conc.Place.cells, spscCells])]; exact i.transferHook

theorem In0.outsides {B : Base → Int → Prop} {s : Replay} {m h h' : Heap} {q : G} (H : Honest A X U prec off)
    (i : In0 T B s m q h) (hv : VarOk q) (o : Outsides A X U h h') :
    ∃ irq q', In0 T B (s.at irq) m q' h' ∧ relyC q q' := by
  induction o with
  | nil => exact ⟨s.σ.irq, q, i, relyC_refl q⟩
  | snoc _ o ih =>
    obtain ⟨irq, q', j, r⟩ := ih
    obtain ⟨irq2, q2, j2, r2⟩ := j.outside H (fun eb eo he => hv eb eo (by rw [← r.2.2.2.1]; exact he)) o
    exact ⟨irq2, q2, j2, relyC_trans r r2⟩

/-! ## Code that keeps away from the interrupt queue is not disturbed -/

theorem varOk_none {q : G} (h : q.var = none) : VarOk q := fun eb eo he => by rw [h] at he; cases he

theorem In.outsides {s : Replay} {m h h' : Heap} (H : Honest A X U prec off) (i : In T s m h) (o : Outsides A X U h h') :
    In T s m h' := by
  obtain ⟨irq, q, hv, i⟩ := i
  obtain ⟨irq2, q2, j, r⟩ := i.outsides H (varOk_none hv) o
  exact ⟨irq2, q2, r.2.2.2.1.trans hv, j⟩

theorem In.good {s : Replay} {m h : Heap} (i : In T s m h) : (env A X T).good h := by
  obtain ⟨irq, q, -, i⟩ := i
  exact T.sound i.log

theorem In.agree {s : Replay} {m h : Heap} (i : In T s m h) : Agree m h := by
  obtain ⟨irq, q, -, i⟩ := i
  exact fun b o ho => i.agree b o ho id

theorem In.inv {s : Replay} {m h : Heap} (i : In T s m h) : U.inv h := by
  obtain ⟨irq, q, -, i⟩ := i
  exact i.inv

theorem In.only {s : Replay} {m m' h h' : Heap} (H : Honest A X U prec off) (i : In T s m h) (o : Heap.Only Own h h')
    (a : Agree m' h') : In T s m' h' := by
  obtain ⟨irq, q, hv, i⟩ := i
  exact ⟨irq, q, hv, i.only H o hv fun b o ho _ => a b o ho⟩

/-- User code changes its memory and adds to the log. -/
theorem In.adds {s s' : Replay} {m h h' : Heap} {es : List Seen} (i : In T s m h) (a : U.Adds es h h')
    (hs : ∀ irq, T.holds (U.log h) (s.at irq) → T.holds (U.log h ++ es) (s'.at irq)) :
    In T s' m h' := by
  obtain ⟨irq, q, hv, i⟩ := i
  exact ⟨irq, q, hv, i.adds (varOk_none hv) a (hs _ i.log) rfl⟩

theorem In.load {s : Replay} {m h : Heap} (i : In T s m h) {b : Base} {o : Int} (ho : Own b o) : h.at b o = m.at b o := i.agree b o ho

/-- What passes the check does, whatever interrupts do, what it would do without them. -/
theorem frozen {α : Type} {Q : α → Prop} {a a' : Act α} (H : Honest A X U prec off) (x : Off Q a a') {s : Replay} {m h : Heap}
    (tm : Typed m) (i : In T s m h) (hf : ∀ e, ¬ a'.Out m (.error e)) :
    a.safe (env A X T) h fun v h' => Q v ∧ ∃ m', a'.Out m (.ok (v, m')) ∧ In T s m' h' := by
  induction x generalizing m h with
  | more => exact ⟨rfl, fun h1 r => (i.outsides H r).good⟩
  | done q => exact fun h1 r => ⟨(i.outsides H r).good, q, m, .done, i.outsides H r⟩
  | fail => exact absurd .fail (hf _)
  | mem l _ ih =>
    intro h1 r
    have j := i.outsides H r
    refine ⟨j.good, ?_⟩
    rename_i f f' k k' P _
    cases e : f' m with
    | error e' => exact absurd (.fault e) (hf e')
    | ok y =>
      obtain ⟨v, m1⟩ := y
      obtain ⟨p, tm1, h2, e1, ag, on⟩ := l m h1 v m1 tm j.agree e
      refine ⟨v, h2, e1, ?_⟩
      refine safe_mono (ih v p tm1 (j.only H on ag) fun e' o => hf e' (.mem e o)) ?_
      rintro u h3 ⟨q, m', o, i'⟩
      exact ⟨q, m', .mem e o, i'⟩
  | pick _ ih =>
    intro b
    refine safe_mono (ih b tm i fun e o => hf e (.pick b o)) ?_
    rintro u h3 ⟨q, m', o, i'⟩
    exact ⟨q, m', .pick b o, i'⟩

/-- Such code may read the clock, once: `a' now` is what it does if the reading is `now`. -/
inductive OffC (X : AExt) {α : Type} (Q : α → Prop) : Act α → (CVal → Act α) → Prop
  | more {b} : OffC X Q (.fail .diverge) b
  | pick {k : Bool → Act α} {k' : CVal → Bool → Act α} : (∀ b, OffC X Q (k b) (fun now => k' now b)) → OffC X Q (.pick k) (fun now => .pick (k' now))
  | clock {k : CVal → Act α} {k' : CVal → CVal → Act α} : (∀ now, Off Q (k now) (k' now now)) →
      OffC X Q (.mem (fun h => X.fn .mu_time_now h []) k) (fun now => .mem (fun h => .ok (now, h)) (k' now))

theorem OffC.bind {α β : Type} {Q : α → Prop} {Q' : β → Prop} {a : Act α} {a' : CVal → Act α} {k : α → Act β} {k' : CVal → α → Act β}
    (x : OffC X Q a a') (hk : ∀ now v, Q v → Off Q' (k v) (k' now v)) : OffC X Q' (a.bind k) (fun now => (a' now).bind (k' now)) := by
  induction x with
  | more => exact .more
  | pick _ ih => exact .pick ih
  | clock h => exact .clock fun now => Off.bind (h now) fun v hv => hk now v hv

/-- It does what it would do without interrupts; the reading of the clock is in the log. -/
theorem frozenC {α : Type} {Q : α → Prop} {a : Act α} {a' : CVal → Act α} (H : Honest A X U prec off) (x : OffC X Q a a') {s : Replay}
    {s' : CVal → Replay} {m h : Heap} (tm : Typed m) (i : In T s m h)
    (hs : ∀ now irq l, T.holds l (s.at irq) → T.holds (l ++ [.clock now]) ((s' now).at irq))
    (hf : ∀ now, now ≠ .undef → ∀ e, ¬ (a' now).Out m (.error e)) :
    a.safe (env A X T) h fun v h' => Q v ∧ ∃ now m', now ≠ .undef ∧ (a' now).Out m (.ok (v, m')) ∧ In T (s' now) m' h' := by
  induction x with
  | more => exact ⟨rfl, fun h1 r => (i.outsides H r).good⟩
  | pick _ ih =>
    intro b
    refine safe_mono (ih b fun now hn e o => hf now hn e (.pick b o)) ?_
    rintro u h3 ⟨q, now, m', hn, o, i'⟩
    exact ⟨q, now, m', hn, .pick b o, i'⟩
  | clock k1 =>
    intro h1 r
    have j := i.outsides H r
    refine ⟨j.good, ?_⟩
    obtain ⟨now, h2, e1, e2, e3⟩ := H.reads h1 j.inv
    refine ⟨now, h2, e1, ?_⟩
    have j2 : In T (s' now) m h2 := j.adds e3 fun irq hl => hs now irq _ hl
    refine safe_mono (frozen H (k1 now) tm j2 fun e o => hf now e2 e (.mem rfl o)) ?_
    rintro u h3 ⟨q, m', o, i'⟩
    exact ⟨q, now, m', e2, .mem rfl o, i'⟩

/-! ## The sequential programs that are compared with -/

/-- The platform: the clock reads `now`; nothing else can be called. -/
def still (prec : CVal → CVal → Bool) (off : CVal → CVal → CVal) (now : CVal) : Fn → SemFn
  | .mu_time_precedes, h, [a, b] => if a ≠ .undef ∧ b ≠ .undef then .ok (.ofBool (prec a b), h) else .error .uninit
  | .mu_time_offset, h, [a, d] => if a ≠ .undef ∧ d ≠ .undef then .ok (off a d, h) else .error .uninit
  | .mu_time_now, h, [] => .ok (now, h)
  | _, _, _ => .error .ptr

/-- The same, access by access. -/
def stillA (prec : CVal → CVal → Bool) (off : CVal → CVal → CVal) (now : CVal) : AExt := ⟨still prec off now, fun _ _ _ => .fail .ptr⟩
/-- The same, at once. -/
def stillX (prec : CVal → CVal → Bool) (off : CVal → CVal → CVal) (now : CVal) : Ext := ⟨still prec off now, fun _ _ _ _ => .error .ptr⟩

theorem still_runs (now : CVal) : (stillA prec off now).Runs (stillX prec off now) := ⟨rfl, fun _ _ _ _ _ _ => rfl⟩
theorem still_confluent (now : CVal) : (stillA prec off now).Confluent := fun _ _ _ _ => (firm_fail _).confluent

theorem still_clock (H : Honest A X U prec off) {now : CVal} (hn : now ≠ .undef) : Clock (stillX prec off now) prec off :=
  ⟨fun h a b ha hb => if_pos ⟨ha, hb⟩, fun h a d ha hd => if_pos ⟨ha, hd⟩, H.offsetDef, fun h => ⟨now, h, rfl, hn, Heap.Only.refl _ _⟩⟩

theorem still_typed (H : Honest A X U prec off) (now : CVal) : TypedX false X (stillA prec off now) := by
  refine ⟨fun args => ?_, fun args => ?_, fun h => by cases h⟩
  · intro m h v m1 tm ag e
    match args, e with
    | [a, b], e =>
      simp only [stillA, still] at e
      split at e
      · rename_i hab
        obtain ⟨rfl, rfl⟩ := Prod.mk.inj (Except.ok.inj e)
        exact ⟨trivial, tm, h, H.precedes h a b hab.1 hab.2, ag, Heap.Only.refl _ _⟩
      · cases e
    | [], e => cases e
    | [_], e => cases e
    | _ :: _ :: _ :: _, e => cases e
  · intro m h v m1 tm ag e
    match args, e with
    | [a, b], e =>
      simp only [stillA, still] at e
      split at e
      · rename_i hab
        obtain ⟨rfl, rfl⟩ := Prod.mk.inj (Except.ok.inj e)
        exact ⟨trivial, tm, h, H.offset h a b hab.1 hab.2, ag, Heap.Only.refl _ _⟩
      · cases e
    | [], e => cases e
    | [_], e => cases e
    | _ :: _ :: _ :: _, e => cases e

/-- A call that passes the check and that does, without interrupts, `m'` to `m`. -/
theorem frozen_call (H : Honest A X U prec off) {s : Replay} {m m' h : Heap} {n d N : Nat} {f : Fn} {args : List CVal} {ts : List Ty} {t : Ty}
    {r : CVal} (tm : Typed m) (i : In T s m h) (ht : tyFn false d f ts = some t) (hv : Vals ts args) (hn : n ≤ N)
    (e : sem A (stillX prec off .null) prog N f m args = .ok (r, m')) :
    (semA A X prog n f args).safe (env A X T) h fun v h' => v = r ∧ In T s m' h' := by
  have x := off_semA (A := A) (still_typed H .null) (d := d) hn f ts t args ht hv
  have fm := firm_semA (A := A) (still_runs (prec := prec) (off := off) .null) (still_confluent .null) N f args
  have run : (semA A (stillA prec off .null) prog N f args).run m = .ok (r, m') := by rw [semA_run (still_runs .null)]; exact e
  refine safe_mono (frozen H x tm i fun e' o => ?_) ?_
  · have := (fm m _ o (r, m')).2 run
    cases this
  · rintro v h' ⟨-, m1, o, j⟩
    have := (fm m _ o (v, m1)).1 rfl
    rw [run] at this
    obtain ⟨rfl, rfl⟩ := Prod.mk.inj (Except.ok.inj this)
    exact ⟨rfl, j⟩

end Mu.CS.Isr
