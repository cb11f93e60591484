import Verif.Spec.SrcIsr
import Verif.Lemmas.SrcSafe

/-! # Code that keeps away from the interrupt queue

A check of the syntax - what can each pointer point to? - and its soundness: what passes accesses nothing but the variables of
the scheduler that an interrupt does not touch. -/

namespace Mu.CS.Isr

open Act

/-- The variables of the scheduler, without the interrupt queue. -/
def Own (b : Base) (o : Int) : Prop :=
  (b = .glob .s_sched ∧ 4 ≤ o) ∨ b = .glob .s_immed_store ∨ b = .glob .s_deferred_tasks

/-- Two memories agree on them. -/
def Agree (m h : Heap) : Prop := ∀ b o, Own b o → h.at b o = m.at b o

/-- What is known of a value: nothing; it is the address of cell `k` of `s_sched`; it points into the store of the immediate queue,
or into the array of deferred tasks, or is NULL; it is NULL. -/
inductive Ty where
  | any
  | sched (k : Nat)
  | immed
  | defer
  | nil
  deriving DecidableEq

/-- The value is as its type says, or indeterminate. -/
def Ty.Val : Ty → CVal → Prop
  | .any, _ => True
  | .sched k, v => v = .undef ∨ v = .ptr (.glob .s_sched) k
  | .immed, v => v = .undef ∨ v = .null ∨ ∃ o, v = .ptr (.glob .s_immed_store) o
  | .defer, v => v = .undef ∨ v = .null ∨ ∃ o, v = .ptr (.glob .s_deferred_tasks) o
  | .nil, v => v = .undef ∨ v = .null

theorem Ty.val_undef (t : Ty) : t.Val .undef := by cases t <;> simp [Val]

/-- Less is known of the second. -/
def Ty.le : Ty → Ty → Bool
  | _, .any => true
  | .nil, .immed | .nil, .defer => true
  | t, u => t = u

theorem Ty.le_val {t u : Ty} (h : t.le u = true) {v : CVal} (x : t.Val v) : u.Val v := by
  cases u <;> cases t <;> simp_all [le, Val]
  all_goals rcases x with x | x <;> simp [x]

/-- An address that may be read. -/
def Ty.read : Ty → Option Ty
  | .sched k => if k = 4 then some .immed else if 4 < k then some .any else none
  | .immed | .defer => some .any
  | _ => none

/-- An address that may be written. -/
def Ty.write : Ty → Bool
  | .sched k => decide (4 < k)
  | .immed | .defer => true
  | _ => false

/-- A pointer into an array. -/
def Ty.array : Ty → Bool
  | .immed | .defer => true
  | _ => false

/-- The address of a member. -/
def Ty.fld (k : Nat) : Ty → Option Ty
  | .sched j => some (.sched (j + k))
  | .immed => some .immed
  | .defer => some .defer
  | _ => none

mutual
/-- The check of an expression; `F` gives the types of functions, `Γ` those of locals. -/
def ty (F : Fn → List Ty → Option Ty) (Γ : List Ty) : Expr → Option Ty
  | .num _ | .intMax | .sizeMax | .str _ => some .any
  | .null => some .nil
  | .glob g => some (match g with
    | .s_sched => .sched 0
    | .s_immed_store => .immed
    | .s_deferred_tasks => .defer
    | _ => .any)
  | .var i => Γ[i]?
  | .load p => (ty F Γ p).bind Ty.read
  | .setv i e => (ty F Γ e).bind fun t => Γ[i]?.bind fun u => if t.le u then some t else none
  | .store p e => (ty F Γ p).bind fun t => (ty F Γ e).bind fun u => if t.write then some u else none
  | .updv i op _ _ e => (ty F Γ e).bind fun _ => if Γ[i]? = some .any && !op.looks then some .any else none
  | .upd p op _ _ e => (ty F Γ p).bind fun t => (ty F Γ e).bind fun _ =>
      if t.write && t.read.isSome && !op.looks then some .any else none
  | .bin op a b => (ty F Γ a).bind fun t => (ty F Γ b).bind fun _ => match op with
    | .padd _ => if t.array then some t else none
    | .psub _ => none
    | _ => some .any
  | .neg _ e | .lnot e | .cast _ e | .tobool e | .dtoi _ e | .itod e => (ty F Γ e).bind fun _ => some .any
  | .land a b | .lor a b => (ty F Γ a).bind fun _ => (ty F Γ b).bind fun _ => some .any
  | .cond a b c => (ty F Γ a).bind fun _ => (ty F Γ b).bind fun _ => (ty F Γ c).bind fun _ => some .any
  | .fld p k => (ty F Γ p).bind (Ty.fld k)
  | .call f as => (tys F Γ as).bind (F f)
  | .callp _ _ => none
/-- The check of arguments. -/
def tys (F : Fn → List Ty → Option Ty) (Γ : List Ty) : List Expr → Option (List Ty)
  | [] => some []
  | e :: es => (ty F Γ e).bind fun t => (tys F Γ es).bind fun ts => some (t :: ts)
end

/-- The check of a statement; `R` is the type of what is returned. -/
def tyS (F : Fn → List Ty → Option Ty) (Γ : List Ty) (R : Ty) : Stmt → Bool
  | .skip | .undef _ | .brk | .retVoid => true
  | .expr e => (ty F Γ e).isSome
  | .seq a b => tyS F Γ R a && tyS F Γ R b
  | .ite c a b => (ty F Γ c).isSome && tyS F Γ R a && tyS F Γ R b
  | .loop c step body => (ty F Γ c).isSome && (match step with | none => true | some e => (ty F Γ e).isSome) && tyS F Γ R body
  | .ret e => match ty F Γ e with
    | some t => t.le R
    | none => false

/-- The locals of a function that are not parameters, and its result. -/
def table : Fn → List Ty × Ty
  | .next_deferred_task__sched => ([.defer], .defer)
  | .mu_sched_next_task => ([.defer], .any)
  | .fetch_runnable_deferred_task__sched => ([.defer, .any], .any)
  | .defer_aux__sched => ([.defer, .any, .any, .defer, .defer], .any)
  | .mu_sched_remove_deferred_task => ([.any, .any, .defer, .any, .defer], .any)
  | _ => ([.any, .any, .any, .any], .any)

/-- The check of a function, to `n` levels of calls; `clk`: it may read the clock. -/
def tyFn (clk : Bool) : Nat → Fn → List Ty → Option Ty
  | 0, _, _ => none
  | n + 1, f, ts =>
    match prog f with
    | some d =>
      if d.mems.isEmpty && d.va.isNone && tyS (tyFn clk n) (ts ++ (table f).1) (table f).2 d.body then some (table f).2 else none
    | none =>
      match f, ts with
      | .memmove, [a, b, _] => if a.array && b.array then some .any else none
      | .mu_time_precedes, _ => some .any
      | .mu_time_offset, _ => some .any
      | .mu_time_now, [] => if clk then some .any else none
      | _, _ => none

/-! ## Soundness -/

/-- What is needed of memory: the immediate queue knows its store. -/
def Typed (m : Heap) : Prop := m.at (.glob .s_sched) 4 = some (.ptr (.glob .s_immed_store) 0)

/-- An access to nothing but the variables, with a result that satisfies `P`: the first does on `h` what the second does on
`m`. -/
def Loc (f f' : Heap → C (CVal × Heap)) (P : CVal → Prop) : Prop :=
  ∀ m h v m1, Typed m → Agree m h → f' m = .ok (v, m1) →
    P v ∧ Typed m1 ∧ ∃ h1, f h = .ok (v, h1) ∧ Agree m1 h1 ∧ Heap.Only Own h h1

/-- The first program does, with such accesses, what the second does; it may be looked at for fewer steps. -/
inductive Off {α : Type} (Q : α → Prop) : Act α → Act α → Prop
  | more {b} : Off Q (.fail .diverge) b
  | done {a} : Q a → Off Q (.done a) (.done a)
  | fail {e} : Off Q (.fail e) (.fail e)
  | mem {f f' k k' P} : Loc f f' P → (∀ v, P v → Off Q (k v) (k' v)) → Off Q (.mem f k) (.mem f' k')
  | pick {k k'} : (∀ b, Off Q (k b) (k' b)) → Off Q (.pick k) (.pick k')

section
variable {α β : Type} {Q : α → Prop} {Q' : β → Prop}

theorem Off.bind {t t' : Act α} {k k' : α → Act β} (h : Off Q t t') (hk : ∀ a, Q a → Off Q' (k a) (k' a)) :
    Off Q' (t.bind k) (t'.bind k') := by
  induction h with
  | more => exact .more
  | done h => exact hk _ h
  | fail => exact .fail
  | mem l _ ih => exact .mem l ih
  | pick _ ih => exact .pick ih

theorem Off.mono {t t' : Act α} {Q Q' : α → Prop} (h : Off Q t t') (hk : ∀ a, Q a → Q' a) : Off Q' t t' := by
  induction h with
  | more => exact .more
  | done h => exact .done (hk _ h)
  | fail => exact .fail
  | mem l _ ih => exact .mem l ih
  | pick _ ih => exact .pick ih

theorem Off.lift {c : C α} (h : ∀ a, c = .ok a → Q a) : Off Q (lift c) (lift c) := by
  cases c with
  | ok a => exact .done (h a rfl)
  | error e => exact .fail

theorem Off.both {a a' : Locals → Act (α × Locals)} {b b' : Locals → Act (β × Locals)} {L : Locals → Prop} {s : Locals}
    (ha : ∀ s, L s → Off (fun x => Q x.1 ∧ L x.2) (a s) (a' s)) (hb : ∀ s, L s → Off (fun x => Q' x.1 ∧ L x.2) (b s) (b' s)) (hs : L s) :
    Off (fun x => Q x.1 ∧ Q' x.2.1 ∧ L x.2.2) (Act.both a b s) (Act.both a' b' s) := by
  refine .pick fun p => ?_
  cases p
  · exact Off.bind (hb s hs) fun y hy => Off.bind (ha _ hy.2) fun x hx => .done ⟨hx.1, hy.1, hx.2⟩
  · exact Off.bind (ha s hs) fun x hx => Off.bind (hb _ hx.2) fun y hy => .done ⟨hx.1, hy.1, hy.2⟩

theorem Off.access {f f' : Heap → C (CVal × Heap)} {P : CVal → Prop} (l : Loc f f' P) : Off P (access f) (access f') :=
  .mem l fun _ h => .done h
end

theorem Agree.cells {m h : Heap} (a : Agree m h) {b : Base} (hb : b = .glob .s_immed_store ∨ b = .glob .s_deferred_tasks) : h.cells b = m.cells b := by
  refine List.ext_getElem? fun i => ?_
  have := a b i (.inr hb)
  simpa [Heap.at] using this

theorem Agree.upd {m h : Heap} (a : Agree m h) {b : Base} {o : Int} {v : CVal} (hs : (m.at b o).isSome = true) (ho : Own b o) :
    Agree (m.upd b o v) (h.upd b o v) := by
  have hl : b.isLit = false := by
    rcases ho with ⟨rfl, -⟩ | rfl | rfl <;> rfl
  intro b' o' ho'
  by_cases e : b = b' ∧ o = o'
  · obtain ⟨rfl, rfl⟩ := e
    rw [Heap.at_upd_same hl hs, Heap.at_upd_same hl (by rw [a _ _ ho]; exact hs)]
  · rw [Heap.at_upd_sep e, Heap.at_upd_sep e]
    exact a _ _ ho'

/-- Where an address that may be read or written points to. -/
theorem Ty.own {t : Ty} {p : CVal} (hp : t.Val p) (ht : t.write = true ∨ t.read.isSome = true) :
    p = .undef ∨ p = .null ∨ ∃ b o, p = .ptr b o ∧ ((b = .glob .s_sched ∧ ∃ k : Nat, o = k ∧ t = .sched k ∧ 4 ≤ k) ∨
      b = .glob .s_immed_store ∨ b = .glob .s_deferred_tasks) := by
  cases t with
  | any => simp [write, read] at ht
  | nil => simp [write, read] at ht
  | immed => rcases hp with rfl | rfl | ⟨o, rfl⟩ <;> simp
  | defer => rcases hp with rfl | rfl | ⟨o, rfl⟩ <;> simp
  | sched k =>
    rcases hp with rfl | rfl
    · simp
    · have : 4 ≤ k := by
        simp only [write, read] at ht
        rcases ht with ht | ht
        · simp at ht; omega
        · split at ht
          · omega
          · split at ht
            · omega
            · cases ht
      exact .inr (.inr ⟨_, _, rfl, .inl ⟨rfl, k, rfl, rfl, this⟩⟩)

theorem loc_load {t u : Ty} {p : CVal} (hp : t.Val p) (ht : t.read = some u) :
    Loc (fun h => do let v ← h.load p; .ok (v, h)) (fun h => do let v ← h.load p; .ok (v, h)) u.Val := by
  intro m h v m1 hm a e
  obtain ⟨w, e1, e2⟩ := C.bind_eq_ok e
  obtain ⟨rfl, rfl⟩ := Prod.mk.inj (Except.ok.inj e2)
  rcases Ty.own hp (.inr (by simp [ht])) with rfl | rfl | ⟨b, o, rfl, ho⟩
  · cases e1
  · cases e1
  · have ho' : Own b o := by
      rcases ho with ⟨rfl, k, rfl, -, hk⟩ | ho
      · exact .inl ⟨rfl, by omega⟩
      · exact .inr ho
    have hl : h.load (.ptr b o) = m.load (.ptr b o) := by simp only [Heap.load, a b o ho']
    refine ⟨?_, hm, h, by simp only [hl, e1]; rfl, a, Heap.Only.refl _ _⟩
    rcases ho with ⟨rfl, k, rfl, rfl, hk⟩ | ho
    · simp only [Ty.read] at ht
      split at ht
      · rename_i h4
        subst h4
        obtain rfl := Option.some.inj ht
        have hm' : m.at (.glob .s_sched) ((4 : Nat) : Int) = _ := hm
        simp only [Heap.load, hm', CVal.use] at e1
        obtain rfl := Except.ok.inj e1
        exact .inr (.inr ⟨0, rfl⟩)
      · split at ht
        · obtain rfl := Option.some.inj ht; trivial
        · cases ht
    · cases t <;> simp [Ty.read] at ht
      all_goals first | (subst ht; trivial) | (rcases hp with hp | hp <;> simp at hp <;> rcases ho with ho | ho <;> simp_all)

theorem loc_store {t : Ty} {p : CVal} (hp : t.Val p) (ht : t.write = true) (v : CVal) (P : CVal → Prop) (hv : P v) :
    Loc (fun h => do let h ← h.store p v; .ok (v, h)) (fun h => do let h ← h.store p v; .ok (v, h)) P := by
  intro m h w m1 hm a e
  obtain ⟨m2, e1, e2⟩ := C.bind_eq_ok e
  obtain ⟨rfl, rfl⟩ := Prod.mk.inj (Except.ok.inj e2)
  rcases Ty.own hp (.inl ht) with rfl | rfl | ⟨b, o, rfl, ho⟩
  · cases e1
  · cases e1
  · have ho' : Own b o := by
      rcases ho with ⟨rfl, k, rfl, -, hk⟩ | ho
      · exact .inl ⟨rfl, by omega⟩
      · exact .inr ho
    have hl : b.isLit = false := by rcases ho' with ⟨rfl, -⟩ | rfl | rfl <;> rfl
    have hs : (m.at b o).isSome = true := by
      cases b with
      | lit s => cases hl
      | _ =>
        simp only [Heap.store] at e1
        split at e1
        · rename_i x; rw [x]; rfl
        · cases e1
    have hsh : (h.at b o).isSome = true := by rw [a _ _ ho']; exact hs
    obtain rfl : m.upd b o v = m2 := by
      have := Heap.store_in (v := v) hl hs
      rw [e1] at this
      exact (Except.ok.inj this).symm
    refine ⟨hv, ?_, h.upd b o v, by simp only [Heap.store_in hl hsh]; rfl, a.upd hs ho', (Heap.Only.refl _ _).upd ho'⟩
    have : ¬ (b = .glob .s_sched ∧ o = 4) := by
      rintro ⟨rfl, rfl⟩
      rcases ho with ⟨-, k, hk, rfl, -⟩ | ho
      · obtain rfl : k = 4 := by omega
        simp [Ty.write] at ht
      · simp at ho
    unfold Typed
    rw [Heap.at_upd_sep this]
    exact hm

theorem loc_padd {A : Arch} {t : Ty} {p : CVal} {n : Nat} (hp : t.Val p) (ht : t.array = true) (y : CVal) :
    Loc (fun h => do let r ← Op.run A h (.padd n) p y; .ok (r, h)) (fun h => do let r ← Op.run A h (.padd n) p y; .ok (r, h)) t.Val := by
  intro m h w m1 hm a e
  obtain ⟨r, e1, e2⟩ := C.bind_eq_ok e
  obtain ⟨rfl, rfl⟩ := Prod.mk.inj (Except.ok.inj e2)
  cases y with
  | int i =>
    have key : ∀ b o, (b = .glob .s_immed_store ∨ b = .glob .s_deferred_tasks) → p = .ptr b o → (∀ o', t.Val (.ptr b o')) →
        t.Val r ∧ Typed m ∧ ∃ h1, (do let r ← Op.run A h (.padd n) p (.int i); .ok (r, h) : C (CVal × Heap)) = .ok (r, h1) ∧ Agree m h1 ∧
          Heap.Only Own h h1 := by
      rintro b o hb rfl hv
      have hl : Op.run A h (.padd n) (.ptr b o) (.int i) = Op.run A m (.padd n) (.ptr b o) (.int i) := by
        simp only [Op.run, Heap.padd, a.cells hb]
      refine ⟨?_, hm, h, by simp only [hl, e1]; rfl, a, Heap.Only.refl _ _⟩
      simp only [Op.run, Heap.padd] at e1
      split at e1
      · obtain rfl := Except.ok.inj e1
        exact hv _
      · cases e1
    cases t <;> simp [Ty.array] at ht
    · rcases hp with rfl | rfl | ⟨o, rfl⟩
      · cases e1
      · cases e1
      · exact key _ o (.inl rfl) rfl fun o' => .inr (.inr ⟨o', rfl⟩)
    · rcases hp with rfl | rfl | ⟨o, rfl⟩
      · cases e1
      · cases e1
      · exact key _ o (.inr rfl) rfl fun o' => .inr (.inr ⟨o', rfl⟩)
  | _ => cases p <;> cases e1

theorem _root_.Mu.CS.Heap.cells_put_ne {h : Heap} {b c : Base} {l : List CVal} (hb : c ≠ b) : (h.put c l).cells b = h.cells b := by
  cases b <;> simp only [Heap.cells, Heap.put] <;> rw [if_neg (fun e => hb e.symm)]

/-- A pointer into one of the arrays. -/
theorem Ty.in_array {t : Ty} {p : CVal} (hp : t.Val p) (ht : t.array = true) :
    p = .undef ∨ p = .null ∨ ∃ b o, p = .ptr b o ∧ (b = .glob .s_immed_store ∨ b = .glob .s_deferred_tasks) := by
  cases t <;> simp [array] at ht <;> rcases hp with rfl | rfl | ⟨o, rfl⟩ <;> simp

theorem loc_memmove {t u : Ty} {p q n : CVal} (hp : t.Val p) (hq : u.Val q) (ht : t.array = true) (hu : u.array = true) :
    Loc (fun h => Lib.memmove h [p, q, n]) (fun h => Lib.memmove h [p, q, n]) (Ty.Val .any) := by
  intro m h v m1 hm a e
  cases n with
  | int n =>
    simp only [Lib.memmove] at e ⊢
    obtain ⟨l, e1, e4⟩ := C.bind_eq_ok e
    obtain ⟨m2, e2, e3⟩ := C.bind_eq_ok e4
    obtain ⟨rfl, rfl⟩ := Prod.mk.inj (Except.ok.inj e3)
    clear e e3 e4
    rcases Ty.in_array hq hu with rfl | rfl | ⟨b, o, rfl, hb⟩
    · cases e1
    · cases e1
    rcases Ty.in_array hp ht with rfl | rfl | ⟨c, r, rfl, hc⟩
    · cases e2
    · cases e2
    have g : h.getN (.ptr b o) n.toNat = .ok l := by
      rw [← e1]
      simp only [Heap.getN, a.cells hb]
    have hcm : h.mem c = m.mem c := by
      have := a.cells hc
      rcases hc with rfl | rfl <;> exact this
    have k : ∀ h : Heap, h.putN (.ptr c r) l = if 0 ≤ r ∧ r + l.length ≤ (h.mem c).length then
        .ok (h.put c ((h.mem c).take r.toNat ++ l ++ (h.mem c).drop (r.toNat + l.length))) else .error .oob := by
      intro h
      rcases hc with rfl | rfl <;> rfl
    rw [k] at e2
    split at e2
    · rename_i hr
      obtain rfl := Except.ok.inj e2
      refine ⟨trivial, ?_, h.put c ((h.mem c).take r.toNat ++ l ++ (h.mem c).drop (r.toNat + l.length)), ?_, ?_, ?_⟩
      · unfold Typed
        rcases hc with rfl | rfl <;> exact hm
      · rw [g]
        show (h.putN (.ptr c r) l >>= _) = _
        rw [k, hcm, if_pos hr]; rfl
      · intro b' o' ho
        by_cases hcb : c = b'
        · subst hcb
          rcases hc with rfl | rfl <;> simp [Heap.at, Heap.cells, Heap.put, hcm]
        · have h1 := a b' o' ho
          have : ∀ h : Heap, ∀ l, (h.put c l).at b' o' = h.at b' o' := fun h l => by rw [Heap.at, Heap.at, Heap.cells_put_ne hcb]
          rw [this, this]
          exact h1
      · refine ⟨fun b' o' ho => ?_, fun b' => ?_, rfl⟩
        · have : c ≠ b' := fun hcb => ho (.inr (hcb ▸ hc))
          rw [Heap.at, Heap.at, Heap.cells_put_ne this]
        · by_cases hcb : c = b'
          · subst hcb
            rcases hc with rfl | rfl <;> simp [Heap.cells, Heap.put, hcm] <;> omega
          · rw [Heap.cells_put_ne hcb]
    · cases e2
  | _ => cases e

end Mu.CS.Isr
