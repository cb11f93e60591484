import Verif.Spec.SrcOrder
import Verif.Lemmas.SrcAct
import Verif.Lemmas.Src
import Verif.Src.Prog

/-! # Operands that do not interfere -/

namespace Mu.CS

namespace Act
variable {α β : Type}

theorem out_run (t : Act α) (h : Heap) : t.Out h (t.run h) := by
  induction t generalizing h with
  | done a => exact .done
  | fail e => exact .fail
  | mem f k ih =>
    simp only [run]
    cases e : f h with
    | error x => exact .fault e
    | ok x => exact .mem e (ih x.1 x.2)
  | pick k ih => exact .pick true (ih true h)

theorem out_bind {t : Act α} {k : α → Act β} {h : Heap} {r : C (β × Heap)} (o : (t.bind k).Out h r) :
    (∃ e, t.Out h (.error e) ∧ r = .error e) ∨ ∃ x h1, t.Out h (.ok (x, h1)) ∧ (k x).Out h1 r := by
  induction t generalizing h with
  | done a => exact .inr ⟨a, h, .done, o⟩
  | fail e => cases o; exact .inl ⟨e, .fail, rfl⟩
  | mem f c ih =>
    simp only [bind] at o
    cases o with
    | mem e o =>
      rcases ih _ o with ⟨e', h1, h2⟩ | ⟨x, h1, h2, h3⟩
      · exact .inl ⟨e', .mem e h1, h2⟩
      · exact .inr ⟨x, h1, .mem e h2, h3⟩
    | fault e => exact .inl ⟨_, .fault e, rfl⟩
  | pick c ih =>
    simp only [bind] at o
    cases o with
    | pick b o =>
      rcases ih _ o with ⟨e', h1, h2⟩ | ⟨x, h1, h2, h3⟩
      · exact .inl ⟨e', .pick b h1, h2⟩
      · exact .inr ⟨x, h1, .pick b h2, h3⟩

/-- Every result is that of the order from left to right. -/
def Firm (t : Act α) : Prop := ∀ h r, t.Out h r → ∀ x, r = .ok x ↔ t.run h = .ok x

theorem Firm.confluent {t : Act α} (f : t.Firm) : t.Confluent := by
  intro h r r' o o' x e
  exact (f h r' o' x).mpr ((f h r o x).mp e)

theorem firm_iff {t : Act α} : t.Firm ↔ t.Confluent := by
  refine ⟨Firm.confluent, fun c h r o x => ⟨fun e => c h r _ o (out_run t h) x e, fun e => c h _ r (out_run t h) o x e⟩⟩

theorem firm_done (a : α) : (done a).Firm := by
  intro h r o x
  cases o; exact Iff.rfl

theorem firm_fail (e : Fault) : (fail e : Act α).Firm := by
  intro h r o x
  cases o; exact Iff.rfl

theorem firm_lift (c : C α) : (lift c).Firm := by
  cases c
  · exact firm_fail _
  · exact firm_done _

theorem firm_access (f : Heap → C (CVal × Heap)) : (access f).Firm := by
  intro h r o x
  rw [run_access]
  cases o with
  | mem e o => cases o; rw [e]
  | fault e => rw [e]

theorem firm_load (p : CVal) : (load p).Firm := firm_access _
theorem firm_store (p v : CVal) : (store p v).Firm := firm_access _
theorem firm_op (A : Arch) (o : Op) (x y : CVal) : (op A o x y).Firm := by
  cases o <;> first | exact firm_lift _ | exact firm_access _

theorem Firm.bind {t : Act α} {k : α → Act β} (ht : t.Firm) (hk : ∀ x, (k x).Firm) : (t.bind k).Firm := by
  intro h r o x
  rw [run_bind]
  rcases out_bind o with ⟨e, h1, rfl⟩ | ⟨y, h1, h2, h3⟩
  · have := ht h _ h1
    cases hr : t.run h with
    | error e => simp [Except.bind]
    | ok z => exact absurd ((this z).mpr hr) (by simp)
  · rw [(ht h _ h2 _).mp rfl]
    exact hk y h1 r h3 x

theorem firm_ite {p : Prop} [Decidable p] {a b : Act α} (ha : a.Firm) (hb : b.Firm) : (if p then a else b).Firm := by
  split
  · exact ha
  · exact hb

end Act

/-! ## What a computation depends on and what it changes -/

/-- The computations of C/Src.lean. -/
abbrev Comp (α : Type) := St → C (α × St)

/-- Only the locals of `W`, and memory only if `m`, have changed. -/
def Frame (W : List Nat) (m : Bool) (s s' : St) : Prop :=
  s'.loc.length = s.loc.length ∧ (∀ i, i ∉ W → s'.loc[i]? = s.loc[i]?) ∧ (m = false → s'.h = s.h)

/-- The same locals of `U`, and the same memory if `c`. -/
def Same (U : List Nat) (c : Bool) (s t : St) : Prop :=
  s.loc.length = t.loc.length ∧ (∀ i, i ∈ U → s.loc[i]? = t.loc[i]?) ∧ (c = true → s.h = t.h)

/-- The result depends only on the locals of `U`, and on memory only if `c`. -/
def Par {α : Type} (W : List Nat) (m : Bool) (U : List Nat) (c : Bool) (f : Comp α) : Prop :=
  ∀ s t, Same U c s t → ∀ a s', f s = .ok (a, s') → Frame W m s s' ∧ ∃ t', f t = .ok (a, t') ∧ Same U c s' t' ∧ Frame W m t t'

section par
variable {α β : Type} {W U : List Nat} {m c : Bool} {s t s' : St}

theorem Frame.refl : Frame W m s s := ⟨rfl, fun _ _ => rfl, fun _ => rfl⟩

theorem Frame.trans (a : Frame W m s s') (b : Frame W m s' t) : Frame W m s t :=
  ⟨b.1.trans a.1, fun i hi => (b.2.1 i hi).trans (a.2.1 i hi), fun e => (b.2.2 e).trans (a.2.2 e)⟩

theorem Par.bind {f : Comp α} {k : α → Comp β} (hf : Par W m U c f) (hk : ∀ a, Par W m U c (k a)) :
    Par W m U c fun s => (f s).bind fun x => k x.1 x.2 := by
  intro s t st a s' e
  cases h1 : f s with
  | error x => simp only [h1, Except.bind_error] at e; cases e
  | ok x =>
    simp only [h1, Except.bind_ok] at e
    obtain ⟨fr, t1, e1, st1, fr1⟩ := hf s t st _ _ h1
    obtain ⟨fr', t2, e2, st2, fr2⟩ := hk x.1 _ _ st1 _ _ e
    refine ⟨fr.trans fr', t2, ?_, st2, fr1.trans fr2⟩
    simp only [e1, Except.bind_ok, e2]

theorem Par.bind' {f : Comp α} {k : α × St → C (β × St)} (hf : Par W m U c f) (hk : ∀ a, Par W m U c fun s => k (a, s)) :
    Par W m U c fun s => (f s).bind k := hf.bind (k := fun a s => k (a, s)) hk

theorem par_pure (a : α) : Par W m U c fun s => .ok (a, s) := by
  intro s t st b s' e
  obtain ⟨rfl, rfl⟩ := Prod.mk.inj (Except.ok.inj e)
  exact ⟨.refl, t, rfl, st, .refl⟩

theorem par_error (x : Fault) : Par (α := α) W m U c fun _ => .error x := by
  intro s t st b s' e
  cases e

theorem par_lift (x : C α) {k : α → Comp β} (hk : ∀ a, Par W m U c (k a)) : Par W m U c fun s => x.bind fun a => k a s := by
  cases x with
  | error e => exact par_error e
  | ok a => exact hk a

theorem par_get {i : Nat} (hi : i ∈ U) {k : CVal → Comp β} (hk : ∀ a, Par W m U c (k a)) :
    Par W m U c fun s => (s.get i).bind fun a => k a s := by
  intro s t st a s' e
  have : t.get i = s.get i := by simp only [St.get, st.2.1 i hi]
  simp only [this]
  cases h1 : s.get i with
  | error x => simp only [h1, Except.bind_error] at e; cases e
  | ok x =>
    simp only [h1, Except.bind_ok] at e ⊢
    exact hk x s t st a s' e

/-- Something read from memory. -/
theorem par_read (r : Heap → C α) (hc : c = true) {k : α → Comp β} (hk : ∀ a, Par W m U c (k a)) :
    Par W m U c fun s => (r s.h).bind fun a => k a s := by
  intro s t st a s' e
  simp only [← st.2.2 hc]
  cases h1 : r s.h with
  | error x => simp only [h1, Except.bind_error] at e; cases e
  | ok x =>
    simp only [h1, Except.bind_ok] at e ⊢
    exact hk x s t st a s' e

/-- A change of memory. -/
theorem par_write (r : Heap → C (α × Heap)) (hc : c = true) (hm : m = true ∨ ∀ h a h', r h = .ok (a, h') → h' = h) {k : α → Comp β}
    (hk : ∀ a, Par W m U c (k a)) : Par W m U c fun s => (r s.h).bind fun x => k x.1 { s with h := x.2 } := by
  intro s t st a s' e
  simp only [← st.2.2 hc]
  cases h1 : r s.h with
  | error x => simp only [h1, Except.bind_error] at e; cases e
  | ok x =>
    simp only [h1, Except.bind_ok] at e ⊢
    have fr : ∀ u : St, s.h = u.h → Frame W m u { u with h := x.2 } := fun u hu => ⟨rfl, fun _ _ => rfl, fun h0 => by
      rcases hm with hm | hm
      · rw [h0] at hm; cases hm
      · exact (hm _ _ _ h1).trans hu⟩
    obtain ⟨fr', t2, e2, st2, fr2⟩ := hk x.1 { s with h := x.2 } { t with h := x.2 } ⟨st.1, st.2.1, fun _ => rfl⟩ a s' e
    exact ⟨(fr s rfl).trans fr', t2, e2, st2, (fr t (st.2.2 hc)).trans fr2⟩

theorem par_store (p v : CVal) (hc : c = true) (hm : m = true) {k : Comp β} (hk : Par W m U c k) :
    Par W m U c fun s => (s.h.store p v).bind fun h => k { s with h := h } := by
  have := par_write (k := fun _ : Unit => k) (fun h => (h.store p v).bind fun h => .ok ((), h)) hc (.inl hm) (fun _ => hk)
  simpa only [Except.bind_bind, Except.bind_ok] using this

theorem par_set {i : Nat} (hi : i ∈ W) (v : CVal) (a : α) : Par W m U c fun s => .ok (a, { s with loc := s.loc.set i v }) := by
  intro s t st b s' e
  obtain ⟨rfl, rfl⟩ := Prod.mk.inj (Except.ok.inj e)
  have fr : ∀ u : St, Frame W m u { u with loc := u.loc.set i v } := fun u =>
    ⟨by simp, fun j hj => List.getElem?_set_ne (fun e : i = j => hj (e ▸ hi)), fun _ => rfl⟩
  refine ⟨fr s, _, rfl, ⟨by simpa using st.1, fun j hj => ?_, st.2.2⟩, fr t⟩
  simp only [List.getElem?_set, st.1, st.2.1 j hj]

theorem par_ite {p : Prop} [Decidable p] {f g : Comp α} (hf : Par W m U c f) (hg : Par W m U c g) :
    Par W m U c fun s => if p then f s else g s := by
  by_cases h : p <;> simp only [h, if_true, if_false]
  · exact hf
  · exact hg
end par

/-- In the other order the result is the same. -/
def Swap {α β : Type} (f : Comp α) (g : Comp β) : Prop :=
  ∀ s x s1 y s2, f s = .ok (x, s1) → g s1 = .ok (y, s2) → ∃ t1, g s = .ok (y, t1) ∧ f t1 = .ok (x, s2)

theorem Par.swap {α β : Type} {f : Comp α} {g : Comp β} {Wa Ua Wb Ub : List Nat} {ma ca mb cb : Bool} (hf : Par Wa ma Ua ca f)
    (hg : Par Wb mb Ub cb g) (d1 : ∀ i, i ∈ Wa → i ∉ Ub) (d2 : ∀ i, i ∈ Wb → i ∉ Ua) (m1 : ¬(ma = true ∧ cb = true))
    (m2 : ¬(mb = true ∧ ca = true)) (wa : ∀ i, i ∈ Wa → i ∈ Ua) (wb : ∀ i, i ∈ Wb → i ∈ Ub) (mca : ma = true → ca = true)
    (mcb : mb = true → cb = true) : Swap f g := by
  intro s x s1 y s2 e1 e2
  obtain ⟨fa, -⟩ := hf s s ⟨rfl, fun _ _ => rfl, fun _ => rfl⟩ _ _ e1
  have sm : Same Ub cb s1 s := ⟨fa.1, fun i hi => fa.2.1 i (fun h => d1 i h hi), fun hc => fa.2.2 (by
    cases hm : ma
    · rfl
    · exact absurd ⟨hm, hc⟩ m1)⟩
  obtain ⟨fb, t1, e3, st1, fb1⟩ := hg s1 s sm _ _ e2
  have sm2 : Same Ua ca s t1 := ⟨fb1.1.symm, fun i hi => (fb1.2.1 i (fun h => d2 i h hi)).symm, fun hc => (fb1.2.2 (by
    cases hm : mb
    · rfl
    · exact absurd ⟨hm, hc⟩ m2)).symm⟩
  obtain ⟨-, t2, e4, st2, fa2⟩ := hf s t1 sm2 _ _ e1
  refine ⟨t1, e3, ?_⟩
  have : t2 = s2 := by
    cases t2 with | mk l2 h2 =>
    cases s2 with | mk l2' h2' =>
    congr 1
    · apply List.ext_getElem?
      intro i
      by_cases hb : i ∈ Wb
      · have ha : i ∉ Wa := fun h => d2 i hb (wa i h)
        exact (fa2.2.1 i ha).trans (st1.2.1 i (wb i hb)).symm
      · have h1 : l2'[i]? = s1.loc[i]? := fb.2.1 i hb
        by_cases ha : i ∈ Ua
        · exact ((st2.2.1 i ha).symm).trans h1.symm
        · have hwa : i ∉ Wa := fun h => ha (wa i h)
          exact ((fa2.2.1 i hwa).trans (fb1.2.1 i hb)).trans ((h1.trans (fa.2.1 i hwa)).symm)
    · cases hma : ma with
      | true =>
        have hcb : cb = false := by cases h : cb; rfl; exact absurd ⟨hma, h⟩ m1
        have hmb : mb = false := by cases h : mb; rfl; rw [mcb h] at hcb; cases hcb
        exact (st2.2.2 (mca hma)).symm.trans (fb.2.2 hmb).symm
      | false =>
        have h1 : h2 = t1.h := fa2.2.2 hma
        cases hmb : mb with
        | true => exact h1.trans (st1.2.2 (mcb hmb)).symm
        | false => exact (h1.trans (fb1.2.2 hmb)).trans (((fb.2.2 hmb).trans (fa.2.2 hma)).symm)
  rw [e4, this]

/-! ## The same from the syntax -/

/-- Functions that only read memory. -/
def quiet : Fn → Bool
  | .mu_bbuf_bytes_ro | .mu_bbuf_capacity => true
  | _ => false

/-- An operator that looks at memory (at the size of an object). -/
def Op.looks : Op → Bool
  | .padd _ | .psub _ => true
  | _ => false

mutual
/-- An expression that uses only the locals of `U` and sets only those of `W`, that looks at memory only if `c` and changes it
only if `m`. -/
def fits (W : List Nat) (m : Bool) (U : List Nat) (c : Bool) : Expr → Bool
  | .num _ | .intMax | .sizeMax | .null | .str _ | .glob _ => true
  | .var i => U.contains i
  | .load p => c && fits W m U c p
  | .setv i e => W.contains i && fits W m U c e
  | .store a b => c && m && fits W m U c a && fits W m U c b
  | .updv i o _ _ e => W.contains i && U.contains i && (c || !o.looks) && fits W m U c e
  | .upd a _ _ _ b => c && m && fits W m U c a && fits W m U c b
  | .bin o a b => (c || !o.looks) && fits W m U c a && fits W m U c b
  | .neg _ e | .lnot e | .cast _ e | .tobool e | .dtoi _ e | .itod e | .fld e _ => fits W m U c e
  | .land a b | .lor a b => fits W m U c a && fits W m U c b
  | .cond a b d => fits W m U c a && fits W m U c b && fits W m U c d
  | .call f as => c && (m || quiet f) && fitsArgs W m U c as
  | .callp f as => c && m && fits W m U c f && fitsArgs W m U c as
/-- The same of arguments. -/
def fitsArgs (W : List Nat) (m : Bool) (U : List Nat) (c : Bool) : List Expr → Bool
  | [] => true
  | e :: es => fits W m U c e && fitsArgs W m U c es
end

/-- The calls of quiet functions change nothing. -/
def Calls.Quiet (L : Calls) : Prop := ∀ f, quiet f = true → ∀ args h a h', L.fn f h args = .ok (a, h') → h' = h

section
variable {A : Arch} {L : Calls} {W U : List Nat} {m c : Bool}

theorem par_op {β : Type} (o : Op) (x y : CVal) (hc : (c || !o.looks) = true) {k : CVal → Comp β} (hk : ∀ a, Par W m U c (k a)) :
    Par W m U c fun s => (o.run A s.h x y).bind fun a => k a s := by
  cases hl : o.looks with
  | true => exact par_read (fun h => o.run A h x y) (by simpa [hl] using hc) hk
  | false =>
    have : ∀ h, o.run A h x y = o.run A ⟨fun _ => [], 0⟩ x y := by
      intro h
      cases o <;> cases x <;> cases y <;> first | rfl | simp [Op.looks] at hl
    simp only [this]
    exact par_lift _ hk

mutual
theorem par_eval (hq : L.Quiet) : ∀ e, fits W m U c e = true → Par W m U c (eval A L e)
  | .num _, _ => par_pure _
  | .intMax, _ => par_pure _
  | .sizeMax, _ => par_pure _
  | .null, _ => par_pure _
  | .str _, _ => par_pure _
  | .glob _, _ => par_pure _
  | .var i, h => par_get (by simpa [fits] using h) fun a => par_pure a
  | .load p, h => by
    simp only [fits, Bool.and_eq_true] at h
    exact (par_eval hq p h.2).bind fun a => par_read (·.load a) h.1 fun v => par_pure v
  | .setv i e, h => by
    simp only [fits, Bool.and_eq_true, List.contains_iff_mem] at h
    exact (par_eval hq e h.2).bind fun a => par_set h.1 a a
  | .store a b, h => by
    simp only [fits, Bool.and_eq_true] at h
    exact (par_eval hq a h.1.2).bind fun p => (par_eval hq b h.2).bind fun v =>
      par_store p v h.1.1.1 h.1.1.2 (par_pure v)
  | .updv i o to post e, h => by
    simp only [fits, Bool.and_eq_true, List.contains_iff_mem] at h
    exact par_get h.1.1.2 fun old => (par_eval hq e h.2).bind fun x => par_op o old x h.1.2 fun r => par_lift (convTo A to r) fun new =>
      par_set h.1.1.1 new (if post then old else new)
  | .upd a o to post b, h => by
    simp only [fits, Bool.and_eq_true] at h
    exact (par_eval hq a h.1.2).bind fun p => par_read (·.load p) h.1.1.1 fun old => (par_eval hq b h.2).bind fun x =>
      par_op o old x (by simp [h.1.1.1]) fun r => par_lift (convTo A to r) fun new => par_store p new h.1.1.1 h.1.1.2
        (par_pure (if post then old else new))
  | .bin o a b, h => by
    simp only [fits, Bool.and_eq_true] at h
    exact (par_eval hq a h.1.2).bind fun x => (par_eval hq b h.2).bind fun y => par_op o x y h.1.1 fun r => par_pure r
  | .neg t e, h => by
    simp only [fits] at h
    refine (par_eval hq e h).bind' fun v => ?_
    cases v <;> first | exact par_error _ | exact par_lift _ fun r => par_pure _
  | .lnot e, h => by
    simp only [fits] at h
    exact (par_eval hq e h).bind fun v => par_lift v.truth fun r => par_pure (CVal.ofBool !r)
  | .cast t e, h => by
    simp only [fits] at h
    exact (par_eval hq e h).bind fun v => par_lift (convTo A (some t) v) fun r => par_pure r
  | .tobool e, h => by
    simp only [fits] at h
    exact (par_eval hq e h).bind fun v => par_lift v.truth fun r => par_pure (CVal.ofBool r)
  | .dtoi t e, h => by
    simp only [fits] at h
    refine (par_eval hq e h).bind' fun v => ?_
    cases v <;> cases t <;> first | exact par_error _ | exact par_lift _ fun r => par_pure _
  | .itod e, h => by
    simp only [fits] at h
    refine (par_eval hq e h).bind' fun v => ?_
    cases v <;> first | exact par_error _ | exact par_pure _
  | .land a b, h => by
    simp only [fits, Bool.and_eq_true] at h
    exact (par_eval hq a h.1).bind fun x => par_lift x.truth fun p => par_ite (p := p = true)
      ((par_eval hq b h.2).bind fun y => par_lift y.truth fun q => par_pure (CVal.ofBool q)) (par_pure (CVal.ofBool false))
  | .lor a b, h => by
    simp only [fits, Bool.and_eq_true] at h
    exact (par_eval hq a h.1).bind fun x => par_lift x.truth fun p => par_ite (p := p = true) (par_pure (CVal.ofBool true))
      ((par_eval hq b h.2).bind fun y => par_lift y.truth fun q => par_pure (CVal.ofBool q))
  | .cond a b d, h => by
    simp only [fits, Bool.and_eq_true] at h
    exact (par_eval hq a h.1.1).bind fun x => par_lift x.truth fun p => par_ite (p := p = true) (par_eval hq b h.1.2) (par_eval hq d h.2)
  | .fld p k, h => by
    simp only [fits] at h
    refine (par_eval hq p h).bind' fun v => ?_
    cases v <;> first | exact par_error _ | exact par_pure _
  | .call f as, h => by
    simp only [fits, Bool.and_eq_true, Bool.or_eq_true] at h
    exact (par_evalArgs hq as h.2).bind fun vs => par_write (fun h => L.fn f h vs) h.1.1
      (h.1.2.imp_right fun hf h a h' e => hq f hf vs h a h' e) fun v => par_pure v
  | .callp f as, h => by
    simp only [fits, Bool.and_eq_true] at h
    refine (par_eval hq f h.1.2).bind' fun fv => (par_evalArgs hq as h.2).bind' fun vs => ?_
    cases fv <;> first | exact par_error _ | exact par_write (fun h => L.cb _ h vs) h.1.1.1 (.inl h.1.1.2) fun v => par_pure v
theorem par_evalArgs (hq : L.Quiet) : ∀ es, fitsArgs W m U c es = true → Par W m U c (evalArgs A L es)
  | [], _ => par_pure _
  | e :: es, h => by
    simp only [fitsArgs, Bool.and_eq_true] at h
    exact (par_eval hq e h.1).bind fun v => (par_evalArgs hq es h.2).bind fun vs => par_pure (v :: vs)
end
end

/-! ## Independent operands -/

mutual
/-- The locals an expression may set. -/
def sets : Expr → List Nat
  | .setv i e | .updv i _ _ _ e => i :: sets e
  | .load e | .neg _ e | .lnot e | .cast _ e | .tobool e | .dtoi _ e | .itod e | .fld e _ => sets e
  | .store a b | .upd a _ _ _ b | .bin _ a b | .land a b | .lor a b => sets a ++ sets b
  | .cond a b c => sets a ++ sets b ++ sets c
  | .call _ as => setsArgs as
  | .callp f as => sets f ++ setsArgs as
  | _ => []
def setsArgs : List Expr → List Nat
  | [] => []
  | e :: es => sets e ++ setsArgs es
end

mutual
/-- The locals it uses or may set. -/
def uses : Expr → List Nat
  | .var i => [i]
  | .setv i e | .updv i _ _ _ e => i :: uses e
  | .load e | .neg _ e | .lnot e | .cast _ e | .tobool e | .dtoi _ e | .itod e | .fld e _ => uses e
  | .store a b | .upd a _ _ _ b | .bin _ a b | .land a b | .lor a b => uses a ++ uses b
  | .cond a b c => uses a ++ uses b ++ uses c
  | .call _ as => usesArgs as
  | .callp f as => uses f ++ usesArgs as
  | _ => []
def usesArgs : List Expr → List Nat
  | [] => []
  | e :: es => uses e ++ usesArgs es
end

mutual
/-- Whether it may change memory. -/
def changes : Expr → Bool
  | .store _ _ | .upd _ _ _ _ _ | .callp _ _ => true
  | .setv _ e | .updv _ _ _ _ e | .load e | .neg _ e | .lnot e | .cast _ e | .tobool e | .dtoi _ e | .itod e | .fld e _ => changes e
  | .bin _ a b | .land a b | .lor a b => changes a || changes b
  | .cond a b c => changes a || changes b || changes c
  | .call f as => !quiet f || changesArgs as
  | _ => false
def changesArgs : List Expr → Bool
  | [] => false
  | e :: es => changes e || changesArgs es
end

mutual
/-- Whether it looks at memory. -/
def touches : Expr → Bool
  | .load _ | .store _ _ | .upd _ _ _ _ _ | .call _ _ | .callp _ _ => true
  | .updv _ o _ _ e => o.looks || touches e
  | .setv _ e | .neg _ e | .lnot e | .cast _ e | .tobool e | .dtoi _ e | .itod e | .fld e _ => touches e
  | .bin o a b => o.looks || touches a || touches b
  | .land a b | .lor a b => touches a || touches b
  | .cond a b c => touches a || touches b || touches c
  | _ => false
def touchesArgs : List Expr → Bool
  | [] => false
  | e :: es => touches e || touchesArgs es
end

/-- Neither side sets a local the other uses, nor changes memory if the other looks at it. -/
def apart (wa : List Nat) (ma : Bool) (ua : List Nat) (ca : Bool) (wb : List Nat) (mb : Bool) (ub : List Nat) (cb : Bool) : Bool :=
  wa.all (fun i => !ub.contains i) && wb.all (fun i => !ua.contains i) && !(ma && cb) && !(mb && ca) &&
  wa.all (fun i => ua.contains i) && wb.all (fun i => ub.contains i) && (!ma || ca) && (!mb || cb)

/-- `p->x` and `p->y++`. -/
def fields : Expr → Expr → Bool
  | .load (.fld (.var i) j), .upd (.fld (.var i') k) (.arith _ _) _ _ (.num _) => i == i' && j != k
  | _, _ => false

/-- Two operands whose order does not matter. -/
def indep (a b : Expr) : Bool :=
  fields a b || (fits (sets a) (changes a) (uses a) (touches a) a && fits (sets b) (changes b) (uses b) (touches b) b &&
    apart (sets a) (changes a) (uses a) (touches a) (sets b) (changes b) (uses b) (touches b))

/-- The same of the two sides of an assignment operator such as `+=`: the left one is read as well. -/
def indepUpd (a b : Expr) : Bool :=
  fits (sets a) (changes a) (uses a) true a && fits (sets b) (changes b) (uses b) (touches b) b &&
    apart (sets a) (changes a) (uses a) true (sets b) (changes b) (uses b) (touches b)

/-- The same of an operand and arguments. -/
def indepArgs (a : Expr) (b : List Expr) : Bool :=
  fits (sets a) (changes a) (uses a) (touches a) a && fitsArgs (setsArgs b) (changesArgs b) (usesArgs b) (touchesArgs b) b &&
    apart (sets a) (changes a) (uses a) (touches a) (setsArgs b) (changesArgs b) (usesArgs b) (touchesArgs b)

mutual
/-- No order matters anywhere in the expression. -/
def orderly : Expr → Bool
  | .load e | .neg _ e | .lnot e | .cast _ e | .tobool e | .dtoi _ e | .itod e | .fld e _ | .setv _ e => orderly e
  | .store a b | .bin _ a b => indep a b && orderly a && orderly b
  | .updv i _ _ _ e => indep (.var i) e && orderly e
  | .upd a _ _ _ b => indepUpd a b && orderly a && orderly b
  | .land a b | .lor a b => orderly a && orderly b
  | .cond a b c => orderly a && orderly b && orderly c
  | .call _ as => orderlyArgs as
  | .callp f as => indepArgs f as && orderly f && orderlyArgs as
  | _ => true
def orderlyArgs : List Expr → Bool
  | [] => true
  | e :: es => indepArgs e es && orderly e && orderlyArgs es
end

/-- The same of a statement. -/
def orderlyS : Stmt → Bool
  | .expr e | .ret e => orderly e
  | .seq a b => orderlyS a && orderlyS b
  | .ite c a b => orderly c && orderlyS a && orderlyS b
  | .loop c none b => orderly c && orderlyS b
  | .loop c (some e) b => orderly c && orderly e && orderlyS b
  | _ => true

section
variable {A : Arch} {K : ACalls} {L : Calls}

theorem apart_swap {α β : Type} {f : Comp α} {g : Comp β} {wa ua wb ub : List Nat} {ma ca mb cb : Bool} (hf : Par wa ma ua ca f)
    (hg : Par wb mb ub cb g) (h : apart wa ma ua ca wb mb ub cb = true) : Swap f g ∧ Swap g f := by
  simp only [apart, Bool.and_eq_true, List.all_eq_true, Bool.not_eq_true', Bool.or_eq_true, List.contains_eq_mem, decide_eq_true_eq,
    decide_eq_false_iff_not] at h
  obtain ⟨⟨⟨⟨⟨⟨⟨h1, h2⟩, h3⟩, h4⟩, h5⟩, h6⟩, h7⟩, h8⟩ := h
  have n1 : ¬(ma = true ∧ cb = true) := by rintro ⟨rfl, rfl⟩; cases h3
  have n2 : ¬(mb = true ∧ ca = true) := by rintro ⟨rfl, rfl⟩; cases h4
  have n3 : ma = true → ca = true := by rintro rfl; simpa using h7
  have n4 : mb = true → cb = true := by rintro rfl; simpa using h8
  exact ⟨hf.swap hg h1 h2 n1 n2 h5 h6 n3 n4, hg.swap hf h2 h1 n2 n1 h6 h5 n4 n3⟩

theorem store_upd {h h' : Heap} {b : Base} {o : Int} {v : CVal} (e : h.store (.ptr b o) v = .ok h') : h' = h.upd b o v := by
  cases b with
  | lit t => cases e
  | _ =>
    simp only [Heap.store] at e
    split at e
    · exact (Except.ok.inj e).symm
    · cases e

theorem load_fld {i j : Nat} {s s1 : St} {x : CVal} : eval A L (.load (.fld (.var i) j)) s = .ok (x, s1) ↔
    ∃ b o, s.get i = .ok (.ptr b o) ∧ s.h.load (.ptr b (o + j)) = .ok x ∧ s1 = s := by
  simp only [eval, cbind_eq, Except.bind_bind]
  cases hg : s.get i with
  | error e => simp [Except.bind]
  | ok v =>
    simp only [Except.bind_ok]
    cases v <;> simp only [Except.bind_ok, Except.bind_error] <;> try (simp; done)
    · next b o =>
      cases hl : s.h.load (.ptr b (o + j)) with
      | error e =>
        simp only [Except.bind_error]
        constructor
        · intro h; cases h
        · rintro ⟨b', o', h1, h2, -⟩
          obtain ⟨rfl, rfl⟩ := CVal.ptr.inj (Except.ok.inj h1)
          rw [hl] at h2; cases h2
      | ok w =>
        simp only [Except.bind_ok, Except.ok.injEq, Prod.mk.injEq, CVal.ptr.injEq]
        constructor
        · rintro ⟨rfl, rfl⟩; exact ⟨b, o, ⟨rfl, rfl⟩, hl, rfl⟩
        · rintro ⟨b', o', ⟨rfl, rfl⟩, h2, rfl⟩; rw [hl] at h2; exact ⟨Except.ok.inj h2, rfl⟩

theorem upd_fld {i k : Nat} {o : AOp} {t : ITy} {to : Option ITy} {post : Bool} {n : Int} {s s1 : St} {y : CVal}
    (e : eval A L (.upd (.fld (.var i) k) (.arith o t) to post (.num n)) s = .ok (y, s1)) :
    ∃ b p v, s.get i = .ok (.ptr b p) ∧ s1 = { s with h := s.h.upd b (p + k) v } := by
  simp only [eval, cbind_eq, Except.bind_bind] at e
  obtain ⟨v, hg, e⟩ := C.bind_eq_ok (c := s.get i) e
  simp only [Except.bind_ok] at e
  cases v <;> simp only [Except.bind_ok, Except.bind_error] at e <;> try (cases e; done)
  next b p =>
  obtain ⟨old, -, e⟩ := C.bind_eq_ok (c := s.h.load (.ptr b (p + k))) e
  obtain ⟨r, -, e⟩ := C.bind_eq_ok (c := (Op.arith o t).run A s.h old (.int n)) e
  obtain ⟨new, -, e⟩ := C.bind_eq_ok (c := convTo A to r) e
  obtain ⟨h', hs, e⟩ := C.bind_eq_ok (c := s.h.store (.ptr b (p + k)) new) e
  obtain ⟨-, rfl⟩ := Prod.mk.inj (Except.ok.inj e)
  exact ⟨b, p, new, hg, by rw [store_upd hs]⟩

theorem fields_swap {a b : Expr} (h : fields a b = true) : Swap (eval A L a) (eval A L b) ∧ Swap (eval A L b) (eval A L a) := by
  unfold fields at h
  split at h
  · next i j i' k o t to post n =>
    simp only [Bool.and_eq_true, beq_iff_eq, bne_iff_ne] at h
    obtain ⟨rfl, hjk⟩ := h
    have same : ∀ (s : St) (b : Base) (p : Int) (v : CVal), ({ s with h := s.h.upd b (p + k) v } : St).h.load (.ptr b (p + j)) =
        s.h.load (.ptr b (p + j)) := by
      intro s b p v
      simp only [Heap.load]
      rw [Heap.at_upd_sep (by rintro ⟨-, e⟩; omega)]
    refine ⟨?_, ?_⟩
    · intro s x s1 y s2 e1 e2
      obtain ⟨b, p, hg, hl, rfl⟩ := load_fld.mp e1
      obtain ⟨b', p', v, hg', rfl⟩ := upd_fld e2
      rw [hg] at hg'
      obtain ⟨rfl, rfl⟩ := CVal.ptr.inj (Except.ok.inj hg')
      exact ⟨_, e2, load_fld.mpr ⟨b, p, hg, (same s1 b p v).trans hl, rfl⟩⟩
    · intro s x s1 y s2 e1 e2
      obtain ⟨b', p', v, hg', rfl⟩ := upd_fld e1
      obtain ⟨b, p, hg, hl, rfl⟩ := load_fld.mp e2
      have hg : s.get i = .ok (.ptr b p) := hg
      rw [hg] at hg'
      obtain ⟨rfl, rfl⟩ := CVal.ptr.inj (Except.ok.inj hg')
      exact ⟨s, load_fld.mpr ⟨b, p, hg, (same s b p v).symm.trans hl, rfl⟩, e1⟩
  · cases h

theorem indep_swap (hq : L.Quiet) {a b : Expr} (h : indep a b = true) :
    Swap (eval A L a) (eval A L b) ∧ Swap (eval A L b) (eval A L a) := by
  simp only [indep, Bool.or_eq_true, Bool.and_eq_true] at h
  rcases h with h | ⟨⟨h1, h2⟩, h3⟩
  · exact fields_swap h
  · exact apart_swap (par_eval hq a h1) (par_eval hq b h2) h3

theorem indepUpd_swap (hq : L.Quiet) {a b : Expr} (h : indepUpd a b = true) :
    Swap (fun s => (eval A L a s).bind fun x => (x.2.h.load x.1).bind fun old => .ok ((x.1, old), x.2)) (eval A L b) ∧
    Swap (eval A L b) (fun s => (eval A L a s).bind fun x => (x.2.h.load x.1).bind fun old => .ok ((x.1, old), x.2)) := by
  simp only [indepUpd, Bool.and_eq_true] at h
  exact apart_swap ((par_eval hq a h.1.1).bind fun p => par_read (·.load p) rfl fun old => par_pure (p, old)) (par_eval hq b h.1.2) h.2

theorem indepArgs_swap (hq : L.Quiet) {a : Expr} {b : List Expr} (h : indepArgs a b = true) :
    Swap (eval A L a) (evalArgs A L b) ∧ Swap (evalArgs A L b) (eval A L a) := by
  simp only [indepArgs, Bool.and_eq_true] at h
  exact apart_swap (par_eval hq a h.1.1) (par_evalArgs hq b h.1.2) h.2

open Act

theorem firm_both {α β : Type} {a : Locals → Act (α × Locals)} {b : Locals → Act (β × Locals)} {f : Comp α} {g : Comp β}
    (ha : ∀ s, (a s).Firm) (hb : ∀ s, (b s).Firm) (ea : ∀ s h, (a s).run h = (f ⟨s, h⟩).bind St.split)
    (eb : ∀ s h, (b s).run h = (g ⟨s, h⟩).bind St.split) (hs : Swap f g ∧ Swap g f) (s : Locals) : (both a b s).Firm := by
  intro h r o x
  cases o with
  | pick c o =>
    cases c with
    | true => exact ((ha s).bind fun y => (hb y.2).bind fun z => firm_done _) h r o x
    | false =>
      rw [((hb s).bind fun y => (ha y.2).bind fun z => firm_done _) h r o x, run_both, run_bind]
      simp only [run_bind, run, ea, eb, Except.bind_bind, St.split, Except.bind_ok]
      constructor
      · intro e
        obtain ⟨⟨y, s1⟩, e1, e⟩ := C.bind_eq_ok (c := g ⟨s, h⟩) e
        obtain ⟨⟨z, s2⟩, e2, e⟩ := C.bind_eq_ok (c := f s1) e
        obtain ⟨t1, e3, e4⟩ := hs.2 _ _ _ _ _ e1 e2
        simp only [e3, e4, Except.bind_ok]
        exact e
      · intro e
        obtain ⟨⟨y, s1⟩, e1, e⟩ := C.bind_eq_ok (c := f ⟨s, h⟩) e
        obtain ⟨⟨z, s2⟩, e2, e⟩ := C.bind_eq_ok (c := g s1) e
        obtain ⟨t1, e3, e4⟩ := hs.1 _ _ _ _ _ e1 e2
        simp only [e3, e4, Except.bind_ok]
        exact e

/-- The choices do not matter in the functions called. -/
structure ACalls.Firm (K : ACalls) : Prop where
  fn : ∀ f args, (K.fn f args).Firm
  cb : ∀ f args, (K.cb f args).Firm

mutual
theorem firm_evalA (hk : K.Firm) (hr : K.Runs L) (hq : L.Quiet) : ∀ e, orderly e = true → ∀ s, (evalA A K e s).Firm
  | .num _, _, _ => firm_done _
  | .intMax, _, _ => firm_done _
  | .sizeMax, _, _ => firm_done _
  | .null, _, _ => firm_done _
  | .str _, _, _ => firm_done _
  | .glob _, _, _ => firm_done _
  | .var i, _, s => (firm_lift (s.get i)).bind fun _ => firm_done _
  | .load p, h, s => by
    simp only [orderly] at h
    exact (firm_evalA hk hr hq p h s).bind fun x => (firm_load x.1).bind fun _ => firm_done _
  | .setv i e, h, s => by
    simp only [orderly] at h
    exact (firm_evalA hk hr hq e h s).bind fun x => firm_done _
  | .store a b, h, s => by
    simp only [orderly, Bool.and_eq_true] at h
    refine Firm.bind (firm_both (firm_evalA hk hr hq a h.1.2) (firm_evalA hk hr hq b h.2) (evalA_run hr a) (evalA_run hr b)
      (indep_swap hq h.1.1) s) fun x => ?_
    exact (firm_store _ _).bind fun _ => firm_done _
  | .updv i o to post e, h, s => by
    simp only [orderly, Bool.and_eq_true] at h
    refine Firm.bind (firm_both (fun s => (firm_lift (s.get i)).bind fun _ => firm_done _) (firm_evalA hk hr hq e h.2)
      (evalA_run hr (.var i)) (evalA_run hr e) (indep_swap hq h.1) s) fun x => ?_
    exact (firm_op A o _ _).bind fun _ => (firm_lift _).bind fun _ => firm_done _
  | .upd a o to post b, h, s => by
    simp only [orderly, Bool.and_eq_true] at h
    refine Firm.bind (firm_both (f := fun s => (eval A L a s).bind fun x => (x.2.h.load x.1).bind fun old => .ok ((x.1, old), x.2))
      (fun s => (firm_evalA hk hr hq a h.1.2 s).bind fun x => (firm_load x.1).bind fun _ => firm_done _)
      (firm_evalA hk hr hq b h.2) (fun s h => ?_) (evalA_run hr b) (indepUpd_swap hq h.1.1) s) fun x => ?_
    · simp only [bind_eq, run_bind, run_load, run, evalA_run hr a, Except.bind_bind, St.split, Except.bind_ok]
    · exact (firm_op A o _ _).bind fun _ => (firm_lift _).bind fun _ => (firm_store _ _).bind fun _ => firm_done _
  | .bin o a b, h, s => by
    simp only [orderly, Bool.and_eq_true] at h
    refine Firm.bind (firm_both (firm_evalA hk hr hq a h.1.2) (firm_evalA hk hr hq b h.2) (evalA_run hr a) (evalA_run hr b)
      (indep_swap hq h.1.1) s) fun x => ?_
    exact (firm_op A o _ _).bind fun _ => firm_done _
  | .neg t e, h, s => by
    simp only [orderly] at h
    refine Firm.bind (firm_evalA hk hr hq e h s) fun ⟨v, s⟩ => ?_
    cases v <;> first | exact firm_fail _ | exact (firm_lift _).bind fun _ => firm_done _
  | .lnot e, h, s => by
    simp only [orderly] at h
    exact (firm_evalA hk hr hq e h s).bind fun x => (firm_lift _).bind fun _ => firm_done _
  | .cast t e, h, s => by
    simp only [orderly] at h
    exact (firm_evalA hk hr hq e h s).bind fun x => (firm_lift _).bind fun _ => firm_done _
  | .tobool e, h, s => by
    simp only [orderly] at h
    exact (firm_evalA hk hr hq e h s).bind fun x => (firm_lift _).bind fun _ => firm_done _
  | .dtoi t e, h, s => by
    simp only [orderly] at h
    refine Firm.bind (firm_evalA hk hr hq e h s) fun ⟨v, s⟩ => ?_
    cases v <;> cases t <;> first | exact firm_fail _ | exact (firm_lift _).bind fun _ => firm_done _
  | .itod e, h, s => by
    simp only [orderly] at h
    refine Firm.bind (firm_evalA hk hr hq e h s) fun ⟨v, s⟩ => ?_
    cases v <;> first | exact firm_fail _ | exact firm_done _
  | .land a b, h, s => by
    simp only [orderly, Bool.and_eq_true] at h
    exact (firm_evalA hk hr hq a h.1 s).bind fun x => (firm_lift _).bind fun p => firm_ite
      ((firm_evalA hk hr hq b h.2 _).bind fun _ => (firm_lift _).bind fun _ => firm_done _) (firm_done _)
  | .lor a b, h, s => by
    simp only [orderly, Bool.and_eq_true] at h
    exact (firm_evalA hk hr hq a h.1 s).bind fun x => (firm_lift _).bind fun p => firm_ite (firm_done _)
      ((firm_evalA hk hr hq b h.2 _).bind fun _ => (firm_lift _).bind fun _ => firm_done _)
  | .cond a b d, h, s => by
    simp only [orderly, Bool.and_eq_true] at h
    exact (firm_evalA hk hr hq a h.1.1 s).bind fun x => (firm_lift _).bind fun p => firm_ite (firm_evalA hk hr hq b h.1.2 _)
      (firm_evalA hk hr hq d h.2 _)
  | .fld p k, h, s => by
    simp only [orderly] at h
    refine Firm.bind (firm_evalA hk hr hq p h s) fun ⟨v, s⟩ => ?_
    cases v <;> first | exact firm_fail _ | exact firm_done _
  | .call f as, h, s => by
    simp only [orderly] at h
    exact (firm_evalArgsA hk hr hq as h s).bind fun x => (hk.fn f x.1).bind fun _ => firm_done _
  | .callp f as, h, s => by
    simp only [orderly, Bool.and_eq_true] at h
    refine Firm.bind (firm_both (firm_evalA hk hr hq f h.1.2) (firm_evalArgsA hk hr hq as h.2) (evalA_run hr f) (evalArgsA_run hr as)
      (indepArgs_swap hq h.1.1) s) fun ⟨fv, vs, s⟩ => ?_
    cases fv <;> first | exact firm_fail _ | exact (hk.cb _ vs).bind fun _ => firm_done _
theorem firm_evalArgsA (hk : K.Firm) (hr : K.Runs L) (hq : L.Quiet) : ∀ es, orderlyArgs es = true → ∀ s, (evalArgsA A K es s).Firm
  | [], _, _ => firm_done _
  | e :: es, h, s => by
    simp only [orderlyArgs, Bool.and_eq_true] at h
    exact (firm_both (firm_evalA hk hr hq e h.1.2) (firm_evalArgsA hk hr hq es h.2) (evalA_run hr e) (evalArgsA_run hr es)
      (indepArgs_swap hq h.1.1) s).bind fun x => firm_done _
end

theorem firm_runLoopA {cond : Locals → Act (Bool × Locals)} {body : Locals → Act (Flow × Locals)} {step : Locals → Act Locals}
    (hc : ∀ s, (cond s).Firm) (hb : ∀ s, (body s).Firm) (hs : ∀ s, (step s).Firm) (n : Nat) (s : Locals) :
    (runLoopA cond body step n s).Firm := by
  induction n generalizing s with
  | zero => exact firm_fail _
  | succ n ih =>
    refine Firm.bind (hc s) fun ⟨b, s⟩ => ?_
    cases b with
    | false => exact firm_done _
    | true =>
      refine Firm.bind (hb s) fun ⟨f, s⟩ => ?_
      cases f with
      | next => exact Firm.bind (hs s) fun s => ih s
      | brk => exact firm_done _
      | ret v => exact firm_done _

theorem firm_evalCondA (hk : K.Firm) (hr : K.Runs L) (hq : L.Quiet) (c : Expr) (h : orderly c = true) (s : Locals) :
    (evalCondA A K c s).Firm :=
  (firm_evalA hk hr hq c h s).bind fun _ => (firm_lift _).bind fun _ => firm_done _

theorem firm_execA (hk : K.Firm) (hr : K.Runs L) (hq : L.Quiet) (n : Nat) : ∀ c, orderlyS c = true → ∀ s, (execA A K n c s).Firm
  | .skip, _, _ => firm_done _
  | .expr e, h, s => by
    simp only [orderlyS] at h
    exact (firm_evalA hk hr hq e h s).bind fun _ => firm_done _
  | .undef i, _, _ => firm_done _
  | .seq a b, h, s => by
    simp only [orderlyS, Bool.and_eq_true] at h
    refine Firm.bind (firm_execA hk hr hq n a h.1 s) fun ⟨f, s⟩ => ?_
    cases f with
    | next => exact firm_execA hk hr hq n b h.2 s
    | brk => exact firm_done _
    | ret v => exact firm_done _
  | .ite c a b, h, s => by
    simp only [orderlyS, Bool.and_eq_true] at h
    exact (firm_evalCondA hk hr hq c h.1.1 s).bind fun x => firm_ite (firm_execA hk hr hq n a h.1.2 _) (firm_execA hk hr hq n b h.2 _)
  | .loop c none b, h, s => by
    simp only [orderlyS, Bool.and_eq_true] at h
    exact firm_runLoopA (firm_evalCondA hk hr hq c h.1) (firm_execA hk hr hq n b h.2) (fun s => firm_done s) n s
  | .loop c (some e) b, h, s => by
    simp only [orderlyS, Bool.and_eq_true] at h
    exact firm_runLoopA (firm_evalCondA hk hr hq c h.1.1) (firm_execA hk hr hq n b h.2)
      (fun s => (firm_evalA hk hr hq e h.1.2 s).bind fun _ => firm_done _) n s
  | .brk, _, _ => firm_done _
  | .ret e, h, s => by
    simp only [orderlyS] at h
    exact (firm_evalA hk hr hq e h s).bind fun _ => firm_done _
  | .retVoid, _, _ => firm_done _

theorem firm_mem {α : Type} {f : Heap → C (CVal × Heap)} {k : CVal → Act α} (hk : ∀ v, (k v).Firm) : (Act.mem f k).Firm :=
  Firm.bind (t := access f) (firm_access f) hk

theorem firm_act (hk : K.Firm) (hr : K.Runs L) (hq : L.Quiet) (n : Nat) (d : FunDef) (hd : orderlyS d.body = true) (args : List CVal) :
    (d.act A K n args).Firm := by
  unfold FunDef.act
  refine firm_ite ?_ ?_
  · exact (firm_execA hk hr hq n d.body hd _).bind fun _ => firm_done _
  · refine firm_mem fun v => ?_
    cases v <;> first | exact firm_fail _ | skip
    exact (firm_execA hk hr hq n d.body hd _).bind fun x => (firm_access _).bind fun _ => firm_done _

/-- No order matters anywhere in the library. -/
theorem prog_orderly {f : Fn} {d : FunDef} (h : prog f = some d) : orderlyS d.body = true := by
  cases f <;> cases h <;> rfl

theorem sem_quiet {X : Ext} (n : Nat) : (⟨sem A X prog n, X.cb (sem A X prog n)⟩ : Calls).Quiet := by
  intro f hf args h a h' e
  cases n with
  | zero => cases e
  | succ n =>
    have key : ∀ k : Nat, ∀ d : FunDef, prog f = some d → d.body = .ret (.load (.fld (.var 0) k)) → d.mems = [] → d.va = none → h' = h := by
      intro k d hd hb hm hv
      have e : sem A X prog (n + 1) f h args = .ok (a, h') := e
      rw [sem_succ hd, FunDef.run_regs hm hv, hb] at e
      simp only [exec, cbind_eq, Except.bind_bind] at e
      obtain ⟨⟨v, s⟩, e1, e⟩ := C.bind_eq_ok (c := eval A _ _ _) e
      obtain ⟨-, -, -, -, rfl⟩ := load_fld.mp e1
      exact (Prod.mk.inj (Except.ok.inj e)).2.symm
    cases f <;> simp [quiet] at hf
    · exact key 0 _ rfl rfl rfl rfl
    · exact key 1 _ rfl rfl rfl rfl

theorem firm_semA {Y : AExt} {X : Ext} (hY : Y.Runs X) (hC : Y.Confluent) (n : Nat) (f : Fn) (args : List CVal) :
    (semA A Y prog n f args).Firm := by
  induction n generalizing f args with
  | zero => exact firm_fail _
  | succ n ih =>
    unfold semA
    have hr : (⟨semA A Y prog n, Y.cb (semA A Y prog n)⟩ : ACalls).Runs ⟨sem A X prog n, X.cb (sem A X prog n)⟩ :=
      ⟨semA_run hY prog n, hY.cb _ _ (semA_run hY prog n)⟩
    cases hd : prog f with
    | none => exact firm_access _
    | some d =>
      exact firm_act ⟨ih, fun f args => firm_iff.mpr (hC _ (fun f args => (ih f args).confluent) f args)⟩ hr (sem_quiet n) n d (prog_orderly hd) args
end

end Mu.CS
