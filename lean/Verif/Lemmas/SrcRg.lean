import Verif.C.SrcAccess
import Verif.Lemmas.SrcAct
import Verif.Lemmas.Src

/-! # Reasoning about code that is executed access by access while other things happen

Rely and guarantee: `S` is the type of the abstract state, `rep` says what memory looks like in it. -/

namespace Mu.CS

/-- What the code may do to the abstract state (`guar`) and what may happen in between (`rely`). -/
structure RG (S : Type) where
  rep : S → Heap → Prop
  guar : S → S → Prop
  rely : S → S → Prop
  /-- the cells the code may write -/
  cells : S → Base → Int → Prop

variable {S : Type}

/-- Knowledge that nothing that happens in between can destroy. -/
def RG.Stable (R : RG S) (K : S → Prop) : Prop := ∀ σ τ, R.rely σ τ → K σ → K τ

/-- Knowing `K`, the code can be executed without a fault, does only what it may, and ends with a result and knowledge that
satisfy `Q`. -/
def Act.wp (R : RG S) {α : Type} : Act α → (S → Prop) → (α → (S → Prop) → Prop) → Prop
  | .done a, K, Q => Q a K
  | .fail _, _, _ => False
  | .mem f k, K, Q => ∀ σ h, K σ → R.rep σ h → ∃ v h' σ' K', f h = .ok (v, h') ∧ R.guar σ σ' ∧ R.rep σ' h' ∧ R.Stable K' ∧ K' σ' ∧
      (Heap.Only (R.cells σ) h h' ∧ Act.Touches f (R.cells σ)) ∧ Act.wp R (k v) K' Q
  | .pick k, K, Q => ∀ b, Act.wp R (k b) K Q

variable {R : RG S} {α β : Type}

theorem Act.wp_bind {t : Act α} {k : α → Act β} {K : S → Prop} {Q : β → (S → Prop) → Prop}
    (h : t.wp R K fun a K' => (k a).wp R K' Q) : (t.bind k).wp R K Q := by
  induction t generalizing K with
  | done a => exact h
  | fail e => exact h
  | mem f c ih =>
    intro σ hp hk hr
    obtain ⟨v, h', σ', K', e1, e2, e3, e4, e5, e6, e7⟩ := h σ hp hk hr
    exact ⟨v, h', σ', K', e1, e2, e3, e4, e5, e6, ih v e7⟩
  | pick c ih => exact fun b => ih b (h b)

theorem Act.wp_mono {t : Act α} {K : S → Prop} {Q Q' : α → (S → Prop) → Prop} (h : t.wp R K Q) (hq : ∀ a K, Q a K → Q' a K) :
    t.wp R K Q' := by
  induction t generalizing K with
  | done a => exact hq _ _ h
  | fail e => exact h
  | mem f c ih =>
    intro σ hp hk hr
    obtain ⟨v, h', σ', K', e1, e2, e3, e4, e5, e6, e7⟩ := h σ hp hk hr
    exact ⟨v, h', σ', K', e1, e2, e3, e4, e5, e6, ih v e7⟩
  | pick c ih => exact fun b => ih b (h b)

theorem Act.wp_of_bind {t : Act α} {k : α → Act β} {K : S → Prop} {Q : β → (S → Prop) → Prop} (h : (t.bind k).wp R K Q) :
    t.wp R K fun a K' => (k a).wp R K' Q := by
  induction t generalizing K with
  | done a => exact h
  | fail e => exact h
  | mem f c ih =>
    intro σ hp hk hr
    obtain ⟨v, h', σ', K', e1, e2, e3, e4, e5, e6, e7⟩ := h σ hp hk hr
    exact ⟨v, h', σ', K', e1, e2, e3, e4, e5, e6, ih v e7⟩
  | pick c ih => exact fun b => ih b (h b)

theorem Act.wp_bind_iff {t : Act α} {k : α → Act β} {K : S → Prop} {Q : β → (S → Prop) → Prop} :
    (t.bind k).wp R K Q ↔ t.wp R K fun a K' => (k a).wp R K' Q := ⟨Act.wp_of_bind, Act.wp_bind⟩

theorem Act.wp_done {a : α} {K : S → Prop} {Q : α → (S → Prop) → Prop} : (Act.done a).wp R K Q ↔ Q a K := Iff.rfl

theorem Act.wp_fail {e : Fault} {K : S → Prop} {Q : α → (S → Prop) → Prop} : ¬ (Act.fail e).wp R K Q := id

theorem Act.lift_ok (a : α) : Act.lift (.ok a) = .done a := rfl
theorem Act.lift_error (e : Fault) : (Act.lift (.error e) : Act α) = .fail e := rfl

theorem Act.wp_both {T : Type} {a : T → Act (α × T)} {b : T → Act (β × T)} {s : T} {K : S → Prop} {Q : α × β × T → (S → Prop) → Prop} :
    (Act.both a b s).wp R K Q ↔
      ((a s).wp R K fun x K' => (b x.2).wp R K' fun y K'' => Q (x.1, y.1, y.2) K'') ∧
      ((b s).wp R K fun y K' => (a y.2).wp R K' fun x K'' => Q (x.1, y.1, x.2) K'') := by
  simp only [Act.both, Act.wp, Bool.forall_bool, Act.wp_bind_iff]
  exact And.comm

/-- Read a cell. -/
theorem Act.wp_load {p : CVal} {K : S → Prop} {Q : CVal → (S → Prop) → Prop}
    (H : ∀ σ h, K σ → R.rep σ h → ∃ v σ' K', h.load p = .ok v ∧ R.guar σ σ' ∧ R.rep σ' h ∧ R.Stable K' ∧ K' σ' ∧ Q v K') :
    (Act.load p).wp R K Q := by
  intro σ h hk hr
  obtain ⟨v, σ', K', e1, e2, e3, e4, e5, e6⟩ := H σ h hk hr
  refine ⟨v, h, σ', K', by simp only [e1]; rfl, e2, e3, e4, e5, ⟨Heap.Only.refl _ _, .inl fun h v h' e => ?_⟩, e6⟩
  obtain ⟨a, -, e⟩ := C.bind_eq_ok e
  exact (Prod.mk.inj (Except.ok.inj e)).2.symm

/-- Write a cell. -/
theorem Act.wp_store {p v : CVal} {K : S → Prop} {Q : CVal → (S → Prop) → Prop}
    (H : ∀ σ h, K σ → R.rep σ h → ∃ h' σ' K', h.store p v = .ok h' ∧ R.guar σ σ' ∧ R.rep σ' h' ∧ R.Stable K' ∧ K' σ' ∧
      (∃ b o, p = .ptr b o ∧ R.cells σ b o) ∧ Q v K') :
    (Act.store p v).wp R K Q := by
  intro σ h hk hr
  obtain ⟨h', σ', K', e1, e2, e3, e4, e5, e6, e7⟩ := H σ h hk hr
  refine ⟨v, h', σ', K', by simp only [e1]; rfl, e2, e3, e4, e5, ⟨?_, .inr ?_⟩, e7⟩
  · obtain ⟨b, o, rfl, hc⟩ := e6
    have hb : b.isLit = false := by
      cases b with
      | lit s => simp [Heap.store] at e1
      | _ => rfl
    have hi : (h.at b o).isSome = true := by
      cases b with
      | lit s => simp [Heap.store] at e1
      | _ => simp only [Heap.store] at e1; split at e1 <;> simp_all
    rw [Heap.store_in hb hi] at e1
    obtain rfl := Except.ok.inj e1
    exact (Heap.Only.refl _ _).upd hc
  · obtain ⟨b, o, rfl, hc⟩ := e6
    exact ⟨b, o, v, hc, rfl⟩

/-- Pointer arithmetic. -/
theorem Act.wp_padd {A : Arch} {n : Nat} {p : CVal} {i : Int} {K : S → Prop} {Q : CVal → (S → Prop) → Prop}
    (H : ∀ σ h, K σ → R.rep σ h → ∃ v, h.padd n p i = .ok v ∧ R.guar σ σ ∧ R.Stable K ∧ Q v K) :
    (Act.op A (.padd n) p (.int i)).wp R K Q := by
  intro σ h hk hr
  obtain ⟨v, e1, e2, e4, e6⟩ := H σ h hk hr
  refine ⟨v, h, σ, K, by simp [Op.run, e1], e2, hr, e4, hk, ⟨Heap.Only.refl _ _, .inl fun h v h' e => ?_⟩, e6⟩
  obtain ⟨a, -, e⟩ := C.bind_eq_ok e
  exact (Prod.mk.inj (Except.ok.inj e)).2.symm

theorem Act.op_arith {A : Arch} {o : AOp} {t : ITy} {x y : CVal} : Act.op A (.arith o t) x y = Act.lift (Op.run A ⟨fun _ => [], 0⟩ (.arith o t) x y) := rfl
theorem Act.op_cmp {A : Arch} {o : COp} {t : ITy} {x y : CVal} : Act.op A (.cmp o t) x y = Act.lift (Op.run A ⟨fun _ => [], 0⟩ (.cmp o t) x y) := rfl
theorem Act.op_pcmp {A : Arch} {o : COp} {x y : CVal} : Act.op A (.pcmp o) x y = Act.lift (Op.run A ⟨fun _ => [], 0⟩ (.pcmp o) x y) := rfl

/-- One statement after the other. -/
theorem wp_seq {A : Arch} {L : ACalls} {n : Nat} {a b : Stmt} {s : Locals} {K : S → Prop} {Q : Flow × Locals → (S → Prop) → Prop}
    (h : (execA A L n a s).wp R K fun x K' => x.1 = .next ∧ (execA A L n b x.2).wp R K' Q) : (execA A L n (.seq a b) s).wp R K Q := by
  simp only [execA]
  refine Act.wp_bind (Act.wp_mono h fun x K' => ?_)
  rintro ⟨h1, h2⟩
  simp only [h1]
  exact h2

theorem wp_ite {A : Arch} {L : ACalls} {n : Nat} {c : Expr} {a b : Stmt} {s : Locals} {K : S → Prop} {Q : Flow × Locals → (S → Prop) → Prop}
    (h : (evalCondA A L c s).wp R K fun x K' =>
      (x.1 = true → (execA A L n a x.2).wp R K' Q) ∧ (x.1 = false → (execA A L n b x.2).wp R K' Q)) :
    (execA A L n (.ite c a b) s).wp R K Q := by
  simp only [execA]
  refine Act.wp_bind (Act.wp_mono h fun x K' => ?_)
  rintro ⟨h1, h2⟩
  cases hx : x.1
  · simpa [hx] using h2 hx
  · simpa [hx] using h1 hx

end Mu.CS
