import Verif.Spec.SrcFuel

/-! # More steps give the same result -/

namespace Mu.CS

theorem Le.refl {α : Type} (a : C α) : Le a a := .inr rfl

theorem Le.trans {α : Type} {a b c : C α} (h : Le a b) (k : Le b c) : Le a c := by
  rcases h with h | h
  · exact .inl h
  · subst h
    exact k

theorem Le.ok {α : Type} {a b : C α} {x : α} (h : Le a b) (e : a = .ok x) : b = .ok x := by
  rcases h with h | h
  · rw [h] at e; cases e
  · rw [h, e]

theorem Le.bind {α β : Type} {a b : C α} {f g : α → C β} (h : Le a b) (k : ∀ x, Le (f x) (g x)) : Le (a >>= f) (b >>= g) := by
  rcases h with h | h
  · left; rw [h]; rfl
  · subst h
    cases b with
    | error e => exact .inr rfl
    | ok x => exact k x

/-- More for calls. -/
structure Calls.Le (K L : Calls) : Prop where
  fn : ∀ f, (K.fn f).Le (L.fn f)
  cb : ∀ k, (K.cb k).Le (L.cb k)

variable {A : Arch} {K L : Calls}

mutual
theorem eval_le (hk : K.Le L) : ∀ e s, Le (eval A K e s) (eval A L e s)
  | .num n, s => .refl _
  | .intMax, s => .refl _
  | .sizeMax, s => .refl _
  | .null, s => .refl _
  | .str t, s => .refl _
  | .glob g, s => .refl _
  | .var i, s => .refl _
  | .load p, s => (eval_le hk p s).bind fun _ => .refl _
  | .setv i e, s => (eval_le hk e s).bind fun _ => .refl _
  | .store p e, s => (eval_le hk p s).bind fun x => (eval_le hk e x.2).bind fun _ => .refl _
  | .updv i op to post e, s => (Le.refl _).bind fun _ => (eval_le hk e s).bind fun _ => .refl _
  | .upd p op to post e, s => (eval_le hk p s).bind fun x => (Le.refl _).bind fun _ => (eval_le hk e x.2).bind fun _ => .refl _
  | .bin op a b, s => (eval_le hk a s).bind fun x => (eval_le hk b x.2).bind fun _ => .refl _
  | .neg t e, s => (eval_le hk e s).bind fun _ => .refl _
  | .lnot e, s => (eval_le hk e s).bind fun _ => .refl _
  | .cast t e, s => (eval_le hk e s).bind fun _ => .refl _
  | .tobool e, s => (eval_le hk e s).bind fun _ => .refl _
  | .dtoi t e, s => (eval_le hk e s).bind fun _ => .refl _
  | .itod e, s => (eval_le hk e s).bind fun _ => .refl _
  | .land a b, s => (eval_le hk a s).bind fun x => (Le.refl _).bind fun p => by
      cases p
      · exact .refl _
      · exact (eval_le hk b x.2).bind fun _ => .refl _
  | .lor a b, s => (eval_le hk a s).bind fun x => (Le.refl _).bind fun p => by
      cases p
      · exact (eval_le hk b x.2).bind fun _ => .refl _
      · exact .refl _
  | .cond c a b, s => (eval_le hk c s).bind fun x => (Le.refl _).bind fun p => by
      cases p
      · exact eval_le hk b x.2
      · exact eval_le hk a x.2
  | .fld p k, s => (eval_le hk p s).bind fun _ => .refl _
  | .call f as, s => (evalArgs_le hk as s).bind fun x => (hk.fn f x.2.h x.1).bind fun _ => .refl _
  | .callp f as, s => (eval_le hk f s).bind fun x => (evalArgs_le hk as x.2).bind fun y => by
      obtain ⟨v, s1⟩ := x
      cases v with
      | fn k => exact (hk.cb k y.2.h y.1).bind fun _ => .refl _
      | _ => exact .refl _
theorem evalArgs_le (hk : K.Le L) : ∀ es s, Le (evalArgs A K es s) (evalArgs A L es s)
  | [], s => .refl _
  | e :: es, s => (eval_le hk e s).bind fun x => (evalArgs_le hk es x.2).bind fun _ => .refl _
end

theorem evalCond_le (hk : K.Le L) (c : Expr) (s : St) : Le (evalCond A K c s) (evalCond A L c s) :=
  (eval_le hk c s).bind fun _ => .refl _

theorem evalStep_le (hk : K.Le L) (c : Option Expr) (s : St) : Le (evalStep A K c s) (evalStep A L c s) := by
  cases c with
  | none => exact .refl _
  | some e => exact (eval_le hk e s).bind fun _ => .refl _

theorem runLoop_le {c c' : St → C (Bool × St)} {b b' : St → C (Flow × St)} {t t' : St → C St} (hc : ∀ s, Le (c s) (c' s))
    (hb : ∀ s, Le (b s) (b' s)) (ht : ∀ s, Le (t s) (t' s)) : ∀ {n m} s, n ≤ m → Le (runLoop c b t n s) (runLoop c' b' t' m s)
  | 0, _, s, _ => .inl rfl
  | n + 1, 0, s, h => by omega
  | n + 1, m + 1, s, h => (hc s).bind fun x => by
      obtain ⟨p, s⟩ := x
      cases p
      · exact .refl _
      · exact (hb s).bind fun y => by
          obtain ⟨f, s⟩ := y
          cases f with
          | next => exact (ht s).bind fun s => runLoop_le hc hb ht s (by omega)
          | _ => exact .refl _

theorem exec_le (hk : K.Le L) {n m : Nat} (h : n ≤ m) : ∀ b s, Le (exec A K n b s) (exec A L m b s)
  | .skip, s => .refl _
  | .expr e, s => (eval_le hk e s).bind fun _ => .refl _
  | .undef i, s => .refl _
  | .seq a b, s => (exec_le hk h a s).bind fun x => by
      obtain ⟨f, s⟩ := x
      cases f with
      | next => exact exec_le hk h b s
      | _ => exact .refl _
  | .ite c a b, s => (evalCond_le hk c s).bind fun x => by
      obtain ⟨p, s⟩ := x
      cases p
      · exact exec_le hk h b s
      · exact exec_le hk h a s
  | .loop c t b, s => runLoop_le (evalCond_le hk c) (exec_le hk h b) (evalStep_le hk t) s h
  | .brk, s => .refl _
  | .ret e, s => (eval_le hk e s).bind fun _ => .refl _
  | .retVoid, s => .refl _

theorem run_le (hk : K.Le L) {n m : Nat} (h : n ≤ m) (d : FunDef) : (d.run A K n).Le (d.run A L m) := by
  intro hp args
  unfold FunDef.run
  split
  · exact (exec_le hk h _ _).bind fun _ => .refl _
  · exact (exec_le hk h _ _).bind fun _ => .refl _

/-- More steps, and user functions that do more. -/
theorem sem_le {X Y : Ext} {prog : Fn → Option FunDef} (hf : X.fn = Y.fn) :
    ∀ {n m}, n ≤ m → (∀ i j, i < n → i ≤ j → j < m → (∀ f, (sem A X prog i f).Le (sem A Y prog j f)) →
      ∀ k, (X.cb (sem A X prog i) k).Le (Y.cb (sem A Y prog j) k)) →
    ∀ f, (sem A X prog n f).Le (sem A Y prog m f)
  | 0, _, _, _ => fun f h args => .inl rfl
  | n + 1, 0, h, _ => by omega
  | n + 1, m + 1, h, hc => by
    have ih := sem_le hf (n := n) (m := m) (by omega) (fun i j h1 h2 h3 => hc i j (by omega) h2 (by omega))
    intro f
    unfold sem
    cases prog f with
    | none =>
      intro hp args
      cases f <;> first | exact .refl _ | (simp only [hf]; exact .refl _)
    | some d => exact run_le ⟨ih, hc n m (by omega) (by omega) (by omega) ih⟩ (by omega) d

/-- **More steps give the same result.** -/
theorem sem_mono {X : Ext} {prog : Fn → Option FunDef} (hX : X.Monotone) {n m : Nat} (h : n ≤ m) (f : Fn) :
    (sem A X prog n f).Le (sem A X prog m f) :=
  sem_le rfl h (fun _ _ _ _ _ ih => hX _ _ ih) f

/-- The world in which user functions may use `k` steps. -/
def Ext.frozen (X : Ext) (A : Arch) (prog : Fn → Option FunDef) (k : Nat) : Ext := ⟨X.fn, fun _ => X.cb (sem A X prog k)⟩

theorem sem_frozen {X : Ext} {prog : Fn → Option FunDef} (hX : X.Monotone) {n k m : Nat} (h : n ≤ k + 1) (h' : n ≤ m) (f : Fn) :
    (sem A X prog n f).Le (sem A (X.frozen A prog k) prog m f) := by
  refine sem_le (X := X) (Y := X.frozen A prog k) rfl h' (fun i j h1 h2 h3 ih => ?_) f
  exact hX _ _ (fun f => sem_mono hX (by omega) f)

end Mu.CS
