import Verif.Lemmas.SrcBBuf

/-! # Parsing numbers: the parsed source of mu_bbuf.c and the model -/

namespace Mu.CS

open BBuf

variable {A : Arch} {X : Ext}

theorem byte_le (c : UInt8) (n : Nat) : ((c.toNat : Int) ≤ n) = (c.toNat ≤ n) := natCast_le' _ _

/-- `is_decimal`, mu_bbuf.c:611-616. -/
theorem src_is_decimal (n : Nat) (h : Heap) (c : UInt8) :
    sem A X prog (n + 1) .is_decimal__bbuf h [.int c.toNat] = .ok (.ofBool (isDecimal c), h) := by
  rw [sem_succ (d := Src.is_decimal__bbuf) rfl, FunDef.run_regs rfl rfl]
  have e1 : ((48 : Int) ≤ c.toNat) = (48 ≤ c.toNat) := by apply propext; omega
  have e2 : ((c.toNat : Int) ≤ 57) = (c.toNat ≤ 57) := by apply propext; omega
  by_cases h1 : 48 ≤ c.toNat
  · by_cases h2 : c.toNat ≤ 57 <;>
      simp [csrc, Src.is_decimal__bbuf, isDecimal, e1, e2, h1, h2]
  · simp [csrc, Src.is_decimal__bbuf, isDecimal, e1, h1]

theorem isDecimal_range {c : UInt8} (h : isDecimal c = true) : 48 ≤ c.toNat ∧ c.toNat ≤ 57 := by
  simpa [isDecimal] using h

/-! ## The two families -/

/-- `v = (v * 10) + (*buf++ - '0')`, computed in the type `T`. -/
def digitExpr (T : ITy) : Expr :=
  .bin (.arith .add T) (.bin (.arith .mul T) (.var 3) (.num 10))
    (.bin (.arith .sub .int) (.load (.updv 1 (.padd 1) none true (.num 1))) (.num 48))

/-- The loop of the parsers; `w` is the conversion to the type of `v`. -/
def parseTree (T : ITy) (w : Expr → Expr) : Stmt :=
  .loop (.land (.bin (.cmp .gt .int) (.updv 2 (.arith .sub .int) (some .int) true (.num 1)) (.num 0))
    (.call .is_decimal__bbuf [.load (.var 1)])) none (.expr (.setv 3 (w (digitExpr T))))

/-- What a conversion does. -/
def Converts (A : Arch) (K : Calls) (w : Expr → Expr) (cv : Int → Int) : Prop :=
  ∀ e s n s', eval A K e s = .ok (.int n, s') → eval A K (w e) s = .ok (.int (cv n), s')

theorem converts_id (K : Calls) : Converts A K id id := fun _ _ _ _ h => h
theorem converts_cast (K : Calls) (t : ITy) : Converts A K (.cast t) ((A.it t).conv) := by
  intro e s n s' h
  simp [csrc, h]

/-- One digit, as the source computes it. -/
def digitStep (A : Arch) (T : ITy) (cv : Int → Int) (v : Int) (c : UInt8) : C Int := do
  let x ← AOp.run (A.it T) .mul ((A.it T).conv v) ((A.it T).conv 10)
  let y ← AOp.run (A.it T) .add ((A.it T).conv x) ((A.it T).conv ((c.toNat : Int) - 48))
  .ok (cv y)

theorem eval_digit {K : Calls} {T : ITy} {w : Expr → Expr} {cv : Int → Int} (hw : Converts A K w cv)
    {β : Place} {h : Heap} {m : Mem} (r : MB β h m) {p : Ptr} {i v v' : Int} {c : UInt8}
    (ec : m.ld p i = .ok c) (x0 x2 : CVal) (tl : List CVal)
    (es : digitStep A T cv v c = .ok v') :
    eval A K (w (digitExpr T)) ⟨x0 :: pv β (plus p i) :: x2 :: .int v :: tl, h⟩ =
      .ok (.int v', ⟨x0 :: pv β (plus p (i + 1)) :: x2 :: .int v :: tl, h⟩) := by
  unfold digitStep at es
  obtain ⟨x, ex, es⟩ := C.bind_eq_ok es
  obtain ⟨y, ey, es⟩ := C.bind_eq_ok es
  cases es
  apply hw
  have hb : A.int ((c.toNat : Int) - 48) = .ok ((c.toNat : Int) - 48) := by
    have := c.toNat_lt
    exact int_small (by omega) (by omega)
  simp [csrc, digitExpr, ex, r.load ec, r.padd_succ ec, hb, ey]

/-- The loop of the models, for any digit step. -/
def parseLoop (P : Plat) (m : Mem) (p : Ptr) (step : Int → UInt8 → C Int) :
    Nat → Int → Int → Int → C Int
  | 0, _, _, _ => .error .diverge
  | fuel + 1, len, i, v => do
    let len' ← P.int (len - 1)
    if len > 0 then do
      let b ← m.ld p i
      if isDecimal b then do
        let v ← step v b
        parseLoop P m p step fuel len' (i + 1) v
      else .ok v
    else .ok v

theorem src_parse_loop (K N : Nat) {T : ITy} {w : Expr → Expr} {cv : Int → Int}
    (hw : Converts A ⟨sem A X prog (K + 1), X.cb (sem A X prog (K + 1))⟩ w cv)
    {β : Place} {h : Heap} {m : Mem} (r : MB β h m) {p : Ptr} {step : Int → UInt8 → C Int}
    (Ok : Int → Prop)
    (hstep : ∀ v c v', Ok v → isDecimal c = true → step v c = .ok v' →
      digitStep A T cv v c = .ok v' ∧ Ok v')
    (x0 : CVal) (tl : List CVal) :
    ∀ (fuel n : Nat) (len i v v' : Int), fuel ≤ n → A.InInt len → Ok v →
      parseLoop A.toPlat m p step fuel len i v = .ok v' →
      Ok v' ∧ ∃ x1 x2, Stmt.rounds A ⟨sem A X prog (K + 1), X.cb (sem A X prog (K + 1))⟩ N
        (parseTree T w) n ⟨x0 :: pv β (plus p i) :: .int len :: .int v :: tl, h⟩ =
        .ok (.next, ⟨x0 :: x1 :: x2 :: .int v' :: tl, h⟩) := by
  intro fuel
  induction fuel with
  | zero => intro n len i v v' _ _ _ e; cases e
  | succ fuel ih =>
    intro n len i v v' hn hl hv e
    obtain ⟨n, rfl⟩ : ∃ n', n = n' + 1 := ⟨n - 1, by omega⟩
    have hdec := src_is_decimal (A := A) (X := X) K h
    generalize hK : (⟨sem A X prog (K + 1), X.cb (sem A X prog (K + 1))⟩ : Calls) = KK at *
    have hdec' : ∀ c : UInt8, KK.fn .is_decimal__bbuf h [.int c.toNat] = .ok (.ofBool (isDecimal c), h) := by
      rw [← hK]; exact hdec
    unfold parseLoop at e
    obtain ⟨len', el, e⟩ := C.bind_eq_ok e
    have hl' := inInt_of_int el
    obtain ⟨rfl, -⟩ := int_eq_ok el
    split at e
    · rename_i hpos
      obtain ⟨c, ec, e⟩ := C.bind_eq_ok e
      have hcond : evalCond A KK (parseTree T w).cond ⟨x0 :: pv β (plus p i) :: .int len :: .int v :: tl, h⟩ =
          .ok (isDecimal c, ⟨x0 :: pv β (plus p i) :: .int (len - 1) :: .int v :: tl, h⟩) := by
        simp [csrc, parseTree, Stmt.cond, conv_int hl, el, conv_int hl', hpos, r.load ec, hdec']
      split at e
      · rename_i hd
        obtain ⟨v2, ev, e⟩ := C.bind_eq_ok e
        obtain ⟨es, hv2⟩ := hstep v c v2 hv hd ev
        rw [hd] at hcond
        have hb : exec A KK N (parseTree T w).body
            ⟨x0 :: pv β (plus p i) :: .int (len - 1) :: .int v :: tl, h⟩ =
            .ok (.next, ⟨x0 :: pv β (plus p (i + 1)) :: .int (len - 1) :: .int v2 :: tl, h⟩) := by
          simp [csrc, parseTree, Stmt.body, eval_digit hw r ec x0 (.int (len - 1)) tl es]
        rw [Stmt.rounds_next (t := ⟨x0 :: pv β (plus p (i + 1)) :: .int (len - 1) :: .int v2 :: tl, h⟩)
          hcond hb rfl]
        exact ih n (len - 1) (i + 1) v2 v' (by omega) hl' hv2 e
      · rename_i hd
        cases e
        have hd' : isDecimal c = false := by simpa using hd
        rw [hd'] at hcond
        exact ⟨hv, _, _, Stmt.rounds_exit hcond⟩
    · rename_i hpos
      cases e
      have hcond : evalCond A KK (parseTree T w).cond ⟨x0 :: pv β (plus p i) :: .int len :: .int v :: tl, h⟩ =
          .ok (false, ⟨x0 :: pv β (plus p i) :: .int (len - 1) :: .int v :: tl, h⟩) := by
        simp [csrc, parseTree, Stmt.cond, conv_int hl, el, conv_int hl', hpos]
      exact ⟨hv, _, _, Stmt.rounds_exit hcond⟩

theorem uintLoop_eq (P : Plat) (N : Nat) (m : Mem) (p : Ptr) :
    ∀ (fuel : Nat) (len i : Int) (v v' : Nat), uintLoop P N m p fuel len i v = .ok v' →
    parseLoop P m p (fun v c => (uintStep P N v.toNat c).map (fun n : Nat => (n : Int))) fuel len i v =
      .ok (v' : Int) := by
  intro fuel
  induction fuel with
  | zero => intro len i v v' e; cases e
  | succ fuel ih =>
    intro len i v v' e
    unfold uintLoop at e
    unfold parseLoop
    obtain ⟨len', el, e⟩ := C.bind_eq_ok e
    rw [el, C.ok_bind]
    split at e
    · rename_i hp
      rw [if_pos hp]
      obtain ⟨c, ec, e⟩ := C.bind_eq_ok e
      rw [ec, C.ok_bind]
      split at e
      · rename_i hd
        rw [if_pos hd]
        obtain ⟨v2, ev, e⟩ := C.bind_eq_ok e
        rw [Int.toNat_natCast, ev]
        exact ih _ _ _ _ e
      · rename_i hd
        rw [if_neg hd]; cases e; rfl
    · rename_i hp
      rw [if_neg hp]; cases e; rfl

theorem sintLoop_eq (P : Plat) (N : Nat) (m : Mem) (p : Ptr) :
    ∀ (fuel : Nat) (len i v : Int), sintLoop P N m p fuel len i v =
      parseLoop P m p (sintStep P N) fuel len i v := by
  intro fuel
  induction fuel with
  | zero => intro len i v; rfl
  | succ fuel ih =>
    intro len i v
    unfold sintLoop parseLoop
    simp only [ih]

/-! ## Arithmetic in the types of the parsers -/

theorem it_common_unsigned {t : ITy} {N : Nat} (ht : A.it t = ⟨N, false⟩) :
    A.it (.common t .int) = if N < A.ib then ⟨A.ib, true⟩ else ⟨N, false⟩ := by
  have hp : A.promote ⟨A.ib, true⟩ = ⟨A.ib, true⟩ := by simp [Arch.promote]
  simp only [Arch.it, ht, hp]
  by_cases hN : N < A.ib
  · simp [Arch.promote, hN]
  · simp [Arch.promote, hN]
    intro h
    omega

theorem it_common_signed {t : ITy} {N : Nat} (ht : A.it t = ⟨N, true⟩) :
    A.it (.common t .int) = if N ≤ A.ib then ⟨A.ib, true⟩ else ⟨N, true⟩ := by
  have hp : A.promote ⟨A.ib, true⟩ = ⟨A.ib, true⟩ := by simp [Arch.promote]
  simp only [Arch.it, ht, hp]
  by_cases hN : N ≤ A.ib
  · have : N < A.ib ∨ N = A.ib := by omega
    simp [Arch.promote, hN, this]
  · have h1 : ¬ (N < A.ib ∨ N = A.ib) := by omega
    simp [Arch.promote, hN, h1]

/-- Unsigned types. -/
theorem digit_unsigned {T : ITy} {N : Nat} {cv : Int → Int} (h8 : 8 ≤ N)
    (hT : A.it T = if N < A.ib then ⟨A.ib, true⟩ else ⟨N, false⟩)
    (hcv : ∀ n, N < A.ib → cv n = n % 2 ^ N)
    (hcv2 : ∀ n, A.ib ≤ N → cv (n % 2 ^ N) = n % 2 ^ N)
    (v : Nat) (c : UInt8) (v' : Nat) (hv : v < 2 ^ N) (hc : isDecimal c = true)
    (e : uintStep A.toPlat N v c = .ok v') :
    digitStep A T cv v c = .ok (v' : Int) ∧ v' < 2 ^ N := by
  obtain ⟨c1, c2⟩ := isDecimal_range hc
  have hpow : (0 : Int) < 2 ^ N := Int.pow_pos (by decide)
  have hpn : ((2 ^ N : Nat) : Int) = 2 ^ N := by rw [Int.natCast_pow]; rfl
  unfold digitStep
  rw [hT]
  unfold uintStep at e
  split at e
  · rename_i hlt
    rw [if_pos hlt]
    obtain ⟨x, ex, e⟩ := C.bind_eq_ok e
    obtain ⟨y, ey, e⟩ := C.bind_eq_ok e
    cases e
    have hvI : A.InInt v := by
      have h1 := A.intMax_ge
      have h2 := A.intMin_eq
      have : (2 : Nat) ^ N ≤ 2 ^ (A.ib - 1) := Nat.pow_le_pow_right (by decide) (by omega)
      have h3 : A.intMax = 2 ^ (A.ib - 1) - 1 := rfl
      have h4 : ((2 ^ (A.ib - 1) : Nat) : Int) = 2 ^ (A.ib - 1) := by rw [Int.natCast_pow]; rfl
      constructor <;> omega
    have hx := inInt_of_int ex
    rw [conv_int hvI, conv_int_small (by decide) (by decide), mul_int, ex, C.ok_bind, conv_int hx,
      conv_int_small (by omega) (by omega), add_int, ey, C.ok_bind, hcv _ hlt]
    have h0 := Int.emod_nonneg y (Int.ne_of_gt hpow)
    have h1 := Int.emod_lt_of_pos y hpow
    exact ⟨by rw [Int.toNat_of_nonneg h0], by omega⟩
  · rename_i hlt
    rw [if_neg hlt]
    cases e
    have hbig : (256 : Int) ≤ 2 ^ N := by
      have : (2 : Nat) ^ 8 ≤ 2 ^ N := Nat.pow_le_pow_right (by decide) h8
      omega
    simp only [AOp.run, IT.arith, IT.conv, Bool.false_eq_true, if_false, C.ok_bind]
    rw [Int.emod_eq_of_lt (a := (v : Int)) (by omega) (by omega),
      Int.emod_eq_of_lt (a := (10 : Int)) (by omega) (by omega),
      Int.emod_eq_of_lt (a := (c.toNat : Int) - 48) (by omega) (by omega), Int.emod_emod,
      hcv2 _ (by omega)]
    have h0 := Int.emod_nonneg (((v : Int) * 10) % 2 ^ N + ((c.toNat : Int) - 48)) (Int.ne_of_gt hpow)
    have h1 := Int.emod_lt_of_pos (((v : Int) * 10) % 2 ^ N + ((c.toNat : Int) - 48)) hpow
    exact ⟨by rw [Int.toNat_of_nonneg h0], by omega⟩

/-- Representable in a signed type of `N` bits. -/
def InN (N : Nat) (v : Int) : Prop := -(2 ^ (N - 1)) ≤ v ∧ v ≤ 2 ^ (N - 1) - 1

theorem conv_inN {N : Nat} (h1 : 1 ≤ N) {v : Int} (hv : InN N v) : IT.conv ⟨N, true⟩ v = v := by
  rw [IT.conv_signed]
  obtain ⟨h2, h3⟩ := hv
  have hp : (2 : Int) ^ N = 2 * 2 ^ (N - 1) := by
    obtain ⟨k, rfl⟩ : ∃ k, N = k + 1 := ⟨N - 1, by omega⟩
    rw [Nat.add_sub_cancel, Int.pow_succ]; omega
  have hn : ((2 ^ N : Nat) : Int) = 2 ^ N := by rw [Int.natCast_pow]; rfl
  apply Int.bmod_eq_of_le_mul_two <;> omega

theorem inN_narrow {N : Nat} (h1 : 1 ≤ N) (v : Int) : InN N (narrow N v) := by
  have hp : (2 : Int) ^ N = 2 * 2 ^ (N - 1) := by
    obtain ⟨k, rfl⟩ : ∃ k, N = k + 1 := ⟨N - 1, by omega⟩
    rw [Nat.add_sub_cancel, Int.pow_succ]; omega
  have hn : ((2 ^ N : Nat) : Int) = 2 ^ N := by rw [Int.natCast_pow]; rfl
  have hpos : (0 : Int) < 2 ^ (N - 1) := Int.pow_pos (by decide)
  have h2 := @Int.le_bmod v (2 ^ N) (Nat.pow_pos (by decide))
  have h3 := @Int.bmod_lt v (2 ^ N) (Nat.pow_pos (by decide))
  unfold narrow InN
  constructor <;> omega

theorem intN_ok {N : Nat} {x y : Int} (h : intN N x = .ok y) : y = x ∧ InN N y := by
  unfold intN at h
  split at h
  · rename_i hc; cases h; exact ⟨rfl, hc⟩
  · cases h

theorem inN_ib {x : Int} : InN A.ib x ↔ A.InInt x := Iff.rfl

theorem inN_mono {M N : Nat} (h : M ≤ N) {x : Int} (hx : InN M x) : InN N x := by
  have : (2 : Nat) ^ (M - 1) ≤ 2 ^ (N - 1) := Nat.pow_le_pow_right (by decide) (by omega)
  have e1 : ((2 ^ (M - 1) : Nat) : Int) = 2 ^ (M - 1) := by rw [Int.natCast_pow]; rfl
  have e2 : ((2 ^ (N - 1) : Nat) : Int) = 2 ^ (N - 1) := by rw [Int.natCast_pow]; rfl
  obtain ⟨h1, h2⟩ := hx
  constructor <;> omega

theorem arith_intN (N : Nat) (x : Int) : IT.arith ⟨N, true⟩ x = intN N x := rfl

/-- Signed types. -/
theorem digit_signed {T : ITy} {N : Nat} {cv : Int → Int} (h8 : 8 ≤ N)
    (hT : A.it T = if N ≤ A.ib then ⟨A.ib, true⟩ else ⟨N, true⟩)
    (hcv : ∀ n, N < A.ib → cv n = narrow N n)
    (hcv2 : ∀ n, InN N n → cv n = n)
    (v : Int) (c : UInt8) (v' : Int) (hv : InN N v) (hc : isDecimal c = true)
    (e : sintStep A.toPlat N v c = .ok v') :
    digitStep A T cv v c = .ok v' ∧ InN N v' := by
  obtain ⟨c1, c2⟩ := isDecimal_range hc
  unfold digitStep
  have hsmall : ∀ x : Int, -128 ≤ x → x ≤ 127 → InN N x := by
    intro x h1 h2
    exact inN_mono h8 ⟨by omega, by omega⟩
  rw [hT]
  unfold sintStep at e
  split at e
  · rename_i hlt
    rw [if_pos (by omega)]
    obtain ⟨x, ex, e⟩ := C.bind_eq_ok e
    obtain ⟨y, ey, e⟩ := C.bind_eq_ok e
    cases e
    have hvI : A.InInt v := inN_mono (by omega) hv
    have hx := inInt_of_int ex
    rw [conv_int hvI, conv_int_small (by decide) (by decide), mul_int, ex, C.ok_bind, conv_int hx,
      conv_int_small (by omega) (by omega), add_int, ey, C.ok_bind, hcv _ hlt]
    exact ⟨rfl, inN_narrow (by omega) y⟩
  · rename_i hlt
    obtain ⟨x, ex, e⟩ := C.bind_eq_ok e
    have hT2 : (if N ≤ A.ib then (⟨A.ib, true⟩ : IT) else ⟨N, true⟩) = ⟨N, true⟩ := by
      split
      · rw [show A.ib = N by omega]
      · rfl
    rw [hT2]
    obtain ⟨-, hx⟩ := intN_ok ex
    obtain ⟨-, hy⟩ := intN_ok e
    rw [conv_inN (by omega) hv, conv_inN (by omega) (hsmall 10 (by decide) (by decide))]
    simp only [AOp.run, arith_intN]
    rw [ex, C.ok_bind, conv_inN (by omega) hx, conv_inN (by omega) (hsmall _ (by omega) (by omega)), e,
      C.ok_bind, hcv2 _ hy]
    exact ⟨rfl, hy⟩

/-! ## The functions -/

/-- The body of DEFINE_UINT_PARSER, mu_bbuf.c:300-310. -/
def uintBody (loop : Stmt) : Stmt :=
  .seq (.expr (.setv 1 (.call .mu_bbuf_bytes_ro [.var 0])))
    (.seq (.expr (.setv 2 (.cast .int (.call .mu_bbuf_capacity [.var 0]))))
      (.seq (.expr (.setv 3 (.num 0))) (.seq loop (.ret (.var 3)))))

theorem src_parse_uint (n : Nat) {f : Fn} {d : FunDef} {T : ITy} {w : Expr → Expr} {cv : Int → Int}
    {N : Nat} (hd : prog f = some d) (hdb : d = ⟨1, 3, [], none, uintBody (parseTree T w)⟩)
    (hw : ∀ K, Converts A K w cv) (h8 : 8 ≤ N)
    (hT : A.it T = if N < A.ib then ⟨A.ib, true⟩ else ⟨N, false⟩)
    (hcv : ∀ n, N < A.ib → cv n = n % 2 ^ N)
    (hcv2 : ∀ n, A.ib ≤ N → cv (n % 2 ^ N) = n % 2 ^ N)
    {β : Place} {h : Heap} {m : Mem} {b : Base} {o : Int} {B : BBuf} {v : Nat}
    (r : MB β h m) (rb : BRep A β h b o B) (hn : (A.toInt B.cap).toNat + 1 ≤ n)
    (e : parseUint A.toPlat N m B = .ok v) :
    sem A X prog (n + 1) f h [.ptr b o] = .ok (.int v, h) := by
  obtain ⟨K, rfl⟩ : ∃ K, n = K + 1 := ⟨n - 1, by omega⟩
  have t1 := src_bytes_ro (A := A) (X := X) K rb
  have t2 := src_capacity (A := A) (X := X) K rb
  have e' := uintLoop_eq _ _ _ _ _ _ _ _ _ e
  have hstep : ∀ (v : Int) (c : UInt8) (v' : Int), (∃ k : Nat, v = k ∧ k < 2 ^ N) → isDecimal c = true →
      (uintStep A.toPlat N v.toNat c).map (fun n : Nat => (n : Int)) = .ok v' →
      digitStep A T cv v c = .ok v' ∧ ∃ k : Nat, v' = k ∧ k < 2 ^ N := by
    rintro v c v' ⟨k, rfl, hk⟩ hc es
    cases hu : uintStep A.toPlat N k c with
    | error x => simp [hu, Except.map] at es
    | ok k' =>
      simp [hu, Except.map] at es
      subst es
      obtain ⟨h1, h2⟩ := digit_unsigned h8 hT hcv hcv2 k c k' hk hc hu
      exact ⟨h1, k', rfl, h2⟩
  obtain ⟨-, x1, x2, hs⟩ := src_parse_loop (A := A) (X := X) K (K + 1) (hw _) r
    (fun x => ∃ k : Nat, x = k ∧ k < 2 ^ N) hstep
    (.ptr b o) [] _ (K + 1) _ 0 _ _ hn (inInt_toInt B.cap) ⟨0, rfl, Nat.pow_pos (by decide)⟩ e'
  rw [plus_zero] at hs
  rw [sem_succ hd, hdb, FunDef.run_regs rfl rfl]
  generalize hK : (⟨sem A X prog (K + 1), X.cb (sem A X prog (K + 1))⟩ : Calls) = KK at *
  have t1' : KK.fn .mu_bbuf_bytes_ro h [.ptr b o] = .ok (pv β B.p, h) := by rw [← hK]; exact t1
  have t2' : KK.fn .mu_bbuf_capacity h [.ptr b o] = .ok (.int B.cap, h) := by rw [← hK]; exact t2
  have hs' : exec A KK (K + 1) (parseTree T w) _ = _ := hs
  simp only [Int.natCast_zero] at hs'
  generalize parseTree T w = tree at hs'
  simp [csrc, uintBody, t1', t2', conv_int_nat B.cap, hs']

/-- The body of DEFINE_INT_PARSER, mu_bbuf.c:282-298. -/
def sintBody (loop : Stmt) (ret : Expr) : Stmt :=
  .seq (.expr (.setv 1 (.call .mu_bbuf_bytes_ro [.var 0])))
    (.seq (.expr (.setv 2 (.cast .int (.call .mu_bbuf_capacity [.var 0]))))
      (.seq (.expr (.setv 3 (.num 0)))
        (.seq (.expr (.setv 4 (.tobool (.num 0))))
          (.seq
            (.ite (.land (.bin (.cmp .ge .int) (.var 2) (.num 1)) (.bin (.cmp .eq .int) (.load (.var 1)) (.num 45)))
              (.seq (.expr (.updv 2 (.arith .sub .int) (some .int) false (.num 1)))
                (.seq (.expr (.updv 1 (.padd 1) none true (.num 1)))
                  (.expr (.setv 4 (.tobool (.num 1))))))
              .skip)
            (.seq loop (.ret ret))))))

theorem src_parse_sint (n : Nat) {f : Fn} {d : FunDef} {T : ITy} {w w2 w3 : Expr → Expr} {cv : Int → Int}
    {N : Nat} (hd : prog f = some d)
    (hdb : d = ⟨1, 4, [], none, sintBody (parseTree T w) (w2 (.cond (.var 4) (.neg T (.var 3)) (w3 (.var 3))))⟩)
    (hw : ∀ K, Converts A K w cv) (hw2 : ∀ K, Converts A K w2 cv)
    (hw3 : (∀ K, Converts A K w3 (A.it T).conv) ∨ w3 = id) (h8 : 8 ≤ N)
    (hT : A.it T = if N ≤ A.ib then ⟨A.ib, true⟩ else ⟨N, true⟩)
    (hcv : ∀ n, N < A.ib → cv n = narrow N n)
    (hcv2 : ∀ n, InN N n → cv n = n)
    {β : Place} {h : Heap} {m : Mem} {b : Base} {o : Int} {B : BBuf} {v : Int}
    (r : MB β h m) (rb : BRep A β h b o B) (hn : (A.toInt B.cap).toNat + 1 ≤ n)
    (e : parseInt A.toPlat N m B = .ok v) :
    sem A X prog (n + 1) f h [.ptr b o] = .ok (.int v, h) := by
  obtain ⟨K, rfl⟩ : ∃ K, n = K + 1 := ⟨n - 1, by omega⟩
  have t1 := src_bytes_ro (A := A) (X := X) K rb
  have t2 := src_capacity (A := A) (X := X) K rb
  have hl := inInt_toInt (A := A) B.cap
  have hTN : ∀ x, InN N x → (A.it T).conv x = x := by
    intro x hx
    rw [hT]
    split
    · exact conv_int (inN_mono (by omega) hx)
    · exact conv_inN (by omega) hx
  have h0N : InN N 0 := inN_mono h8 ⟨by decide, by decide⟩
  obtain ⟨neg, en, e⟩ : ∃ neg : Bool, (if 1 ≤ A.toInt B.cap then (do
        let x ← m.ld B.p 0
        .ok (decide (x.toNat = 45)) : C Bool) else .ok false) = .ok neg ∧
      (sintLoop A.toPlat N m B.p ((if neg = true then A.toInt B.cap - 1 else A.toInt B.cap).toNat + 1)
        (if neg = true then A.toInt B.cap - 1 else A.toInt B.cap) (if neg = true then 1 else 0) 0 >>=
        fun v => sintRet A.toPlat N neg v) = .ok v := by
    unfold parseInt at e
    dsimp only at e
    split at e
    · rename_i hge
      obtain ⟨x, ex, e⟩ := C.bind_eq_ok e
      refine ⟨decide (x.toNat = 45), ?_, e⟩
      rw [if_pos hge, ex]; rfl
    · rename_i hge
      exact ⟨false, by rw [if_neg hge], e⟩
  obtain ⟨v1, ev, er⟩ := C.bind_eq_ok e
  rw [sintLoop_eq] at ev
  have hneg : neg = true → 1 ≤ A.toInt B.cap ∧ ∃ c, m.ld B.p 0 = .ok c ∧ (c.toNat : Int) = 45 := by
    intro hn
    subst hn
    split at en
    · rename_i hge
      obtain ⟨c, ec, en⟩ := C.bind_eq_ok en
      simp only [Except.ok.injEq, decide_eq_true_eq] at en
      exact ⟨hge, c, ec, by omega⟩
    · simp at en
  have hlen' : A.InInt (if neg = true then A.toInt B.cap - 1 else A.toInt B.cap) := by
    split
    · rename_i hn
      have := (hneg hn).1
      have := hl.2; have := A.intMin_eq
      exact ⟨by omega, by omega⟩
    · exact hl
  obtain ⟨hv1, x1, x2, hs⟩ := src_parse_loop (A := A) (X := X) K (K + 1) (hw _) r
    (fun x => InN N x) (fun v c v' hv hc es => digit_signed h8 hT hcv hcv2 v c v' hv hc es)
    (.ptr b o) [.ofBool neg] _ (K + 1) _ _ _ _ (by split <;> omega) hlen' h0N ev
  rw [sem_succ hd, hdb, FunDef.run_regs rfl rfl]
  replace hw2 := hw2 ⟨sem A X prog (K + 1), X.cb (sem A X prog (K + 1))⟩
  replace hw3 : Converts A ⟨sem A X prog (K + 1), X.cb (sem A X prog (K + 1))⟩ w3 (A.it T).conv ∨ w3 = id :=
    hw3.imp (fun hc => hc _) id
  generalize hK : (⟨sem A X prog (K + 1), X.cb (sem A X prog (K + 1))⟩ : Calls) = KK at *
  have t1' : KK.fn .mu_bbuf_bytes_ro h [.ptr b o] = .ok (pv β B.p, h) := by rw [← hK]; exact t1
  have t2' : KK.fn .mu_bbuf_capacity h [.ptr b o] = .ok (.int B.cap, h) := by rw [← hK]; exact t2
  -- the value returned
  have hret : eval A KK (w2 (.cond (.var 4) (.neg T (.var 3)) (w3 (.var 3))))
      ⟨[.ptr b o, x1, x2, .int v1, .ofBool neg], h⟩ =
      .ok (.int v, ⟨[.ptr b o, x1, x2, .int v1, .ofBool neg], h⟩) := by
    have hx3 : eval A KK (w3 (.var 3)) ⟨[.ptr b o, x1, x2, .int v1, .ofBool neg], h⟩ =
        .ok (.int v1, ⟨[.ptr b o, x1, x2, .int v1, .ofBool neg], h⟩) := by
      rcases hw3 with hw3 | rfl
      · rw [hw3 (.var 3) _ v1 ⟨[.ptr b o, x1, x2, .int v1, .ofBool neg], h⟩ (by simp [csrc]), hTN _ hv1]
      · simp [csrc]
    unfold sintRet at er
    cases neg with
    | false =>
      simp only [Bool.false_eq_true, if_false] at er
      cases er
      rw [hw2 _ _ v ⟨[.ptr b o, x1, x2, .int v, .ofBool false], h⟩ (by simp [csrc, hx3]), hcv2 _ hv1]
    | true =>
      simp only [if_true] at er
      have key : ∃ y, (A.it T).arith (-v1) = .ok y ∧ cv y = v := by
        rw [hT]
        split at er
        · rename_i hlt
          rw [if_pos (by omega)]
          obtain ⟨y, ey, er⟩ := C.bind_eq_ok er
          cases er
          exact ⟨y, ey, hcv _ hlt⟩
        · rename_i hlt
          have hT2 : (if N ≤ A.ib then (⟨A.ib, true⟩ : IT) else ⟨N, true⟩) = ⟨N, true⟩ := by
            split
            · rw [show A.ib = N by omega]
            · rfl
          rw [hT2]
          obtain ⟨rfl, hv⟩ := intN_ok er
          exact ⟨_, er, hcv2 _ hv⟩
      obtain ⟨y, ey, hy⟩ := key
      rw [hw2 _ _ y ⟨[.ptr b o, x1, x2, .int v1, .ofBool true], h⟩ (by simp [csrc, hTN _ hv1, ey]), hy]
  generalize (w2 (.cond (.var 4) (.neg T (.var 3)) (w3 (.var 3)))) = rete at hret
  have hs' : exec A KK (K + 1) (parseTree T w) _ = _ := hs
  generalize parseTree T w = tree at hs'
  cases neg with
  | false =>
    simp only [Bool.false_eq_true, if_false, plus_zero] at hs'
    by_cases hge : 1 ≤ A.toInt B.cap
    · rw [if_pos hge] at en
      obtain ⟨c, ec, en⟩ := C.bind_eq_ok en
      simp only [Except.ok.injEq, decide_eq_false_iff_not] at en
      have hl0 := r.load ec
      rw [plus_zero] at hl0
      have hc45 : ((c.toNat : Int) = 45) = False := eq_false (by omega)
      have hs2 : exec A KK (K + 1) tree ⟨[.ptr b o, pv β B.p, .int (A.toInt B.cap), .int 0, .ofBool false], h⟩ = _ := hs'
      simp [csrc, sintBody, t1', t2', conv_int_nat B.cap, hge, hl0, hc45, hs2, hret]
    · have hs2 : exec A KK (K + 1) tree ⟨[.ptr b o, pv β B.p, .int (A.toInt B.cap), .int 0, .ofBool false], h⟩ = _ := hs'
      simp [csrc, sintBody, t1', t2', conv_int_nat B.cap, hge, hs2, hret]
  | true =>
    obtain ⟨hge, c, ec, hc⟩ := hneg rfl
    have hl0 := r.load ec
    have hp0 := r.padd_succ ec
    rw [plus_zero] at hl0 hp0
    simp only [if_true] at hs' hlen'
    have hsub : A.int (A.toInt B.cap - 1) = .ok (A.toInt B.cap - 1) := Plat.int_ok hlen'.1 hlen'.2
    have hs2 : exec A KK (K + 1) tree ⟨[.ptr b o, pv β (plus B.p 1), .int (A.toInt B.cap - 1), .int 0, .ofBool true], h⟩ = _ := hs'
    simp [csrc, sintBody, t1', t2', conv_int_nat B.cap, hge, hl0, hc, hp0, hsub, conv_int hlen', hs2, hret]

/-! ### The ten parsers -/

section
variable (n : Nat) {β : Place} {h : Heap} {m : Mem} {b : Base} {o : Int} {B : BBuf}
  (r : MB β h m) (rb : BRep A β h b o B) (hn : (A.toInt B.cap).toNat + 1 ≤ n)
include r rb hn

theorem src_parse_uint8 {v : Nat} (e : parseUint A.toPlat 8 m B = .ok v) :
    sem A X prog (n + 1) .mu_bbuf_parse_uint8 h [.ptr b o] = .ok (.int v, h) :=
  src_parse_uint n (N := 8) (T := .int) (w := .cast .u8) (d := Src.mu_bbuf_parse_uint8) rfl rfl
    (fun K => converts_cast K .u8) (by decide) (by rw [if_pos (Nat.lt_of_lt_of_le (by decide) A.hib)]; rfl)
    (fun n _ => rfl) (fun n hle => absurd (Nat.le_trans A.hib hle) (by decide)) r rb hn e

theorem src_parse_uint16 {v : Nat} (e : parseUint A.toPlat 16 m B = .ok v) :
    sem A X prog (n + 1) .mu_bbuf_parse_uint16 h [.ptr b o] = .ok (.int v, h) :=
  src_parse_uint n (N := 16) (T := .common .u16 .int) (w := .cast .u16) (d := Src.mu_bbuf_parse_uint16) rfl rfl
    (fun K => converts_cast K .u16) (by decide) (it_common_unsigned rfl)
    (fun n _ => rfl) (fun n _ => Int.emod_emod n _) r rb hn e

theorem src_parse_uint32 {v : Nat} (e : parseUint A.toPlat 32 m B = .ok v) :
    sem A X prog (n + 1) .mu_bbuf_parse_uint32 h [.ptr b o] = .ok (.int v, h) :=
  src_parse_uint n (N := 32) (T := .common .u32 .int) (w := .cast .u32) (d := Src.mu_bbuf_parse_uint32) rfl rfl
    (fun K => converts_cast K .u32) (by decide) (it_common_unsigned rfl)
    (fun n _ => rfl) (fun n _ => Int.emod_emod n _) r rb hn e

theorem src_parse_uint64 {v : Nat} (e : parseUint A.toPlat 64 m B = .ok v) :
    sem A X prog (n + 1) .mu_bbuf_parse_uint64 h [.ptr b o] = .ok (.int v, h) :=
  src_parse_uint n (N := 64) (T := .common .u64 .int) (w := .cast .u64) (d := Src.mu_bbuf_parse_uint64) rfl rfl
    (fun K => converts_cast K .u64) (by decide) (it_common_unsigned rfl)
    (fun n _ => rfl) (fun n _ => Int.emod_emod n _) r rb hn e

theorem src_parse_unsigned_int {v : Nat} (e : parseUint A.toPlat A.ib m B = .ok v) :
    sem A X prog (n + 1) .mu_bbuf_parse_unsigned_int h [.ptr b o] = .ok (.int v, h) :=
  src_parse_uint n (N := A.ib) (T := .uint) (w := id) (d := Src.mu_bbuf_parse_unsigned_int) rfl rfl
    (fun K => converts_id K) (Nat.le_trans (by decide) A.hib) (by rw [if_neg (Nat.lt_irrefl _)]; rfl)
    (fun n hlt => absurd hlt (Nat.lt_irrefl _)) (fun n _ => rfl) r rb hn e

theorem src_parse_int8 {v : Int} (e : parseInt A.toPlat 8 m B = .ok v) :
    sem A X prog (n + 1) .mu_bbuf_parse_int8 h [.ptr b o] = .ok (.int v, h) :=
  src_parse_sint n (N := 8) (T := .int) (w := .cast .i8) (w2 := .cast .i8) (w3 := .cast .int)
    (d := Src.mu_bbuf_parse_int8) rfl rfl
    (fun K => converts_cast K .i8) (fun K => converts_cast K .i8) (.inl fun K => converts_cast K .int)
    (by decide) (by rw [if_pos (Nat.le_trans (by decide) A.hib)]; rfl)
    (fun n _ => rfl) (fun n hn => conv_inN (by decide) hn) r rb hn e

theorem src_parse_int16 {v : Int} (e : parseInt A.toPlat 16 m B = .ok v) :
    sem A X prog (n + 1) .mu_bbuf_parse_int16 h [.ptr b o] = .ok (.int v, h) :=
  src_parse_sint n (N := 16) (T := .int) (w := .cast .i16) (w2 := .cast .i16) (w3 := .cast .int)
    (d := Src.mu_bbuf_parse_int16) rfl rfl
    (fun K => converts_cast K .i16) (fun K => converts_cast K .i16) (.inl fun K => converts_cast K .int)
    (by decide) (by rw [if_pos A.hib]; rfl)
    (fun n _ => rfl) (fun n hn => conv_inN (by decide) hn) r rb hn e

theorem src_parse_int32 {v : Int} (e : parseInt A.toPlat 32 m B = .ok v) :
    sem A X prog (n + 1) .mu_bbuf_parse_int32 h [.ptr b o] = .ok (.int v, h) :=
  src_parse_sint n (N := 32) (T := .common .i32 .int) (w := .cast .i32) (w2 := .cast .i32)
    (w3 := .cast (.common .i32 .int)) (d := Src.mu_bbuf_parse_int32) rfl rfl
    (fun K => converts_cast K .i32) (fun K => converts_cast K .i32) (.inl fun K => converts_cast K _)
    (by decide) (it_common_signed rfl)
    (fun n _ => rfl) (fun n hn => conv_inN (by decide) hn) r rb hn e

theorem src_parse_int64 {v : Int} (e : parseInt A.toPlat 64 m B = .ok v) :
    sem A X prog (n + 1) .mu_bbuf_parse_int64 h [.ptr b o] = .ok (.int v, h) :=
  src_parse_sint n (N := 64) (T := .common .i64 .int) (w := .cast .i64) (w2 := .cast .i64)
    (w3 := .cast (.common .i64 .int)) (d := Src.mu_bbuf_parse_int64) rfl rfl
    (fun K => converts_cast K .i64) (fun K => converts_cast K .i64) (.inl fun K => converts_cast K _)
    (by decide) (it_common_signed rfl)
    (fun n _ => rfl) (fun n hn => conv_inN (by decide) hn) r rb hn e

theorem src_parse_int {v : Int} (e : parseInt A.toPlat A.ib m B = .ok v) :
    sem A X prog (n + 1) .mu_bbuf_parse_int h [.ptr b o] = .ok (.int v, h) :=
  src_parse_sint n (N := A.ib) (T := .int) (w := id) (w2 := id) (w3 := id)
    (d := Src.mu_bbuf_parse_int) rfl rfl
    (fun K => converts_id K) (fun K => converts_id K) (.inr rfl)
    (Nat.le_trans (by decide) A.hib) (by rw [if_pos (Nat.le_refl _)]; rfl)
    (fun n hlt => absurd hlt (Nat.lt_irrefl _)) (fun n hn => rfl) r rb hn e

end

/-! ## Hexadecimal -/

/-- The value of `ch`, a `char`. -/
def chv (A : Arch) (c : UInt8) : Int := (A.it .char).conv c.toNat

theorem chv_small {c : UInt8} (h : c.toNat < 128) : chv A c = c.toNat := by
  unfold chv
  rw [show A.it .char = ⟨8, A.charSigned⟩ from rfl]
  generalize A.charSigned = sg
  cases sg <;> simp only [IT.conv_signed, IT.conv_unsigned]
  · exact Int.emod_eq_of_lt (by omega) (by omega)
  · apply Int.bmod_eq_of_le_mul_two <;> omega

theorem chv_range (c : UInt8) : -128 ≤ chv A c ∧ chv A c < 256 ∧
    (128 ≤ c.toNat → chv A c < 0 ∨ 128 ≤ chv A c) := by
  have hc := c.toNat_lt
  unfold chv
  rw [show A.it .char = ⟨8, A.charSigned⟩ from rfl]
  generalize A.charSigned = sg
  cases sg <;> simp only [IT.conv_signed, IT.conv_unsigned]
  · rw [Int.emod_eq_of_lt (by omega) (by omega)]; omega
  · have h1 : ((c.toNat : Int)).bmod (2 ^ 8) = if (c.toNat : Int) < 128 then (c.toNat : Int) else c.toNat - 256 := by
      unfold Int.bmod
      rw [Int.emod_eq_of_lt (by omega) (by omega)]
      dsimp only
      split <;> split <;> omega
    rw [h1]; split <;> omega

theorem src_hex_loop (K : Calls) (N : Nat) {β : Place} {h : Heap} {m : Mem} (r : MB β h m) {p : Ptr}
    (x0 : CVal) :
    ∀ (fuel n : Nat) (len i : Int) (v v' : Nat) (x4 : CVal), fuel ≤ n → A.InInt len → v < 2 ^ A.ib →
      hexLoop A.toPlat m p fuel len i v = .ok v' →
      ∃ x1 x2 y4, Stmt.rounds A K N Src.mu_bbuf_parse_hex_loop1 n
        ⟨[x0, pv β (plus p i), .int len, .int v, x4], h⟩ = .ok (.next, ⟨[x0, x1, x2, .int v', y4], h⟩) := by
  intro fuel
  induction fuel with
  | zero => intro n len i v v' _ _ _ _ e; cases e
  | succ fuel ih =>
    intro n len i v v' x4 hn hl hv e
    obtain ⟨n, rfl⟩ : ∃ n', n = n' + 1 := ⟨n - 1, by omega⟩
    unfold hexLoop at e
    obtain ⟨len', el, e⟩ := C.bind_eq_ok e
    have hl' := inInt_of_int el
    obtain ⟨rfl, -⟩ := int_eq_ok el
    have hcond : evalCond A K Src.mu_bbuf_parse_hex_loop1.cond ⟨[x0, pv β (plus p i), .int len, .int v, x4], h⟩ =
        .ok (decide (len > 0), ⟨[x0, pv β (plus p i), .int (len - 1), .int v, x4], h⟩) := by
      simp [csrc, Src.mu_bbuf_parse_hex_loop1, Stmt.cond, conv_int hl, el, conv_int hl']
    split at e
    · rename_i hpos
      rw [decide_eq_true hpos] at hcond
      obtain ⟨c, ec, e⟩ := C.bind_eq_ok e
      have hl1 := r.load ec
      have hp1 := r.padd_succ ec
      have hpn : ((2 ^ A.ib : Nat) : Int) = 2 ^ A.ib := by rw [Int.natCast_pow]; rfl
      have hbig : (256 : Int) ≤ 2 ^ A.ib := by
        have : (2 : Nat) ^ 8 ≤ 2 ^ A.ib := Nat.pow_le_pow_right (by decide) (Nat.le_trans (by decide) A.hib)
        omega
      have hvz : IT.conv ⟨A.ib, false⟩ (v : Int) = v := by
        rw [IT.conv_unsigned]; exact Int.emod_eq_of_lt (by omega) (by omega)
      have h4z : IT.conv ⟨A.ib, false⟩ 4 = 4 := by
        rw [IT.conv_unsigned]; exact Int.emod_eq_of_lt (by omega) (by omega)
      have hsh : AOp.run ⟨A.ib, false⟩ .shl (v : Int) 4 = .ok (((v * 16 % 2 ^ A.ib : Nat) : Int)) := by
        have : (4 : Int) < A.ib := by have := A.hib; omega
        simp only [AOp.run]
        rw [if_pos ⟨by omega, by omega, this⟩]
        simp only [IT.arith, Bool.false_eq_true, if_false, Int.natCast_emod, Int.natCast_mul, hpn]
        rfl
      have hv16 : v * 16 % 2 ^ A.ib < 2 ^ A.ib := Nat.mod_lt _ (Nat.pow_pos (by decide))
      have hvz2 : IT.conv ⟨A.ib, false⟩ ((v * 16 % 2 ^ A.ib : Nat) : Int) = ((v * 16 % 2 ^ A.ib : Nat) : Int) := by
        rw [IT.conv_unsigned]; exact Int.emod_eq_of_lt (by omega) (by omega)
      generalize hw : v * 16 % 2 ^ A.ib = w at *
      have hadd : ∀ d : Nat, d < 256 → IT.conv ⟨A.ib, false⟩ (d : Int) = d ∧
          AOp.run ⟨A.ib, false⟩ .add (w : Int) d = .ok (((w + d) % 2 ^ A.ib : Nat) : Int) ∧
          IT.conv ⟨A.ib, false⟩ (((w + d) % 2 ^ A.ib : Nat) : Int) = (((w + d) % 2 ^ A.ib : Nat) : Int) := by
        intro d hd
        have hlt : (w + d) % 2 ^ A.ib < 2 ^ A.ib := Nat.mod_lt _ (Nat.pow_pos (by decide))
        refine ⟨by rw [IT.conv_unsigned]; exact Int.emod_eq_of_lt (by omega) (by omega), ?_,
          by rw [IT.conv_unsigned]; exact Int.emod_eq_of_lt (by omega) (by omega)⟩
        simp only [AOp.run, IT.arith, Bool.false_eq_true, if_false, Int.natCast_emod, Int.natCast_add, hpn]
      obtain ⟨r1, r2, r3⟩ := chv_range (A := A) c
      have hchc : IT.conv (A.it .char) (c.toNat : Int) = chv A c := rfl
      have hch : IT.conv ⟨A.ib, true⟩ (chv A c) = chv A c := conv_int_small (by omega) (by omega)
      cases hd : hexDigit c with
      | none =>
        rw [hd] at e
        cases e
        unfold hexDigit at hd
        dsimp only at hd
        split at hd
        · cases hd
        · split at hd
          · cases hd
          · split at hd
            · cases hd
            · rename_i g1 g2 g3
              have q1 : ¬ (48 ≤ chv A c ∧ chv A c ≤ 57) := by
                by_cases hs : c.toNat < 128
                · rw [chv_small hs]; omega
                · have := r3 (by omega); omega
              have q2 : ¬ (97 ≤ chv A c ∧ chv A c ≤ 102) := by
                by_cases hs : c.toNat < 128
                · rw [chv_small hs]; omega
                · have := r3 (by omega); omega
              have q3 : ¬ (65 ≤ chv A c ∧ chv A c ≤ 70) := by
                by_cases hs : c.toNat < 128
                · rw [chv_small hs]; omega
                · have := r3 (by omega); omega
              generalize chv A c = x at *
              have hb : exec A K N Src.mu_bbuf_parse_hex_loop1.body
                  ⟨[x0, pv β (plus p i), .int (len - 1), .int v, x4], h⟩ =
                  .ok (.brk, ⟨[x0, pv β (plus p (i + 1)), .int (len - 1), .int v, .int x], h⟩) := by
                have hx : x < 48 ∨ (57 < x ∧ x < 65) ∨ (70 < x ∧ x < 97) ∨ 102 < x := by omega
                rcases hx with hx | hx | hx | hx
                · simp [csrc, Src.mu_bbuf_parse_hex_loop1, Stmt.body, hl1, hp1, hchc, hch,
                    show ((48 : Int) ≤ x) = False by simp; omega,
                    show ((97 : Int) ≤ x) = False by simp; omega,
                    show ((65 : Int) ≤ x) = False by simp; omega]
                · simp [csrc, Src.mu_bbuf_parse_hex_loop1, Stmt.body, hl1, hp1, hchc, hch,
                    show ((48 : Int) ≤ x) = True by simp; omega,
                    show (x ≤ 57) = False by simp; omega,
                    show ((97 : Int) ≤ x) = False by simp; omega,
                    show ((65 : Int) ≤ x) = False by simp; omega]
                · simp [csrc, Src.mu_bbuf_parse_hex_loop1, Stmt.body, hl1, hp1, hchc, hch,
                    show ((48 : Int) ≤ x) = True by simp; omega,
                    show (x ≤ 57) = False by simp; omega,
                    show ((97 : Int) ≤ x) = False by simp; omega,
                    show ((65 : Int) ≤ x) = True by simp; omega,
                    show (x ≤ 70) = False by simp; omega]
                · simp [csrc, Src.mu_bbuf_parse_hex_loop1, Stmt.body, hl1, hp1, hchc, hch,
                    show ((48 : Int) ≤ x) = True by simp; omega,
                    show (x ≤ 57) = False by simp; omega,
                    show ((97 : Int) ≤ x) = True by simp; omega,
                    show (x ≤ 102) = False by simp; omega,
                    show ((65 : Int) ≤ x) = True by simp; omega,
                    show (x ≤ 70) = False by simp; omega]
              exact ⟨_, _, _, Stmt.rounds_brk hcond hb⟩
      | some d =>
        rw [hd] at e
        dsimp only at e
        have hlt : (w + d) % 2 ^ A.ib < 2 ^ A.ib := Nat.mod_lt _ (Nat.pow_pos (by decide))
        have hd16 : d < 256 := by
          unfold hexDigit at hd
          dsimp only at hd
          split at hd
          · cases hd; omega
          · split at hd
            · cases hd; omega
            · split at hd
              · cases hd; omega
              · cases hd
        obtain ⟨a1, a2, a3⟩ := hadd d hd16
        generalize (w + d) % 2 ^ A.ib = z at *
        have hb : exec A K N Src.mu_bbuf_parse_hex_loop1.body
            ⟨[x0, pv β (plus p i), .int (len - 1), .int v, x4], h⟩ =
            .ok (.next, ⟨[x0, pv β (plus p (i + 1)), .int (len - 1), .int z, .int (c.toNat : Int)], h⟩) := by
          unfold hexDigit at hd
          dsimp only at hd
          have hc128 : c.toNat < 128 := by
            split at hd
            · omega
            · split at hd
              · omega
              · split at hd
                · omega
                · cases hd
          have hx := chv_small (A := A) hc128
          rw [hx] at hchc hch
          split at hd
          · rename_i g
            have hd' : c.toNat - 48 = d := by simpa using hd
            have i1 : A.int ((c.toNat : Int) - 48) = .ok (d : Int) := by
              rw [show (d : Int) = (c.toNat : Int) - 48 by omega]
              exact int_small (by omega) (by omega)
            have g1 : ((48 : Int) ≤ c.toNat) = True := eq_true (by omega)
            have g2 : ((c.toNat : Int) ≤ 57) = True := eq_true (by omega)
            simp [csrc, Src.mu_bbuf_parse_hex_loop1, Stmt.body, hl1, hp1, hchc, hch, g1, g2, hvz, h4z, hsh, hvz2,
              i1, a1, a2, a3]
          · rename_i g0
            have g1 : ((48 : Int) ≤ c.toNat) = True := by
              apply eq_true
              split at hd
              · omega
              · split at hd
                · omega
                · cases hd
            have g2 : ((c.toNat : Int) ≤ 57) = False := eq_false (by have := of_eq_true g1; omega)
            split at hd
            · rename_i g
              have hd' : c.toNat - 97 + 10 = d := by simpa using hd
              have i1 : A.int ((c.toNat : Int) - 97) = .ok ((c.toNat : Int) - 97) := int_small (by omega) (by omega)
              have i1' : IT.conv ⟨A.ib, true⟩ ((c.toNat : Int) - 97) = (c.toNat : Int) - 97 := conv_int_small (by omega) (by omega)
              have i2 : A.int ((c.toNat : Int) - 97 + 10) = .ok (d : Int) := by
                rw [show (d : Int) = (c.toNat : Int) - 97 + 10 by omega]
                exact int_small (by omega) (by omega)
              have g3 : ((97 : Int) ≤ c.toNat) = True := eq_true (by omega)
              have g4 : ((c.toNat : Int) ≤ 102) = True := eq_true (by omega)
              simp [csrc, Src.mu_bbuf_parse_hex_loop1, Stmt.body, hl1, hp1, hchc, hch, g1, g2, g3, g4, hvz, h4z, hsh, hvz2,
                i1, i1', i2, a1, a2, a3]
            · split at hd
              · rename_i g00 g
                have hd' : c.toNat - 65 + 10 = d := by simpa using hd
                have i1 : A.int ((c.toNat : Int) - 65) = .ok ((c.toNat : Int) - 65) := int_small (by omega) (by omega)
                have i1' : IT.conv ⟨A.ib, true⟩ ((c.toNat : Int) - 65) = (c.toNat : Int) - 65 := conv_int_small (by omega) (by omega)
                have i2 : A.int ((c.toNat : Int) - 65 + 10) = .ok (d : Int) := by
                  rw [show (d : Int) = (c.toNat : Int) - 65 + 10 by omega]
                  exact int_small (by omega) (by omega)
                have g3 : ((97 : Int) ≤ c.toNat) = False := eq_false (by omega)
                have g4 : ((65 : Int) ≤ c.toNat) = True := eq_true (by omega)
                have g5 : ((c.toNat : Int) ≤ 70) = True := eq_true (by omega)
                simp [csrc, Src.mu_bbuf_parse_hex_loop1, Stmt.body, hl1, hp1, hchc, hch, g1, g2, g3, g4, g5, hvz, h4z, hsh, hvz2,
                  i1, i1', i2, a1, a2, a3]
              · cases hd
        rw [Stmt.rounds_next hcond hb rfl]
        exact ih n (len - 1) (i + 1) _ v' _ (by omega) hl' hlt e
    · rename_i hpos
      rw [decide_eq_false hpos] at hcond
      cases e
      exact ⟨_, _, _, Stmt.rounds_exit hcond⟩

theorem src_parse_hex (n : Nat) {β : Place} {h : Heap} {m : Mem} {b : Base} {o : Int} {B : BBuf}
    {v : Nat} (r : MB β h m) (rb : BRep A β h b o B) (hn : (A.toInt B.cap).toNat + 1 ≤ n)
    (e : parseHex A.toPlat m B = .ok v) :
    sem A X prog (n + 1) .mu_bbuf_parse_hex h [.ptr b o] = .ok (.int v, h) := by
  obtain ⟨K, rfl⟩ : ∃ K, n = K + 1 := ⟨n - 1, by omega⟩
  have t1 := src_bytes_ro (A := A) (X := X) K rb
  have t2 := src_capacity (A := A) (X := X) K rb
  obtain ⟨x1, x2, x4, hs⟩ := src_hex_loop ⟨sem A X prog (K + 1), X.cb (sem A X prog (K + 1))⟩ (K + 1) r
    (.ptr b o) _ (K + 1) _ 0 0 v .undef hn (inInt_toInt B.cap) (Nat.pow_pos (by decide)) e
  rw [plus_zero] at hs
  rw [sem_succ (d := Src.mu_bbuf_parse_hex) rfl, FunDef.run_regs rfl rfl]
  generalize hK : (⟨sem A X prog (K + 1), X.cb (sem A X prog (K + 1))⟩ : Calls) = KK at *
  have t1' : KK.fn .mu_bbuf_bytes_ro h [.ptr b o] = .ok (pv β B.p, h) := by rw [← hK]; exact t1
  have t2' : KK.fn .mu_bbuf_capacity h [.ptr b o] = .ok (.int B.cap, h) := by rw [← hK]; exact t2
  have hs' : exec A KK (K + 1) Src.mu_bbuf_parse_hex_loop1 _ = _ := hs
  simp only [Int.natCast_zero] at hs'
  simp [csrc, Src.mu_bbuf_parse_hex, t1', t2', conv_int_nat B.cap, hs']

end Mu.CS
