import Verif.Spec.JemsRound
import Verif.Props.JemsNumber

/-! # C116: which number is printed for a `double`, and in what order -/

namespace Mu.Jems
open Spec

theorem roundEven_tie {a d : Nat} (h : 2 * a = 2 * (roundEven a d * d) + d ∨
    2 * (roundEven a d * d) = 2 * a + d) (hd : 0 < d) : roundEven a d % 2 = 0 := by
  have h1 := Nat.div_add_mod a d
  have h2 := Nat.mod_lt a hd
  have h3 : (a / d + 1) * d = d * (a / d) + d := by ring
  have h4 : (a / d) * d = d * (a / d) := by ring
  unfold roundEven at *
  simp only at *
  split at h
  · rw [h4] at h; omega
  · split at h
    · rw [h3] at h; omega
    · split at h
      · rename_i h5 h6 h7
        rw [if_neg h5, if_neg h6, if_pos h7]; exact h7
      · rename_i h5 h6 h7
        rw [if_neg h5, if_neg h6, if_neg h7]; omega

theorem roundEven_nearest {a d : Nat} (hd : 0 < d) : Nearest (roundEven a d) ((a : ℚ) / d) := by
  obtain ⟨h1, h2⟩ := roundEven_bound (a := a) hd
  have ht := roundEven_tie (a := a) (d := d)
  generalize roundEven a d = n at h1 h2 ht
  have hD : (0 : ℚ) < d := by exact_mod_cast hd
  generalize hx : (a : ℚ) / d = x
  have hxm : (a : ℚ) = x * d := by rw [← hx]; field_simp
  have q1 : 2 * ((n : ℚ) * d) ≤ 2 * a + d := by exact_mod_cast h1
  have q2 : 2 * (a : ℚ) ≤ 2 * (n * d) + d := by exact_mod_cast h2
  constructor
  · rw [abs_le]
    rw [hxm] at q1 q2
    have b1 : (2 * n) * (d : ℚ) ≤ (2 * x + 1) * d := by linarith
    have b2 : (2 * x) * (d : ℚ) ≤ (2 * n + 1) * d := by linarith
    have b1 := le_of_mul_le_mul_right b1 hD
    have b2 := le_of_mul_le_mul_right b2 hD
    constructor <;> linarith
  · intro h
    refine ht ?_ hd
    rcases (abs_eq (by norm_num)).mp h with h | h
    · right
      have : 2 * ((n : ℚ) * d) = 2 * a + d := by
        rw [hxm, show (n : ℚ) = x + 1 / 2 by linarith]; ring
      exact_mod_cast this
    · left
      have : 2 * (a : ℚ) = 2 * (n * d) + d := by
        rw [hxm, show (n : ℚ) = x - 1 / 2 by linarith]; ring
      exact_mod_cast this

theorem nearest_mono {n n' : Nat} {q q' : ℚ} (h : Nearest n q) (h' : Nearest n' q') (hq : q ≤ q') :
    n ≤ n' := by
  apply Nat.le_of_not_gt
  intro hc
  have hc' : (n' : ℚ) + 1 ≤ n := by exact_mod_cast hc
  obtain ⟨h1, h2⟩ := h
  obtain ⟨h3, h4⟩ := h'
  have a1 := (abs_le.mp h1).2
  have a2 := (abs_le.mp h3).1
  have e1 : (n : ℚ) - q = 1 / 2 := by linarith
  have e2 : (n' : ℚ) - q' = -(1 / 2) := by linarith
  have e3 : (n : ℚ) = n' + 1 := by linarith
  have e4 : n = n' + 1 := by exact_mod_cast e3
  have b1 := h2 (by rw [e1]; norm_num)
  have b2 := h4 (by rw [e2]; norm_num)
  omega

theorem ascii_digits (n : Nat) : ascii (toString n) = digits n := by
  have h := fmtI64_eq (n : Int)
  rw [fmtI64, if_neg (Int.not_lt.mpr (Int.natCast_nonneg n)), Int.natAbs_natCast] at h
  rw [h]
  rfl

theorem abs_dbl (neg : Bool) (m : Nat) (e : Int) (he : e < 0) :
    |dblVal (.fin neg m e)| = (m : ℚ) / ((2 ^ (-e).toNat : Nat) : ℚ) := by
  have h0 : (0 : ℚ) ≤ (m : ℚ) / ((2 ^ (-e).toNat : Nat) : ℚ) := by positivity
  have : dblVal (.fin neg m e) = (if neg then -1 else 1) * ((m : ℚ) / ((2 ^ (-e).toNat : Nat) : ℚ)) := by
    simp only [dblVal]
    rw [zpow_neg' e he]
    ring
  rw [this]
  cases neg with
  | false => simp only [Bool.false_eq_true, if_false, one_mul]; exact abs_of_nonneg h0
  | true =>
    simp only [if_true]
    rw [neg_one_mul, abs_neg]; exact abs_of_nonneg h0

/-- The text of a `double` with a fraction. -/
theorem fmtLf_exact {neg : Bool} {m : Nat} {e : Int} (hv : IsDouble (.fin neg m e))
    (hn : ∀ k : Int, dblVal (.fin neg m e) ≠ k) :
    ∃ n, Nearest n (|dblVal (.fin neg m e)| * 10 ^ 6) ∧
      IsDecimal ((fmtLf (.fin neg m e)).take 21) (places neg n) (printed neg n) ∧
      (((fmtLf (.fin neg m e)).take 21).head? = some 45 ↔ neg = true) ∧ 3 ≤ places neg n := by
  have he := frac_exp hn
  obtain ⟨hm, _, _⟩ := hv
  rw [abs_dbl neg m e he]
  obtain ⟨K, hK⟩ : ∃ K, (-e).toNat = K + 1 := ⟨(-e).toNat - 1, by omega⟩
  have hD2 : 2 ≤ 2 ^ (K + 1) := by
    have : 0 < 2 ^ K := Nat.pow_pos (by decide)
    rw [Nat.pow_succ]; omega
  simp only [fmtLf, if_neg (show ¬ 0 ≤ e by omega), hK]
  generalize hD : 2 ^ (K + 1) = D at hD2
  obtain ⟨hb1, hb2⟩ := roundEven_bound (a := m * 1000000) (d := D) (by omega)
  have hnear := roundEven_nearest (a := m * 1000000) (d := D) (by omega)
  have hq : (((m * 1000000 : Nat) : ℚ) / (D : ℚ)) = (m : ℚ) / D * 10 ^ 6 := by
    push_cast; ring
  rw [hq] at hnear
  generalize hN : roundEven (m * 1000000) D = n at hb1 hb2 hnear ⊢
  have hnlt : n < 10 ^ 22 := by
    apply Nat.lt_of_not_ge
    intro hge
    have : 10 ^ 22 * D ≤ n * D := Nat.mul_le_mul_right _ hge
    omega
  have hip : (digits (n / 1000000)).length ≤ 16 := digits_length_le (by decide) (by omega)
  have hF : n % 1000000 < 1000000 := Nat.mod_lt _ (by decide)
  generalize hA : (if neg then [45] else [] : List UInt8) ++ digits (n / 1000000) = A
  have hAl : A.length = (if neg then 1 else 0) + (digits (n / 1000000)).length := by
    rw [← hA, List.length_append]; cases neg <;> simp
  have hsl : (if neg then 1 else 0) ≤ 1 := by cases neg <;> simp
  have hAp : 1 ≤ (digits (n / 1000000)).length :=
    List.length_pos_iff.mpr (digits_ne_nil (n / 1000000))
  have htake : (sixDigits (n % 1000000)).take (21 - A.length - 1) =
      (sixDigits (n % 1000000)).take (min (21 - A.length - 1) 6) := by
    rcases Nat.le_total (21 - A.length - 1) 6 with h | h
    · rw [Nat.min_eq_left h]
    · rw [Nat.min_eq_right h, List.take_of_length_le (by rw [sixDigits_length]; exact h),
        List.take_of_length_le (by rw [sixDigits_length])]
  have hpl : places neg n = min (21 - A.length - 1) 6 := by
    unfold places
    rw [ascii_digits, ← hAl]
  rw [take_point (by omega), htake, ← hpl]
  have hd3 : 3 ≤ places neg n := by omega
  have hd6 : places neg n ≤ 6 := by omega
  obtain ⟨hf1, hf2⟩ := sixDigits_take hF _ hd3 hd6
  have hlen : ((sixDigits (n % 1000000)).take (places neg n)).length = places neg n := by
    simp [sixDigits_length]; omega
  refine ⟨n, hnear, ⟨neg, digits (n / 1000000), (sixDigits (n % 1000000)).take (places neg n), ?_,
    digits_ne_nil _, digits_isDigit _, ?_, hlen, by omega, ?_, ?_⟩, ?_, hd3⟩
  · rw [← hA]
    have e1 : ascii "-" = [45] := by decide
    have e2 : ascii "." = [46] := by decide
    rw [e1, e2]
    simp
  · intro hh
    by_cases h0 : n / 1000000 = 0
    · rw [h0]; rfl
    · exact absurd hh (digits_head _ h0)
  · intro c hc
    exact sixDigits_isDigit _ c (List.mem_of_mem_take hc)
  · unfold printed
    rw [decVal_digits]
    generalize places neg n = d at *
    generalize decVal ((sixDigits (n % 1000000)).take d) = X at hf1 hf2
    have hqN : 10 ^ d * 10 ^ (6 - d) = 1000000 := by
      rw [← Nat.pow_add, show d + (6 - d) = 6 by omega]
    have hdiv : n / 10 ^ (6 - d) = n / 1000000 * 10 ^ d + X := by
      have hdm := Nat.div_add_mod n 1000000
      have hp : 0 < 10 ^ (6 - d) := Nat.pow_pos (by decide)
      apply Nat.div_eq_of_lt_le
      · rw [Nat.add_mul, Nat.mul_assoc, hqN]
        omega
      · rw [Nat.succ_mul, Nat.add_mul, Nat.mul_assoc, hqN]
        rw [Nat.succ_mul] at hf2
        omega
    have hT : (0 : ℚ) < (10 : ℚ) ^ d := by positivity
    congr 1
    rw [hdiv]
    push_cast
    field_simp
  · rw [← hA]
    cases neg with
    | true => simp
    | false =>
      obtain ⟨c, u, h1, h2⟩ := digits_cons (n / 1000000)
      simp only [Bool.false_eq_true, if_false, List.nil_append, h1, List.cons_append,
        List.head?_cons, Option.some.injEq, iff_false]
      exact isDigit_ne h2 (d := 45) (by decide)

theorem sign_frac {neg : Bool} {m : Nat} {e : Int} (hn : ∀ k : Int, dblVal (.fin neg m e) ≠ k) :
    dblVal (.fin neg m e) < 0 ↔ neg = true := by
  have h0 : dblVal (.fin neg m e) ≠ 0 := by simpa using hn 0
  have h1 : (0 : ℚ) ≤ (m : ℚ) * 2 ^ e := mul_nonneg (Nat.cast_nonneg m) (zpow_nonneg (by norm_num) e)
  cases neg with
  | true =>
    simp only [dblVal, if_true, iff_true] at *
    refine lt_of_le_of_ne ?_ h0
    rw [mul_assoc, neg_one_mul]
    linarith
  | false =>
    simp only [dblVal, Bool.false_eq_true, if_false, iff_false, one_mul] at *
    exact not_lt.mpr h1

/-- C116.  The text emitted for a `double` with a fraction, exactly: the value is rounded to the nearest
number of millionths (to the even one of two); the text has a minus sign exactly if the value is
negative, and `places` digits after the point; digits beyond these are dropped, without rounding
again. -/
theorem C116_exact {P : Plat} {m : Mem} {j : Jems} (hj : Reached P m j) {v : Dbl}
    (hv : IsDouble v) (hn : ∀ k : Int, dblVal v ≠ k) :
    ∃ j' t n, number P j v = .ok j' ∧ Wrote j j' t ∧ Nearest n (|dblVal v| * 10 ^ 6) ∧
      IsDecimal t (places (decide (dblVal v < 0)) n) (printed (decide (dblVal v < 0)) n) ∧
      (t.head? = some 45 ↔ dblVal v < 0) := by
  cases v with
  | nan => cases hv
  | inf neg => cases hv
  | fin neg q e =>
    obtain ⟨i, h1, h2⟩ := frac_ok hv hn
    obtain ⟨j', e1, _, hw⟩ := item_wrote (m := m) hj.wf (.number h1)
    rw [h2] at hw
    obtain ⟨n, h3, h4, h5, _⟩ := fmtLf_exact hv hn
    have hs := sign_frac hn
    have hneg : decide (dblVal (.fin neg q e) < 0) = neg := by
      cases neg
      · simpa using hs
      · simpa using hs
    refine ⟨j', _, n, e1, hw, h3, by rw [hneg]; exact h4, ?_⟩
    rw [hs]
    exact h5

/-! ## Order -/

/-- `n` millionths without the digits that are not written, in millionths. -/
def kept (neg : Bool) (n : Nat) : Nat := n / 10 ^ (6 - places neg n) * 10 ^ (6 - places neg n)

theorem places_le (neg : Bool) (n : Nat) : places neg n ≤ 6 := Nat.min_le_right _ _

theorem kept_mono (neg : Bool) {n n' : Nat} (h : n ≤ n') : kept neg n ≤ kept neg n' := by
  by_cases hc : n / 1000000 = n' / 1000000
  · have : places neg n = places neg n' := by unfold places; rw [hc]
    unfold kept
    rw [this]
    exact Nat.mul_le_mul_right _ (Nat.div_le_div_right h)
  · have h1 : n / 1000000 < n' / 1000000 := by omega
    have h2 : kept neg n ≤ n := Nat.div_mul_le_self _ _
    have h3 : n' / 1000000 * 1000000 ≤ kept neg n' := by
      unfold kept
      have hd := places_le neg n'
      generalize places neg n' = d at hd
      have hqN : 10 ^ d * 10 ^ (6 - d) = 1000000 := by
        rw [← Nat.pow_add, show d + (6 - d) = 6 by omega]
      rw [← hqN, ← Nat.mul_assoc]
      refine Nat.mul_le_mul_right _ ?_
      rw [Nat.le_div_iff_mul_le (Nat.pow_pos (by decide)), Nat.mul_assoc]
      exact Nat.div_mul_le_self _ _
    omega

theorem printed_kept (neg : Bool) (n : Nat) :
    printed neg n = (if neg then -1 else 1) * ((kept neg n : ℚ) / 10 ^ 6) := by
  unfold printed kept
  have hd := places_le neg n
  generalize places neg n = d at hd
  have hq : (10 : ℚ) ^ 6 = (10 : ℚ) ^ d * (10 : ℚ) ^ (6 - d) := by
    rw [← pow_add, show d + (6 - d) = 6 by omega]
  have h1 : (0 : ℚ) < (10 : ℚ) ^ d := by positivity
  have h2 : (0 : ℚ) < (10 : ℚ) ^ (6 - d) := by positivity
  rw [hq]
  push_cast
  congr 1
  field_simp

theorem kept_whole (neg : Bool) (k : Nat) : kept neg (k * 1000000) = k * 1000000 := by
  unfold kept
  have hd := places_le neg (k * 1000000)
  generalize places neg (k * 1000000) = d at hd
  have hqN : 10 ^ d * 10 ^ (6 - d) = 1000000 := by
    rw [← Nat.pow_add, show d + (6 - d) = 6 by omega]
  rw [← hqN, ← Nat.mul_assoc, Nat.mul_div_cancel _ (Nat.pow_pos (by decide))]

/-- A JSON number with a fraction as a document. -/
theorem isDecimal_doc {t : List UInt8} {d : Nat} {w : ℚ} (h : IsDecimal t d w) :
    ∃ neg n f fs, Spec.read t = some (.dec neg n f fs) ∧ docVal (.dec neg n f fs) = w := by
  obtain ⟨neg, ip, fp, ht, hi1, hi2, hi3, hf1, hf2, hf3, hw⟩ := h
  obtain ⟨ds, e1, e2⟩ := digits_list hf3
  have hip : digits (decVal ip) = ip := digits_decVal hi1 hi2 hi3
  cases ds with
  | nil => rw [e1] at hf1; exact absurd hf1.symm hf2
  | cons f fs =>
    have hl : fs.length + 1 = d := by rw [← hf1, e1]; simp
    refine ⟨neg, decVal ip, f, fs, ?_, ?_⟩
    · have : t = render (.dec neg (decVal ip) f fs) := by
        have a1 : ascii "-" = [45] := by decide
        have a2 : ascii "." = [46] := by decide
        rw [dec_text, ht, hip, e1, a1, a2]
        simp
      rw [this]
      exact read_render _
    · rw [hw, docVal, e2, hl]

/-- Any `double` for which the call is defined. -/
theorem number_value {P : Plat} {m : Mem} {j : Jems} (hj : Reached P m j) {v : Dbl}
    (hv : IsDouble v) (h1 : -(2 ^ 63 : ℚ) - 1 < dblVal v) (h2 : dblVal v < 2 ^ 63) :
    ∃ j' t x n, number P j v = .ok j' ∧ Wrote j j' t ∧ Spec.read t = some x ∧ Numeric x ∧
      Nearest n (|dblVal v| * 10 ^ 6) ∧ docVal x = printed (decide (dblVal v < 0)) n := by
  by_cases hk : ∃ k : Int, dblVal v = k
  · obtain ⟨k, hk⟩ := hk
    rw [hk] at h1 h2
    have h1' : (-(2 ^ 63) - 1 : Int) < k := by
      have : ((-(2 ^ 63) - 1 : Int) : ℚ) < k := by
        rw [show ((-(2 ^ 63) - 1 : Int) : ℚ) = -(2 ^ 63 : ℚ) - 1 by norm_num]; exact h1
      exact_mod_cast this
    have h2' : k < 2 ^ 63 := by
      have : (k : ℚ) < ((2 ^ 63 : Int) : ℚ) := by
        rw [show ((2 ^ 63 : Int) : ℚ) = (2 ^ 63 : ℚ) by norm_num]; exact h2
      exact_mod_cast this
    obtain ⟨j', e, w, hr⟩ := C59_integer hj (v := k) (by omega) h2'
    refine ⟨j', _, _, k.natAbs * 1000000, by rw [C61_integral j hv hk (by omega) h2']; exact e, w, hr,
      trivial, ?_, ?_⟩
    · have e1 : |(k : ℚ)| = (k.natAbs : ℚ) := by rw [Nat.cast_natAbs]; push_cast; rfl
      have e2 : ((k.natAbs * 1000000 : Nat) : ℚ) - (k.natAbs : ℚ) * 10 ^ 6 = 0 := by push_cast; ring
      rw [hk, e1]
      unfold Nearest
      rw [e2]
      norm_num
    · rw [printed_kept, kept_whole, hk, docVal]
      push_cast
      by_cases hc : k < 0
      · have : ((k.natAbs : Int)) = -k := by omega
        have : (k.natAbs : ℚ) = -(k : ℚ) := by rw [← Int.cast_natCast (R := ℚ), this, Int.cast_neg]
        rw [this, decide_eq_true (by exact_mod_cast hc : (k : ℚ) < 0)]
        simp only [if_true]
        ring
      · have : ((k.natAbs : Int)) = k := by omega
        have : (k.natAbs : ℚ) = (k : ℚ) := by rw [← Int.cast_natCast (R := ℚ), this]
        rw [this, decide_eq_false (by exact_mod_cast hc : ¬ (k : ℚ) < 0)]
        simp only [Bool.false_eq_true, if_false]
        ring
  · have hn : ∀ k : Int, dblVal v ≠ k := fun k h => hk ⟨k, h⟩
    obtain ⟨j', t, n, e, w, h3, h4, _⟩ := C116_exact hj hv hn
    obtain ⟨neg, ip, f, fs, h5, h6⟩ := isDecimal_doc h4
    exact ⟨j', t, _, n, e, w, h5, trivial, h3, h6⟩

theorem kept_pos (b : Bool) (n : Nat) : (0 : ℚ) ≤ (kept b n : ℚ) / 10 ^ 6 :=
  div_nonneg (Nat.cast_nonneg _) (by norm_num)

theorem kept_mono' (b : Bool) {n n' : Nat} (h : n ≤ n') :
    (kept b n : ℚ) / 10 ^ 6 ≤ (kept b n' : ℚ) / 10 ^ 6 :=
  div_le_div_of_nonneg_right (Nat.cast_le.mpr (kept_mono b h)) (by norm_num)

/-- C116.  The order of numbers survives the emission: if `v ≤ w`, and the calls are defined (C62), then
the number a JSON reader reads for `v` is not greater than the one it reads for `w`.  (Rounding, cutting
off after 21 characters and the switch between integers and fractions never make a smaller number the
larger one.) -/
theorem C116_order {P : Plat} {m1 m2 : Mem} {j1 j2 : Jems} (hj1 : Reached P m1 j1)
    (hj2 : Reached P m2 j2) {v w : Dbl} (hv : IsDouble v) (hw : IsDouble w)
    (h1 : -(2 ^ 63 : ℚ) - 1 < dblVal v) (hvw : dblVal v ≤ dblVal w) (h2 : dblVal w < 2 ^ 63) :
    ∃ j1' j2' t u x y, number P j1 v = .ok j1' ∧ Wrote j1 j1' t ∧ Spec.read t = some x ∧
      number P j2 w = .ok j2' ∧ Wrote j2 j2' u ∧ Spec.read u = some y ∧
      Numeric x ∧ Numeric y ∧ docVal x ≤ docVal y := by
  obtain ⟨j1', t, x, n, e1, w1, r1, d1, n1, p1⟩ := number_value hj1 hv h1 (lt_of_le_of_lt hvw h2)
  obtain ⟨j2', u, y, n', e2, w2, r2, d2, n2, p2⟩ := number_value hj2 hw (lt_of_lt_of_le h1 hvw) h2
  refine ⟨j1', j2', t, u, x, y, e1, w1, r1, e2, w2, r2, d1, d2, ?_⟩
  rw [p1, p2, printed_kept, printed_kept]
  by_cases c1 : dblVal v < 0
  · by_cases c2 : dblVal w < 0
    · rw [decide_eq_true c1, decide_eq_true c2]
      simp only [if_true]
      have := kept_mono' true (nearest_mono n2 n1 (by
        rw [abs_of_neg c1, abs_of_neg c2]
        have : -dblVal w ≤ -dblVal v := by linarith
        exact mul_le_mul_of_nonneg_right this (by norm_num)))
      linarith
    · rw [decide_eq_true c1, decide_eq_false c2]
      simp only [if_true, Bool.false_eq_true, if_false]
      have a := kept_pos true n
      have b := kept_pos false n'
      linarith
  · have c2 : ¬ dblVal w < 0 := by
      have := not_lt.mp c1
      exact not_lt.mpr (le_trans this hvw)
    rw [decide_eq_false c1, decide_eq_false c2]
    simp only [Bool.false_eq_true, if_false]
    have := kept_mono' false (nearest_mono n1 n2 (by
      rw [abs_of_nonneg (not_lt.mp c1), abs_of_nonneg (not_lt.mp c2)]
      exact mul_le_mul_of_nonneg_right hvw (by norm_num)))
    linarith

/-- Two ties: 2^-7 = 0.0078125 is printed 0.007812, 3·2^-7 = 0.0234375 is printed 0.023438. -/
example : fmtLf (.fin false 1 (-7)) = ascii "0.007812" ∧ fmtLf (.fin false 3 (-7)) = ascii "0.023438" ∧
    IsDouble (.fin false 1 (-7)) ∧ IsDouble (.fin false 3 (-7)) := by
  refine ⟨by decide +kernel, by decide +kernel, ⟨by decide, by decide, by decide⟩,
    ⟨by decide, by decide, by decide⟩⟩

/-- The order is not strict: two different numbers may get the same text. -/
example : (match number Plat.lp64 ⟨[⟨0, false⟩], 1, 0, 1, 0, []⟩ (.fin true 1 (-30)) with
    | .ok j => j.out.map Emit.ch = ascii "-0.000000"
    | .error _ => False) := by
  show _ = _
  decide +kernel

end Mu.Jems
