import Verif.Lemmas.Jems
import Mathlib.Tactic.Linarith
import Mathlib.Tactic.FieldSimp
import Mathlib.Tactic.Ring
import Mathlib.Tactic.NormNum
import Mathlib.Tactic.Positivity

/-! # Which `double`s are integers -/

namespace Mu.Jems
open Spec

theorem roundEven_dvd {a s : Nat} (hs : 0 < s) (h : s ∣ a) : roundEven a s * s = a := by
  unfold roundEven
  have h0 : a % s = 0 := Nat.mod_eq_zero_of_dvd h
  simp only [h0]
  rw [if_pos (by omega)]
  exact Nat.div_mul_cancel h

/-- An integer with at most 53 significant bits is its own conversion to `double`. -/
theorem i64ToDbl_exact {k : Int} {m e : Nat} (hm : m < 2 ^ 53) (h : k.natAbs = m * 2 ^ e) :
    i64ToDbl k = k := by
  have hd : 2 ^ (Nat.log2 k.natAbs - 52) ∣ k.natAbs := by
    by_cases h0 : k.natAbs = 0
    · rw [h0]; exact Nat.dvd_zero _
    · have hlog := Nat.log2_self_le h0
      by_cases hle : Nat.log2 k.natAbs ≤ 52
      · rw [Nat.sub_eq_zero_of_le hle]; simp
      · have : Nat.log2 k.natAbs - 52 ≤ e := by
          apply Nat.le_of_not_lt
          intro hlt
          have h1 : m * 2 ^ e < 2 ^ 53 * 2 ^ e := Nat.mul_lt_mul_of_pos_right hm (Nat.pow_pos (by decide))
          rw [← Nat.pow_add] at h1
          have h2 : 2 ^ (53 + e) ≤ 2 ^ Nat.log2 k.natAbs := Nat.pow_le_pow_right (by decide) (by omega)
          omega
        rw [h]
        exact Nat.dvd_trans (Nat.pow_dvd_pow 2 (h ▸ this)) (Nat.dvd_mul_left _ _)
  unfold i64ToDbl
  simp only [roundEven_dvd (Nat.pow_pos (by decide)) hd]
  exact Int.sign_mul_natAbs k

theorem sgn_val (neg : Bool) : (sgn neg : ℚ) = if neg then -1 else 1 := by
  cases neg <;> simp [sgn]

theorem zpow_nat (e : Int) (h : 0 ≤ e) : (2 : ℚ) ^ e = ((2 ^ e.toNat : Nat) : ℚ) := by
  obtain ⟨n, rfl⟩ := Int.eq_ofNat_of_zero_le h
  simp

theorem zpow_neg' (e : Int) (h : e < 0) : (2 : ℚ) ^ e = 1 / ((2 ^ (-e).toNat : Nat) : ℚ) := by
  obtain ⟨n, hn⟩ := Int.eq_ofNat_of_zero_le (show 0 ≤ -e by omega)
  have : e = -(n : Int) := by omega
  subst this
  simp

/-- `(double)k == value` compares the mathematical values. -/
theorem dblEq_iff (k : Int) (neg : Bool) (m : Nat) (e : Int) :
    dblEq k (.fin neg m e) = true ↔ (k : ℚ) = dblVal (.fin neg m e) := by
  simp only [dblEq, dblVal]
  by_cases h : 0 ≤ e
  · rw [if_pos h, zpow_nat e h, decide_eq_true_eq, ← sgn_val]
    constructor
    · intro hk; rw [hk]; push_cast; ring
    · intro hk
      have : (k : ℚ) = ((sgn neg * (m * 2 ^ e.toNat : Nat) : Int) : ℚ) := by
        rw [hk]; push_cast; ring
      exact_mod_cast this
  · have hpos : (0 : ℚ) < ((2 ^ (-e).toNat : Nat) : ℚ) := by positivity
    rw [if_neg h, zpow_neg' e (by omega), decide_eq_true_eq, ← sgn_val]
    constructor
    · intro hk
      have : (k : ℚ) * ((2 ^ (-e).toNat : Nat) : ℚ) = (sgn neg : ℚ) * (m : ℚ) := by exact_mod_cast hk
      field_simp
      linarith
    · intro hk
      have : (k : ℚ) * ((2 ^ (-e).toNat : Nat) : ℚ) = (sgn neg : ℚ) * (m : ℚ) := by
        rw [hk]; field_simp
      exact_mod_cast this

theorem sgn_mul_natAbs (neg : Bool) (a : Nat) : (sgn neg * (a : Int)).natAbs = a := by
  cases neg <;> simp [sgn]

/-- Truncation leaves an integral value alone, and the conversion back to `double` is exact. -/
theorem integral_trunc {neg : Bool} {m : Nat} {e : Int} (hm : m < 2 ^ 53) {k : Int}
    (hk : dblVal (.fin neg m e) = k) :
    sgn neg * (if 0 ≤ e then m * 2 ^ e.toNat else m / 2 ^ (-e).toNat : Nat) = k ∧
      i64ToDbl k = k := by
  have hd : dblEq k (.fin neg m e) = true := (dblEq_iff k neg m e).mpr hk.symm
  simp only [dblEq] at hd
  by_cases h : 0 ≤ e
  · rw [if_pos h, decide_eq_true_eq] at hd
    have hb := i64ToDbl_exact (k := k) hm (by rw [hd]; exact sgn_mul_natAbs _ _)
    refine ⟨?_, hb⟩
    rw [if_pos h]
    exact hd.symm
  · rw [if_neg h, decide_eq_true_eq] at hd
    have hpos : 0 < 2 ^ (-e).toNat := Nat.pow_pos (by decide)
    have hna : k.natAbs * 2 ^ (-e).toNat = m := by
      have := congrArg Int.natAbs hd
      rw [Int.natAbs_mul, sgn_mul_natAbs, Int.natAbs_natCast] at this
      exact this
    have hdiv : m / 2 ^ (-e).toNat = k.natAbs := by
      rw [← hna, Nat.mul_div_cancel _ hpos]
    have hlt : k.natAbs < 2 ^ 53 := by
      have : k.natAbs * 1 ≤ k.natAbs * 2 ^ (-e).toNat := Nat.mul_le_mul_left _ hpos
      omega
    have hb := i64ToDbl_exact (k := k) (e := 0) hlt (by simp)
    refine ⟨?_, hb⟩
    have h3 : sgn neg * ((k.natAbs * 2 ^ (-e).toNat : Nat) : Int) = k * (2 ^ (-e).toNat : Nat) := by
      rw [hna]; exact hd.symm
    rw [Int.natCast_mul, ← Int.mul_assoc] at h3
    rw [if_neg h, hdiv]
    exact Int.eq_of_mul_eq_mul_right (by omega) h3

/-- A `double` with an integral value in range is converted to that integer and back exactly. -/
theorem integral_ok {v : Dbl} (hv : IsDouble v) {k : Int} (hk : dblVal v = k)
    (h1 : -(2 ^ 63) ≤ k) (h2 : k < 2 ^ 63) : toI64 v = .ok k ∧ dblEq (i64ToDbl k) v = true := by
  cases v with
  | nan => cases hv
  | inf neg => cases hv
  | fin neg m e =>
    obtain ⟨ht, hb⟩ := integral_trunc hv.1 hk
    refine ⟨?_, by rw [hb]; exact (dblEq_iff k neg m e).mpr hk.symm⟩
    simp only [toI64, ht]
    rw [if_pos ⟨h1, h2⟩]

/-- A `double` with an integral value out of range cannot be converted. -/
theorem integral_range {v : Dbl} (hv : IsDouble v) {k : Int} (hk : dblVal v = k)
    (h : ¬ (-(2 ^ 63) ≤ k ∧ k < 2 ^ 63)) : toI64 v = .error .overflow := by
  cases v with
  | nan => cases hv
  | inf neg => cases hv
  | fin neg m e =>
    obtain ⟨ht, hb⟩ := integral_trunc hv.1 hk
    simp only [toI64, ht]
    rw [if_neg h]

/-- A `double` that is not an integer has a fractional part. -/
theorem frac_exp {neg : Bool} {m : Nat} {e : Int} (h : ∀ k : Int, dblVal (.fin neg m e) ≠ k) :
    e < 0 := by
  apply Int.lt_of_not_ge
  intro he
  have := h (sgn neg * (m * 2 ^ e.toNat : Nat))
  apply this
  symm
  rw [← dblEq_iff]
  simp [dblEq, he]

theorem frac_ok {neg : Bool} {m : Nat} {e : Int} (hv : IsDouble (.fin neg m e))
    (hn : ∀ k : Int, dblVal (.fin neg m e) ≠ k) :
    ∃ i, toI64 (.fin neg m e) = .ok i ∧ dblEq (i64ToDbl i) (.fin neg m e) = false := by
  have he := frac_exp hn
  obtain ⟨hm, _, _⟩ := hv
  have hpos : 0 < 2 ^ (-e).toNat := Nat.pow_pos (by decide)
  have hle : m / 2 ^ (-e).toNat ≤ m := Nat.div_le_self _ _
  simp only [toI64, if_neg (show ¬ 0 ≤ e by omega)]
  generalize hq : m / 2 ^ (-e).toNat = q at hle
  have hb : -(2 ^ 63) ≤ sgn neg * (q : Int) ∧ sgn neg * (q : Int) < 2 ^ 63 := by
    cases neg <;> simp only [sgn] <;> constructor <;> norm_num <;> omega
  refine ⟨sgn neg * q, by rw [if_pos hb], ?_⟩
  rw [i64ToDbl_exact (m := q) (e := 0) (by omega) (by rw [sgn_mul_natAbs]; simp)]
  rw [← Bool.not_eq_true, dblEq_iff]
  exact fun h => hn _ h.symm

end Mu.Jems
