import Verif.Spec.JemsNumber
import Verif.Lemmas.JemsRead
import Mathlib.Tactic.Linarith
import Mathlib.Tactic.FieldSimp
import Mathlib.Tactic.Ring
import Mathlib.Tactic.NormNum
import Mathlib.Tactic.Positivity

namespace Mu.Jems
open Spec

/-! ## Doubles with a fraction -/

theorem roundEven_bound {a d : Nat} (hd : 0 < d) :
    2 * (roundEven a d * d) ≤ 2 * a + d ∧ 2 * a ≤ 2 * (roundEven a d * d) + d := by
  have h1 := Nat.div_add_mod a d
  have h2 := Nat.mod_lt a hd
  have h3 : (a / d + 1) * d = d * (a / d) + d := by ring
  have h4 : (a / d) * d = d * (a / d) := by ring
  unfold roundEven
  simp only
  split
  · rw [h4]; omega
  · split
    · rw [h3]; omega
    · split
      · rw [h4]; omega
      · rw [h3]; omega

theorem sixDigits_length (n : Nat) : (sixDigits n).length = 6 := rfl

theorem digit_isDigit {d : Nat} (h : d < 10) : isDigit (UInt8.ofNat (48 + d)) = true := by
  have : ∀ d : Fin 10, isDigit (UInt8.ofNat (48 + d.val)) = true := by decide
  exact this ⟨d, h⟩

theorem sixDigits_isDigit (n : Nat) : ∀ c ∈ sixDigits n, isDigit c = true := by
  intro c hc
  simp only [sixDigits, List.mem_map] at hc
  obtain ⟨d, hd, rfl⟩ := hc
  apply digit_isDigit
  simp only [List.mem_cons, List.not_mem_nil, or_false] at hd
  rcases hd with rfl | rfl | rfl | rfl | rfl | rfl <;> exact Nat.mod_lt _ (by decide)

theorem sixDigits_take {n : Nat} (h : n < 1000000) : ∀ d, 3 ≤ d → d ≤ 6 →
    decVal ((sixDigits n).take d) * 10 ^ (6 - d) ≤ n ∧
      n < (decVal ((sixDigits n).take d) + 1) * 10 ^ (6 - d) := by
  have hv : ∀ x, (UInt8.ofNat (48 + x % 10)).toNat - 48 = x % 10 :=
    fun x => digit_val (Nat.mod_lt _ (by decide))
  intro d h3 h6
  have : d = 3 ∨ d = 4 ∨ d = 5 ∨ d = 6 := by omega
  rcases this with rfl | rfl | rfl | rfl <;>
  · simp only [sixDigits, List.map_cons, List.map_nil, List.take_succ_cons, List.take_zero,
      decVal, List.foldl_cons, List.foldl_nil, hv]
    norm_num
    omega

theorem take_point {a : List UInt8} {c : UInt8} {b : List UInt8} {n : Nat} (h : a.length + 1 ≤ n) :
    (a ++ c :: b).take n = a ++ c :: b.take (n - a.length - 1) := by
  rw [List.take_append, List.take_of_length_le (by omega)]
  obtain ⟨k, hk⟩ : ∃ k, n - a.length = k + 1 := ⟨n - a.length - 1, by omega⟩
  rw [hk, List.take_succ_cons, Nat.add_sub_cancel]

/-- The fixed-point text of a `double` with a fraction, cut off after 21 characters. -/
theorem fmtLf_take {v : Dbl} (hv : IsDouble v) (hn : ∀ k : Int, dblVal v ≠ k) :
    ∃ d w, IsDecimal ((fmtLf v).take 21) d w ∧ 3 ≤ d ∧ d ≤ 6 ∧
      (d = 6 ∨ ((fmtLf v).take 21).length = 21) ∧ |w - dblVal v| ≤ 1 / 10 ^ d := by
  cases v with
  | nan => cases hv
  | inf neg => cases hv
  | fin neg m e =>
    have he := frac_exp hn
    obtain ⟨hm, _, _⟩ := hv
    obtain ⟨K, hK⟩ : ∃ K, (-e).toNat = K + 1 := ⟨(-e).toNat - 1, by omega⟩
    have hD2 : 2 ≤ 2 ^ (K + 1) := by
      have : 0 < 2 ^ K := Nat.pow_pos (by decide)
      rw [Nat.pow_succ]; omega
    have hval : dblVal (.fin neg m e) = (if neg then -1 else 1) * ((m : ℚ) / ((2 ^ (K + 1) : Nat) : ℚ)) := by
      simp only [dblVal]
      rw [zpow_neg' e he, hK]
      ring
    rw [hval]
    simp only [fmtLf, if_neg (show ¬ 0 ≤ e by omega), hK]
    generalize hD : 2 ^ (K + 1) = D at hD2
    obtain ⟨hb1, hb2⟩ := roundEven_bound (a := m * 1000000) (d := D) (by omega)
    generalize hN : roundEven (m * 1000000) D = n at hb1 hb2
    have hnlt : n < 10 ^ 22 := by
      apply Nat.lt_of_not_ge
      intro hge
      have : 10 ^ 22 * D ≤ n * D := Nat.mul_le_mul_right _ hge
      omega
    have hip : (digits (n / 1000000)).length ≤ 16 := digits_length_le (by decide) (by omega)
    have hF : n % 1000000 < 1000000 := Nat.mod_lt _ (by decide)
    have hsl : (if neg then [45] else [] : List UInt8).length ≤ 1 := by cases neg <;> simp
    generalize hA : (if neg then [45] else [] : List UInt8) ++ digits (n / 1000000) = A
    have hAl : A.length ≤ 17 := by rw [← hA, List.length_append]; omega
    have hAp : 1 ≤ A.length := by
      rw [← hA, List.length_append]
      have := List.length_pos_iff.mpr (digits_ne_nil (n / 1000000))
      omega
    have hlen : ((sixDigits (n % 1000000)).take (21 - A.length - 1)).length =
        min (21 - A.length - 1) 6 := by simp [sixDigits_length]
    have htake : (sixDigits (n % 1000000)).take (21 - A.length - 1) =
        (sixDigits (n % 1000000)).take (min (21 - A.length - 1) 6) := by
      rcases Nat.le_total (21 - A.length - 1) 6 with h | h
      · rw [Nat.min_eq_left h]
      · rw [Nat.min_eq_right h, List.take_of_length_le (by rw [sixDigits_length]; exact h),
          List.take_of_length_le (by rw [sixDigits_length])]
    rw [take_point (by omega), htake]
    rw [htake] at hlen
    generalize hd : min (21 - A.length - 1) 6 = d at hlen ⊢
    have hd3 : 3 ≤ d := by omega
    have hd6 : d ≤ 6 := by omega
    obtain ⟨hf1, hf2⟩ := sixDigits_take hF d hd3 hd6
    generalize hfp : (sixDigits (n % 1000000)).take d = fp at hlen hf1 hf2
    refine ⟨d, _, ⟨neg, digits (n / 1000000), fp, ?_, digits_ne_nil _, digits_isDigit _, ?_, hlen,
      by omega, ?_, rfl⟩, hd3, hd6, ?_, ?_⟩
    · rw [← hA]
      have e1 : ascii "-" = [45] := by decide
      have e2 : ascii "." = [46] := by decide
      rw [e1, e2]
      simp
    · intro hh
      by_cases h0 : n / 1000000 = 0
      · rw [h0]; rfl
      · exact absurd hh (digits_head _ h0)
    · intro c hc
      rw [← hfp] at hc
      exact sixDigits_isDigit _ c (List.mem_of_mem_take hc)
    · by_cases h6 : d = 6
      · exact .inl h6
      · right
        rw [List.length_append, List.length_cons, hlen]
        omega
    · rw [decVal_digits]
      have hq : (10 : ℚ) ^ d * (10 : ℚ) ^ (6 - d) = 1000000 := by
        rw [← pow_add, show d + (6 - d) = 6 by omega]; norm_num
      have hqN : 10 ^ d * 10 ^ (6 - d) = 1000000 := by
        rw [← Nat.pow_add, show d + (6 - d) = 6 by omega]
      have hdm := Nat.div_add_mod n 1000000
      generalize hr : n % 1000000 = F at hf1 hf2 hdm
      generalize n / 1000000 = N at hdm
      generalize decVal fp = X at hf1 hf2
      -- everything as rationals
      have hDpos : (0 : ℚ) < (D : ℚ) := by
        have : 0 < D := by omega
        exact_mod_cast this
      have hTpos : (0 : ℚ) < (10 : ℚ) ^ d := by positivity
      have hQpos : (0 : ℚ) < (10 : ℚ) ^ (6 - d) := by positivity
      have q1 : 2 * ((n : ℚ) * D) ≤ 2 * (m * 1000000) + D := by exact_mod_cast hb1
      have q2 : 2 * ((m : ℚ) * 1000000) ≤ 2 * (n * D) + D := by exact_mod_cast hb2
      have q3 : (X : ℚ) * 10 ^ (6 - d) ≤ F := by exact_mod_cast hf1
      have hf2' : F + 1 ≤ (X + 1) * 10 ^ (6 - d) := hf2
      have q4 : (F : ℚ) + 1 ≤ (X + 1) * 10 ^ (6 - d) := by exact_mod_cast hf2'
      have q5 : 1000000 * (N : ℚ) + F = n := by exact_mod_cast hdm
      generalize hx : (m : ℚ) / (D : ℚ) = x
      have hxm : (m : ℚ) = x * D := by rw [← hx]; field_simp
      have b1 : (n : ℚ) ≤ x * 1000000 + 1 / 2 := by
        rw [hxm] at q1
        have : (2 * n) * (D : ℚ) ≤ (2 * x * 1000000 + 1) * D := by linarith
        have := le_of_mul_le_mul_right this hDpos
        linarith
      have b2 : x * 1000000 ≤ (n : ℚ) + 1 / 2 := by
        rw [hxm] at q2
        have : (2 * x * 1000000) * (D : ℚ) ≤ (2 * n + 1) * D := by linarith
        have := le_of_mul_le_mul_right this hDpos
        linarith
      have key : |((N : ℚ) + X / 10 ^ d) - x| ≤ 1 / 10 ^ d := by
        have e1 : (X : ℚ) / 10 ^ d = X * 10 ^ (6 - d) / 1000000 := by
          rw [← hq]; field_simp
        have e2 : (1 : ℚ) / 10 ^ d = 10 ^ (6 - d) / 1000000 := by
          rw [← hq]; field_simp
        rw [e1, e2, abs_le]
        constructor <;> linarith
      cases neg with
      | false => simpa using key
      | true =>
        simp only [if_true]
        rw [show (-1 : ℚ) * (N + X / 10 ^ d) - -1 * x = -((N + X / 10 ^ d) - x) by ring, abs_neg]
        exact key

theorem frac_small {neg : Bool} {m : Nat} {e : Int} (hv : IsDouble (.fin neg m e))
    (hn : ∀ k : Int, dblVal (.fin neg m e) ≠ k) :
    -(2 ^ 53 : ℚ) < dblVal (.fin neg m e) ∧ dblVal (.fin neg m e) < 2 ^ 53 := by
  have he := frac_exp hn
  obtain ⟨hm, _, _⟩ := hv
  have hpos : (1 : ℚ) ≤ ((2 ^ (-e).toNat : Nat) : ℚ) := by
    have : 1 ≤ 2 ^ (-e).toNat := Nat.pow_pos (by decide)
    exact_mod_cast this
  have hm' : (m : ℚ) < 2 ^ 53 := by exact_mod_cast hm
  have h0 : (0 : ℚ) ≤ m / ((2 ^ (-e).toNat : Nat) : ℚ) := by positivity
  have h1 : (m : ℚ) / ((2 ^ (-e).toNat : Nat) : ℚ) ≤ m := div_le_self (by positivity) hpos
  have hval : dblVal (.fin neg m e) =
      (if neg then -1 else 1) * ((m : ℚ) / ((2 ^ (-e).toNat : Nat) : ℚ)) := by
    simp only [dblVal]
    rw [zpow_neg' e he]
    ring
  rw [hval]
  cases neg <;> simp only [if_true, if_false, Bool.false_eq_true] <;> constructor <;> linarith

end Mu.Jems
