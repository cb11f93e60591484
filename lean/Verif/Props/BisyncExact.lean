import Verif.Props.Bisync

/-! # Properties C63, C64: what `mu_bisync_decode` does, completely

C02 and C04 are false of the code.  These two properties say what is true instead, without
exceptions. -/

namespace Mu.Bisync
open Spec

/-- **C63.**  Decoding a frame, followed by anything, into a buffer with room for one byte more than
the payload returns the payload length plus one and writes SOH followed by exactly the payload;
everything behind is unchanged.  With less room the call returns MU_BISYNC_ERR_OFLOW. -/
theorem C63_decode_frame (P : Plat) (dst : List UInt8) (cap : Nat) (p rest : List UInt8)
    (hcap : cap ≤ dst.length) (hI : (cap : Int) ≤ P.intMax)
    (hlen : ((frame p ++ rest).length : Int) ≤ P.intMax) :
    decode P dst cap (frame p ++ rest) (frame p ++ rest).length =
      if p.length + 1 ≤ cap then
        .ok (((p.length + 1 : Nat) : Int), 1 :: p ++ dst.drop (p.length + 1))
      else .ok (-1, (1 :: p).take cap ++ dst.drop cap) := by
  split
  · next h => exact C02_decode_encode_partial P dst cap p rest hcap hI hlen h
  · next h =>
    rw [decode_eq P dst cap _ _ hcap (Nat.le_refl _) hlen, List.take_length, dscan_frame,
      Plat.toInt_of_le hI]
    have h1 : ¬ (frame p ++ rest).head? ≠ some SOH := by simp [frame, SOH]
    have h2 : ¬ (((SOH :: p).length : Nat) : Int) ≤ max (cap : Int) 0 := by simp; omega
    simp only [h1, if_false, h2, Int.toNat_natCast, errOflow]
    have h3 : cap ≤ (SOH :: p).length := by simp; omega
    rw [Nat.min_eq_right h3]
    rfl

/-- **C63, end to end.**  Encoding any payload into a buffer that is large enough and decoding the
bytes produced gives back SOH and the payload: dropping the first decoded byte restores the
payload. -/
theorem C63_round_trip (P : Plat) (p buf dst : List UInt8)
    (hb : (frame p).length ≤ buf.length) (hbI : (buf.length : Int) ≤ P.intMax)
    (hd : p.length + 1 ≤ dst.length) (hdI : (dst.length : Int) ≤ P.intMax) :
    ∃ n buf' k dst', encode P buf buf.length p p.length = .ok (n, buf') ∧
      decode P dst dst.length buf' n.toNat = .ok (k, dst') ∧
      (dst'.take k.toNat).tail = p ∧ (dst'.take k.toNat).head? = some 1 ∧
      dst'.drop k.toNat = dst.drop k.toNat := by
  obtain ⟨n, buf', h1, _, h2⟩ := C02_encode_then_decode_partial P p buf dst hb hbI hd hdI
  refine ⟨n, buf', _, _, h1, h2, ?_, ?_, ?_⟩
  · rw [Int.toNat_natCast, List.take_left' (by simp)]; rfl
  · rw [Int.toNat_natCast, List.take_left' (by simp)]; rfl
  · rw [Int.toNat_natCast, List.drop_left' (by simp)]

/-- Non-vacuity of C63: a payload with all three control bytes, with room and without. -/
example : decode Plat.lp64 (List.replicate 6 9) 6 ([1, 16, 1, 16, 4, 16, 16, 7, 4] ++ [5, 5]) 11
    = .ok (5, [1, 1, 4, 16, 7, 9]) ∧
    [1, 16, 1, 16, 4, 16, 16, 7, 4] = frame [1, 4, 16, 7] ∧
    decode Plat.lp64 (List.replicate 6 9) 3 [1, 16, 1, 16, 4, 16, 16, 7, 4] 9
    = .ok (-1, [1, 1, 4, 9, 9, 9]) := by decide

/-- **C64, no SOH.**  Input that does not start with SOH (the empty input included) is refused and
nothing is written. -/
theorem C64_no_soh (P : Plat) (dst inp : List UInt8) (cap : Nat) (hcap : cap ≤ dst.length)
    (hlen : (inp.length : Int) ≤ P.intMax) (h : inp.head? ≠ some 1) :
    decode P dst cap inp inp.length = .ok (-2, dst) := by
  rw [decode_eq P dst cap inp inp.length hcap (Nat.le_refl _) hlen, List.take_length]
  have : inp.head? ≠ some SOH := h
  simp [this, errFormat]

/-- The input grammar.  Every input that starts with SOH is SOH, complete tokens `e`
standing for the bytes `p`, and a rest which is empty, a lone DLE at the very end, or an unescaped
EOT with anything behind it. -/
theorem input_grammar (x : List UInt8) : ∃ e p r, Body e p ∧ 1 :: x = 1 :: (e ++ r) ∧
    (r = [] ∨ r = [16] ∨ ∃ rest, r = 4 :: rest) := by
  obtain ⟨e, p, r, hb, hx, hr⟩ := body_split x
  exact ⟨e, p, r, hb, by rw [hx], hr⟩

/-- **C64, the result.**  For every input `SOH e r` as in `input_grammar` and every capacity: if SOH
and the bytes the tokens stand for do not fit, MU_BISYNC_ERR_OFLOW, the destination holding the part
that fits; otherwise the destination starts with SOH and those bytes, the rest of it is unchanged, and
the result is their number if an unescaped EOT follows or if the input ends with an escaped EOT, and
MU_BISYNC_ERR_FORMAT in all other cases. -/
theorem C64_decode_exact (P : Plat) (dst : List UInt8) (cap : Nat) (e p r : List UInt8)
    (hcap : cap ≤ dst.length) (hI : (cap : Int) ≤ P.intMax)
    (hlen : ((1 :: (e ++ r)).length : Int) ≤ P.intMax) (hb : Body e p)
    (hr : r = [] ∨ r = [16] ∨ ∃ rest, r = 4 :: rest) :
    (cap < p.length + 1 →
      decode P dst cap (1 :: (e ++ r)) (1 :: (e ++ r)).length =
        .ok (-1, (1 :: p).take cap ++ dst.drop cap)) ∧
    (p.length + 1 ≤ cap → ((∃ rest, r = 4 :: rest) ∨ (r = [] ∧ EndsEscapedEot e)) →
      decode P dst cap (1 :: (e ++ r)) (1 :: (e ++ r)).length =
        .ok (((p.length + 1 : Nat) : Int), 1 :: p ++ dst.drop (p.length + 1))) ∧
    (p.length + 1 ≤ cap → (r = [16] ∨ (r = [] ∧ ¬ EndsEscapedEot e)) →
      decode P dst cap (1 :: (e ++ r)) (1 :: (e ++ r)).length =
        .ok (-2, 1 :: p ++ dst.drop (p.length + 1))) := by
  have key := decode_eq P dst cap (1 :: (e ++ r)) (1 :: (e ++ r)).length hcap (Nat.le_refl _) hlen
  rw [List.take_length, Plat.toInt_of_le hI] at key
  have hsoh : ∀ x, dscan false 0 (1 :: x) = (1 :: (dscan false 1 x).1, (dscan false 1 x).2) := by
    intro x
    have h1 : ¬ (1 : UInt8) = DLE := by decide
    have h2 : ¬ (1 : UInt8) = EOT := by decide
    simp [dscan, h1, h2]
  have hout : (dscan false 1 (e ++ r)).1 = p ∧
      ((dscan false 1 (e ++ r)).2 = EOT ↔
        ((∃ rest, r = 4 :: rest) ∨ (r = [] ∧ EndsEscapedEot e))) := by
    rcases hr with rfl | rfl | ⟨rest, rfl⟩
    · obtain ⟨l', h⟩ := dscan_body hb 1 []
      rw [List.append_nil] at h ⊢
      refine ⟨by rw [h]; simp [dscan], ?_⟩
      rw [last_eot_iff hb 1 (by decide)]
      simp
    · obtain ⟨l', h⟩ := dscan_body hb 1 [16]
      rw [h]
      refine ⟨by simp [dscan, DLE], ?_⟩
      constructor
      · intro h'; simp [dscan, DLE, EOT] at h'
      · intro h'; simp at h'
    · obtain ⟨l', h⟩ := dscan_body hb 1 (4 :: rest)
      rw [h]
      have h4 : dscan false l' (4 :: rest) = ([], EOT) := by
        have : ¬ (4 : UInt8) = DLE := by decide
        simp [dscan, this, EOT]
      rw [h4]
      exact ⟨by simp, by simp⟩
  obtain ⟨o1, o2⟩ := hout
  have h0 : ¬ (1 :: (e ++ r)).head? ≠ some SOH := by simp [SOH]
  rw [if_neg h0, hsoh, o1] at key
  simp only [Int.toNat_natCast] at key
  have hl : (1 :: p).length = p.length + 1 := rfl
  refine ⟨?_, ?_, ?_⟩
  · intro hc
    have h2 : ¬ (((1 :: p).length : Nat) : Int) ≤ max (cap : Int) 0 := by omega
    rw [key]
    simp only [h2, if_false, errOflow]
    rw [Nat.min_eq_right (by omega)]
  · intro hc hgood
    have h2 : (((1 :: p).length : Nat) : Int) ≤ max (cap : Int) 0 := by omega
    rw [key]
    simp only [h2, if_true, o2.mpr hgood]
    rw [List.take_of_length_le (by omega), Nat.min_eq_left (by omega)]
    rfl
  · intro hc hbad
    have h2 : (((1 :: p).length : Nat) : Int) ≤ max (cap : Int) 0 := by omega
    have h3 : ¬ (dscan false 1 (e ++ r)).2 = EOT := by
      rw [o2]
      rintro (⟨rest, rfl⟩ | ⟨rfl, h⟩)
      · simp at hbad
      · rcases hbad with h' | ⟨_, h'⟩
        · simp at h'
        · exact h' h
    rw [key]
    simp only [h2, if_true, h3, if_false, errFormat]
    rw [List.take_of_length_le (by omega), Nat.min_eq_left (by omega)]
    rfl

open Classical in
/-- **C64, every input.**  The two theorems above cover all inputs: any input is either one without
SOH at the front, or one with a reading as complete tokens and a rest, and then the outcome is the one
`C64_decode_exact` gives. -/
theorem C64_every_input (P : Plat) (dst inp : List UInt8) (cap : Nat) (hcap : cap ≤ dst.length)
    (hI : (cap : Int) ≤ P.intMax) (hlen : (inp.length : Int) ≤ P.intMax) :
    (inp.head? ≠ some 1 ∧ decode P dst cap inp inp.length = .ok (-2, dst)) ∨
    ∃ e p r, inp = 1 :: (e ++ r) ∧ Body e p ∧ (r = [] ∨ r = [16] ∨ ∃ rest, r = 4 :: rest) ∧
      decode P dst cap inp inp.length = .ok
        (if cap < p.length + 1 then -1
          else if (∃ rest, r = 4 :: rest) ∨ (r = [] ∧ EndsEscapedEot e) then
            ((p.length + 1 : Nat) : Int)
          else -2,
        (1 :: p).take cap ++ dst.drop (min cap (p.length + 1))) := by
  by_cases h : inp.head? = some 1
  · right
    cases inp with
    | nil => cases h
    | cons c x =>
      obtain rfl : c = 1 := by simpa using h
      obtain ⟨e, p, r, hb, hx, hr⟩ := input_grammar x
      obtain ⟨h1, h2, h3⟩ := C64_decode_exact P dst cap e p r hcap hI (by rw [← hx]; exact hlen) hb hr
      refine ⟨e, p, r, hx, hb, hr, ?_⟩
      rw [hx]
      by_cases hc : cap < p.length + 1
      · rw [h1 hc, if_pos hc, Nat.min_eq_left (by omega)]
      · rw [if_neg hc, Nat.min_eq_right (by omega),
          List.take_of_length_le (by simp only [List.length_cons]; omega)]
        by_cases hg : (∃ rest, r = 4 :: rest) ∨ (r = [] ∧ EndsEscapedEot e)
        · rw [if_pos hg, h2 (by omega) hg]
        · rw [if_neg hg, h3 (by omega) ?_]
          rcases hr with rfl | rfl | ⟨rest, rfl⟩
          · exact .inr ⟨rfl, fun h => hg (.inr ⟨rfl, h⟩)⟩
          · exact .inl rfl
          · exact absurd (.inl ⟨rest, rfl⟩) hg
  · left
    exact ⟨h, C64_no_soh P dst inp cap hcap hlen h⟩

/-- Non-vacuity of C64: an unescaped SOH inside is a token; an escaped EOT at the very end is
accepted; a lone DLE at the end is not; nor is a missing EOT. -/
example : Body [7, 1, 16, 4] [7, 1, 4] ∧
    EndsEscapedEot [7, 1, 16, 4] ∧
    decode Plat.lp64 [9, 9, 9, 9, 9] 5 [1, 7, 1, 16, 4] 5 = .ok (4, [1, 7, 1, 4, 9]) ∧
    decode Plat.lp64 [9, 9, 9, 9, 9] 5 [1, 7, 1, 16] 4 = .ok (-2, [1, 7, 1, 9, 9]) ∧
    decode Plat.lp64 [9, 9, 9, 9, 9] 5 [1, 7, 1] 3 = .ok (-2, [1, 7, 1, 9, 9]) :=
  ⟨.plain (by decide) (by decide) (.plain (by decide) (by decide) (.esc .nil)),
   ⟨[7, 1], [7, 1], .plain (by decide) (by decide) (.plain (by decide) (by decide) .nil), rfl⟩,
   by decide, by decide, by decide⟩

end Mu.Bisync
