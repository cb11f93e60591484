import Verif.Lemmas.Bisync

/-! # Properties C01–C05: mu_bisync -/

namespace Mu.Bisync
open Spec

/-- **C01.**  For every payload (the first `n` bytes at `src`), every capacity up to INT_MAX and
every destination object of at least that capacity: if the frame fits, encode returns its length
and the destination starts with exactly the frame, everything else being unchanged; if it does not
fit, encode returns MU_BISYNC_ERR_OFLOW. -/
theorem C01_encode_exact (P : Plat) (dst : List UInt8) (cap : Nat) (src : List UInt8) (n : Nat)
    (hcap : cap ≤ dst.length) (hn : n ≤ src.length) (hI : (cap : Int) ≤ P.intMax) :
    ((frame (src.take n)).length ≤ cap →
      encode P dst cap src n =
        .ok (((frame (src.take n)).length : Int),
             frame (src.take n) ++ dst.drop (frame (src.take n)).length)) ∧
    (cap < (frame (src.take n)).length →
      ∃ dst', encode P dst cap src n = .ok (-1, dst') ∧ dst'.length = dst.length ∧
        dst'.drop cap = dst.drop cap) := by
  have h := encode_eq P dst cap src n hcap hn
  rw [Plat.toInt_of_le hI] at h
  simp only [Int.toNat_natCast, Int.ofNat_le] at h
  constructor
  · intro hf
    rw [h, if_pos hf, List.take_of_length_le hf, Nat.min_eq_left hf]
  · intro hf
    rw [if_neg (by omega), Nat.min_eq_right (by omega)] at h
    refine ⟨_, h, ?_, ?_⟩
    · simp; omega
    · rw [List.drop_append]
      simp [List.length_take, Nat.min_eq_left (Nat.le_of_lt hf)]

/-- The hypotheses of C01 are met by a payload containing all three control bytes, once with room
(10 bytes needed, 12 available) and once without. -/
example : encode Plat.lp64 (List.replicate 12 0) 12 [7, 1, 4, 16, 9] 5
    = .ok (10, [1, 7, 16, 1, 16, 4, 16, 16, 9, 4, 0, 0]) := by decide
example : encode Plat.lp64 (List.replicate 12 0) 9 [7, 1, 4, 16, 9] 5
    = .ok (-1, [1, 7, 16, 1, 16, 4, 16, 16, 9, 0, 0, 0]) := by decide

/-- C01 really needs the bound: with 16 bit `int` and 32 bit `size_t`, a capacity of 65536 bytes
is converted to 0 and even the empty payload is refused. -/
theorem C01_large_capacity_refused (dst : List UInt8) (h : dst.length = 65536) :
    encode ⟨16, 32, by decide, by decide⟩ dst 65536 [] 0 = .ok (-1, dst) := by
  rw [encode_eq _ _ _ _ _ (by omega) (by simp)]
  have : Plat.toInt ⟨16, 32, by decide, by decide⟩ 65536 = 0 := by decide
  rw [this]; simp [frame, errOflow, stuff]

/-- **C02 is false of the code**: the decoded frame of the payload [42] is [SOH, 42], of length 2,
even with a roomy destination.  (`frame p` is what encode produces, by C01.) -/
theorem C02_false :
    ¬ (∀ (P : Plat) (p dst : List UInt8), p.length + 10 ≤ dst.length →
        (dst.length : Int) ≤ P.intMax →
        decode P dst dst.length (frame p) (frame p).length
          = .ok ((p.length : Int), p ++ dst.drop p.length)) := by
  intro h
  have := h Plat.lp64 [42] (List.replicate 11 0) (by decide) (by decide)
  revert this; decide

/-- **C02, what the code does instead** (partial: the decoded text carries the leading SOH, so it
is one byte longer than the payload).  For every payload and whatever follows the frame in the
receive buffer, decode returns n+1 and writes SOH followed by the payload. -/
theorem C02_decode_encode_partial (P : Plat) (dst : List UInt8) (cap : Nat) (p rest : List UInt8)
    (hcap : cap ≤ dst.length) (hI : (cap : Int) ≤ P.intMax)
    (hlen : ((frame p ++ rest).length : Int) ≤ P.intMax) (hfit : p.length + 1 ≤ cap) :
    decode P dst cap (frame p ++ rest) (frame p ++ rest).length =
      .ok (((p.length + 1 : Nat) : Int), 1 :: p ++ dst.drop (p.length + 1)) := by
  rw [decode_eq P dst cap _ _ hcap (Nat.le_refl _) hlen, List.take_length, dscan_frame,
    Plat.toInt_of_le hI]
  have h1 : ¬ (frame p ++ rest).head? ≠ some SOH := by simp [frame, SOH]
  have h2 : (((SOH :: p).length : Nat) : Int) ≤ max (cap : Int) 0 := by simp; omega
  simp only [h1, if_false, h2, if_true, Int.toNat_natCast]
  have h3 : (SOH :: p).length ≤ cap := by simpa using hfit
  rw [List.take_of_length_le h3, Nat.min_eq_left h3]
  simp [SOH]

/-- The end-to-end form: encode then decode the bytes encode produced, all in one. -/
theorem C02_encode_then_decode_partial (P : Plat) (p buf dst : List UInt8)
    (hb : (frame p).length ≤ buf.length) (hbI : (buf.length : Int) ≤ P.intMax)
    (hd : p.length + 1 ≤ dst.length) (hdI : (dst.length : Int) ≤ P.intMax) :
    ∃ n buf', encode P buf buf.length p p.length = .ok (n, buf') ∧ 0 ≤ n ∧
      decode P dst dst.length buf' n.toNat =
        .ok (((p.length + 1 : Nat) : Int), 1 :: p ++ dst.drop (p.length + 1)) := by
  have h1 := (C01_encode_exact P buf buf.length p p.length (Nat.le_refl _) (Nat.le_refl _) hbI).1
  rw [List.take_length] at h1
  refine ⟨_, _, h1 hb, by omega, ?_⟩
  rw [Int.toNat_natCast]
  have h2 := C02_decode_encode_partial P dst dst.length p [] (Nat.le_refl _) hdI
    (by simp; omega) hd
  have h3 : ∀ x y : List UInt8, x.length ≤ y.length → (x.length : Int) ≤ P.intMax →
      x <+: y → decode P dst dst.length y x.length = decode P dst dst.length x x.length := by
    intro x y hxy hx hpre
    rw [decode_eq P dst _ y x.length (Nat.le_refl _) hxy hx,
      decode_eq P dst _ x x.length (Nat.le_refl _) (Nat.le_refl _) hx]
    rw [List.prefix_iff_eq_take.1 hpre |>.symm, List.take_length]
  rw [h3 (frame p) _ (by simp) (by omega) (List.prefix_append _ _)]
  simpa using h2

example : decode Plat.lp64 (List.replicate 8 0) 8 [1, 7, 16, 4, 4, 99] 6
    = .ok (3, [1, 7, 4, 0, 0, 0, 0, 0]) := by decide

/-- `f` is what `mu_bisync_encode` writes for the payload `p`, into some buffer with room for it. -/
def Sent (P : Plat) (p f : List UInt8) : Prop :=
  ∃ (dst : List UInt8) (cap : Nat) (n : Int) (out : List UInt8),
    cap ≤ dst.length ∧ encode P dst cap p p.length = .ok (n, out) ∧ 0 ≤ n ∧ f = out.take n.toNat

theorem sent_frame {P : Plat} {p f : List UInt8} (h : Sent P p f) : f = frame p := by
  obtain ⟨dst, cap, n, out, h1, h2, h3, rfl⟩ := h
  have := encode_eq P dst cap p p.length h1 (Nat.le_refl _)
  rw [h2, List.take_length] at this
  obtain ⟨e1, e2⟩ := Prod.mk.inj (Except.ok.inj this)
  by_cases hf : ((frame p).length : Int) ≤ P.toInt cap
  · rw [if_pos hf] at e1
    rw [e1, e2, Int.toNat_natCast]
    have hf' : (frame p).length ≤ (P.toInt cap).toNat := by omega
    rw [List.take_of_length_le hf', List.take_left' rfl]
  · rw [if_neg hf] at e1
    rw [e1] at h3
    exact absurd h3 (by decide)

theorem frame_prefix_free (p q r s : List UInt8) (h : frame p ++ r = frame q ++ s) :
    p = q ∧ r = s := by
  have h1 := dscan_frame p 0 r
  have h2 := dscan_frame q 0 s
  rw [h, h2] at h1
  have : p = q := (List.cons.inj (Prod.mk.inj h1).1).2.symm
  subst this
  exact ⟨rfl, List.append_cancel_left h⟩

/-- **C03a.**  Different payloads are sent as different bytes: the bytes determine the payload. -/
theorem C03_sent_injective {P Q : Plat} {p q f : List UInt8} (hp : Sent P p f) (hq : Sent Q q f) :
    p = q := by
  refine (frame_prefix_free p q [] [] ?_).1
  rw [← sent_frame hp, ← sent_frame hq]

/-- **C03b.**  Nothing sent is a proper prefix of something else sent (more generally: what was sent
first is determined by the stream of bytes). -/
theorem C03_sent_prefix_free {P Q : Plat} {p q f g r s : List UInt8} (hp : Sent P p f)
    (hq : Sent Q q g) (h : f ++ r = g ++ s) : p = q ∧ f = g ∧ r = s := by
  rw [sent_frame hp, sent_frame hq] at h
  obtain ⟨rfl, rfl⟩ := frame_prefix_free p q r s h
  exact ⟨rfl, by rw [sent_frame hp, sent_frame hq], rfl⟩

/-- **C03c.**  What decode returns and writes does not depend on the bytes after what was sent, for
any destination capacity (large enough or not). -/
theorem C03_trailing_bytes_ignored (P Q : Plat) (dst : List UInt8) (cap : Nat)
    (p f rest : List UInt8) (hs : Sent Q p f) (hcap : cap ≤ dst.length)
    (hlen : ((f ++ rest).length : Int) ≤ P.intMax) :
    decode P dst cap (f ++ rest) (f ++ rest).length = decode P dst cap f f.length := by
  rw [sent_frame hs] at hlen ⊢
  have hlen' : ((frame p).length : Int) ≤ P.intMax := by simp at hlen; omega
  rw [decode_eq P dst cap _ _ hcap (Nat.le_refl _) hlen,
    decode_eq P dst cap _ _ hcap (Nat.le_refl _) hlen', List.take_length, List.take_length,
    dscan_frame]
  have := dscan_frame p 0 []
  rw [List.append_nil] at this
  rw [this]
  simp [frame]

/-- Non-vacuity: every payload is sent somewhere; here one with control bytes. -/
example : Sent Plat.lp64 [7, 4] [1, 7, 16, 4, 4] ∧ Sent Plat.ip16 [] [1, 4] :=
  ⟨⟨List.replicate 8 0, 8, 5, [1, 7, 16, 4, 4, 0, 0, 0], by decide, by decide, by decide, by decide⟩,
   ⟨List.replicate 2 0, 2, 2, [1, 4], by decide, by decide, by decide, by decide⟩⟩

/-- **C04 is false of the code**: [SOH, DLE, EOT] has no unescaped EOT yet decode accepts it. -/
theorem C04_false :
    ¬ (∀ (P : Plat) (dst inp : List UInt8) (r : Int) (dst' : List UInt8),
        decode P dst dst.length inp inp.length = .ok (r, dst') → 0 ≤ r →
        ∃ p, Terminated inp p) := by
  intro h
  obtain ⟨p, e, rest, hb, he⟩ := h Plat.lp64 [0, 0] [1, 16, 4] 2 [1, 4] (by decide) (by decide)
  have he' : [16, 4] = e ++ 4 :: rest := (List.cons.inj he).2
  cases hb with
  | nil => simp at he'
  | plain h1 h2 _ => simp at he'; exact h1 he'.1.symm
  | esc hb' =>
    have := congrArg List.length he'
    simp at this

/-- **C04, the exact set of accepted inputs** (partial: besides terminated frames the code also
accepts inputs whose very last byte is an escaped EOT).  With enough room, decode of `inp`
succeeds iff `inp` is SOH, complete tokens, then either an unescaped EOT and anything, or the two
final bytes DLE EOT; it then returns the tokens' bytes after the SOH; otherwise it returns
MU_BISYNC_ERR_FORMAT. -/
theorem C04_decode_accepts_partial (P : Plat) (dst inp : List UInt8) (cap : Nat)
    (hcap : cap ≤ dst.length) (hI : (cap : Int) ≤ P.intMax) (hroom : inp.length ≤ cap) :
    (∀ p, Terminated inp p →
      decode P dst cap inp inp.length =
        .ok (((p.length + 1 : Nat) : Int), 1 :: p ++ dst.drop (p.length + 1))) ∧
    (∀ e p, Body e p → inp = 1 :: (e ++ [16, 4]) →
      decode P dst cap inp inp.length =
        .ok (((p.length + 2 : Nat) : Int), 1 :: p ++ [4] ++ dst.drop (p.length + 2))) ∧
    ((¬ ∃ p, Terminated inp p) → (¬ ∃ e p, Body e p ∧ inp = 1 :: (e ++ [16, 4])) →
      ∃ dst', decode P dst cap inp inp.length = .ok (-2, dst')) := by
  have hlen : (inp.length : Int) ≤ P.intMax := by omega
  have key := decode_eq P dst cap inp inp.length hcap (Nat.le_refl _) hlen
  rw [List.take_length, Plat.toInt_of_le hI] at key
  have hout := dscan_length false 0 inp
  have hfit : (((dscan false 0 inp).1.length : Nat) : Int) ≤ max (cap : Int) 0 := by omega
  have hfit' : (dscan false 0 inp).1.length ≤ cap := by omega
  simp only [hfit, if_true, Int.toNat_natCast, List.take_of_length_le hfit',
    Nat.min_eq_left hfit'] at key
  have hsoh : ∀ x, dscan false 0 (1 :: x) = (1 :: (dscan false 1 x).1, (dscan false 1 x).2) := by
    intro x
    have h1 : ¬ (1 : UInt8) = DLE := by decide
    have h2 : ¬ (1 : UInt8) = EOT := by decide
    simp [dscan, h1, h2]
  refine ⟨?_, ?_, ?_⟩
  · rintro p ⟨e, rest, hb, rfl⟩
    obtain ⟨l', hl⟩ := dscan_body hb 1 (4 :: rest)
    have h4 : dscan false l' (4 :: rest) = ([], EOT) := by
      have : ¬ (4 : UInt8) = DLE := by decide
      simp [dscan, this, EOT]
    rw [h4] at hl
    rw [key, hsoh, hl]
    simp [SOH]
  · rintro e p hb rfl
    obtain ⟨l', hl⟩ := dscan_body hb 1 [16, 4]
    have h4 : dscan false l' [16, 4] = ([4], EOT) := by simp [dscan, DLE, EOT]
    rw [h4] at hl
    rw [key, hsoh, hl]
    simp [SOH]
    omega
  · intro hT hE
    rw [key]
    by_cases h0 : inp.head? ≠ some SOH
    · simp [h0, errFormat]
    · simp only [h0, if_false]
      cases inp with
      | nil => simp at h0
      | cons b x =>
        have hb1 : b = 1 := by simpa [SOH] using h0
        subst hb1
        have : (dscan false 0 (1 :: x)).2 ≠ EOT := by
          intro hl
          obtain ⟨e, p, r, hb, hx, hr⟩ := body_split x
          rw [hsoh] at hl
          have hl1 : (dscan false 1 x).2 = EOT := hl
          rcases hr with rfl | rfl | ⟨r', rfl⟩
          · -- the last byte is EOT, but x consists of complete tokens: it must be escaped
            rw [List.append_nil] at hx
            subst hx
            have claim : ∀ (e p : List UInt8), Body e p → ∀ l : UInt8, l ≠ EOT →
                (dscan false l e).2 = EOT → ∃ e' p', Body e' p' ∧ e = e' ++ [16, 4] := by
              intro e p hb
              induction hb with
              | nil => intro l hl h; exact absurd h hl
              | @plain b e p h1 h2 hb ih =>
                intro l hl h
                have h1' : ¬ b = DLE := h1
                have h2' : ¬ b = EOT := h2
                simp only [dscan, h1', h2', if_false] at h
                obtain ⟨e', p', hb', rfl⟩ := ih b h2' h
                exact ⟨b :: e', b :: p', Body.plain h1 h2 hb', rfl⟩
              | @esc b e p hb ih =>
                intro l hl h
                have h16 : (16 : UInt8) = DLE := rfl
                simp only [dscan, h16, if_true] at h
                by_cases h4 : b = EOT
                · cases hb with
                  | nil => exact ⟨[], [], Body.nil, by simp [h4, EOT]⟩
                  | plain h1 h2 hb' =>
                    rename_i b2 e2 p2
                    have h1' : ¬ b2 = DLE := h1
                    have h2' : ¬ b2 = EOT := h2
                    have : (dscan false 0 (b2 :: e2)).2 = EOT := by
                      simpa [dscan, h1', h2'] using h
                    obtain ⟨e', p', hb', he⟩ := ih 0 (by decide) this
                    exact ⟨16 :: b :: e', b :: p', Body.esc hb', by simp [he]⟩
                  | esc hb' =>
                    rename_i b2 e2 p2
                    have : (dscan false 0 (16 :: b2 :: e2)).2 = EOT := by
                      simpa [dscan, h16] using h
                    obtain ⟨e', p', hb', he⟩ := ih 0 (by decide) this
                    exact ⟨16 :: b :: e', b :: p', Body.esc hb', by simp [he]⟩
                · obtain ⟨e', p', hb', rfl⟩ := ih b h4 h
                  exact ⟨16 :: b :: e', b :: p', Body.esc hb', rfl⟩
            obtain ⟨e', p', hb', rfl⟩ := claim x p hb 1 (by decide) hl1
            exact hE ⟨e', p', hb', rfl⟩
          · obtain ⟨l', h'⟩ := dscan_body hb 1 [16]
            rw [hx, h'] at hl1
            simp [dscan, DLE, EOT] at hl1
          · exact hT ⟨p, e, r', hb, by rw [hx]⟩
        simp [this, errFormat]

example : Terminated [1, 7, 16, 4, 4, 9] [7, 4] :=
  ⟨[7, 16, 4], [9], .plain (by decide) (by decide) (.esc .nil), rfl⟩
example : decode Plat.lp64 [0, 0, 0, 0] 4 [1, 7, 9] 3 = .ok (-2, [1, 7, 9, 0]) := by decide

/-- **C05a.**  encode, for every source, length and capacity (even above INT_MAX) never faults,
and leaves everything at and above `cap` unchanged. -/
theorem C05_encode_safe (P : Plat) (dst : List UInt8) (cap : Nat) (src : List UInt8) (n : Nat)
    (hcap : cap ≤ dst.length) (hn : n ≤ src.length) :
    ∃ r dst', encode P dst cap src n = .ok (r, dst') ∧ dst'.length = dst.length ∧
      dst'.drop cap = dst.drop cap ∧
      (0 ≤ r → dst'.drop r.toNat = dst.drop r.toNat ∧ r ≤ cap ∧ r ≤ 2 * n + 2) := by
  have hc := P.toInt_le cap
  refine ⟨_, _, encode_eq P dst cap src n hcap hn, ?_, ?_, ?_⟩
  · simp; omega
  · rw [List.drop_append, List.drop_eq_nil_of_le (by simp; omega)]
    simp only [List.nil_append, List.length_take, List.drop_drop]
    congr 1; omega
  · intro hr
    split at hr
    · rename_i h
      rw [if_pos h]
      refine ⟨?_, by omega, ?_⟩
      · rw [List.drop_append, List.drop_eq_nil_of_le (by simp; omega)]
        simp only [List.nil_append, List.length_take, List.drop_drop]
        congr 1; omega
      · have : ∀ p : List UInt8, (stuff p).length ≤ 2 * p.length := by
          intro p
          induction p with
          | nil => simp [stuff]
          | cons b p ih => rw [stuff_cons]; split <;> simp <;> omega
        have h2 := this (src.take n)
        simp only [frame, List.length_cons, List.length_append, List.length_nil,
          List.length_take] at h2 ⊢
        omega
    · simp [errOflow] at hr

/-- **C05b.**  decode, for every input of at most INT_MAX bytes and every capacity, never faults
and leaves everything at and above `cap` (and, on success, above the returned count) unchanged;
the count never exceeds the input length. -/
theorem C05_decode_safe (P : Plat) (dst : List UInt8) (cap : Nat) (enc : List UInt8) (n : Nat)
    (hcap : cap ≤ dst.length) (hn : n ≤ enc.length) (hnI : (n : Int) ≤ P.intMax) :
    ∃ r dst', decode P dst cap enc n = .ok (r, dst') ∧ dst'.length = dst.length ∧
      dst'.drop cap = dst.drop cap ∧
      (0 ≤ r → dst'.drop r.toNat = dst.drop r.toNat ∧ r ≤ cap ∧ r ≤ n) := by
  have hc := P.toInt_le cap
  have hl := dscan_length false 0 (enc.take n)
  rw [List.length_take] at hl
  have hmain := decode_eq P dst cap enc n hcap hn hnI
  by_cases h0 : (enc.take n).head? ≠ some SOH
  · rw [if_pos h0] at hmain
    exact ⟨_, _, hmain, rfl, rfl, fun h => absurd h (by decide)⟩
  · rw [if_neg h0] at hmain
    refine ⟨_, _, hmain, ?_, ?_, ?_⟩
    · simp; omega
    · rw [List.drop_append, List.drop_eq_nil_of_le (by simp; omega)]
      simp only [List.nil_append, List.length_take, List.drop_drop]
      congr 1; omega
    · intro hr
      split at hr
      · rename_i h
        split at hr
        · rename_i h2
          rw [if_pos h, if_pos h2]
          refine ⟨?_, by omega, by omega⟩
          rw [List.drop_append, List.drop_eq_nil_of_le (by simp; omega)]
          simp only [List.nil_append, List.length_take, List.drop_drop]
          congr 1; omega
        · simp [errFormat] at hr
      · simp [errOflow] at hr

/-- Non-vacuity of C05: an unterminated input into a too small destination. -/
example : decode Plat.lp64 [9, 9, 9] 2 [1, 7, 16, 16, 8] 5 = .ok (-1, [1, 7, 9]) := by decide

end Mu.Bisync
