import Verif.Props.BisyncExact

/-! # Properties C97, C98: streams of frames, truncated frames -/

namespace Mu.Bisync
open Spec

/-- `fs` is what `mu_bisync_encode` writes for the payloads `ps`, one after the other. -/
def SentAll (P : Plat) : List (List UInt8) → List (List UInt8) → Prop
  | [], [] => True
  | p :: ps, f :: fs => Sent P p f ∧ SentAll P ps fs
  | _, _ => False

theorem sentAll_frames {P : Plat} : ∀ {ps fs : List (List UInt8)}, SentAll P ps fs → fs = ps.map frame
  | [], [], _ => rfl
  | [], _ :: _, h => h.elim
  | _ :: _, [], h => h.elim
  | p :: ps, f :: fs, h => by rw [List.map_cons, sent_frame h.1, sentAll_frames h.2]

theorem frames_unambiguous : ∀ (ps qs : List (List UInt8)),
    (ps.map frame).flatten = (qs.map frame).flatten → ps = qs
  | [], [] , _ => rfl
  | [], q :: qs, h => by simp [frame] at h
  | p :: ps, [], h => by simp [frame] at h
  | p :: ps, q :: qs, h => by
    simp only [List.map_cons, List.flatten_cons] at h
    obtain ⟨rfl, h2⟩ := frame_prefix_free p q _ _ h
    rw [frames_unambiguous ps qs h2]

/-- **C97a.**  What is sent one after the other determines the payloads and their number. -/
theorem C97_stream_unambiguous {P Q : Plat} {ps qs fs gs : List (List UInt8)}
    (hp : SentAll P ps fs) (hq : SentAll Q qs gs) (h : fs.flatten = gs.flatten) : ps = qs := by
  rw [sentAll_frames hp, sentAll_frames hq] at h
  exact frames_unambiguous ps qs h

/-- **C97b.**  Reading at the start of any frame `f` of the stream, `mu_bisync_decode` delivers exactly
the payload `p` of that frame (after the SOH, as always), whatever follows. -/
theorem C97_decode_in_stream (P Q : Plat) (before after : List (List UInt8)) (p f dst : List UInt8)
    (cap : Nat) (hs : Sent Q p f) (hcap : cap ≤ dst.length) (hI : (cap : Int) ≤ P.intMax)
    (hlen : ((before ++ f :: after).flatten.length : Int) ≤ P.intMax)
    (hroom : p.length + 1 ≤ cap) :
    let stream := (before ++ f :: after).flatten
    let inp := stream.drop before.flatten.length
    decode P dst cap inp inp.length =
      .ok (((p.length + 1 : Nat) : Int), 1 :: p ++ dst.drop (p.length + 1)) := by
  have e : (before ++ f :: after).flatten.drop before.flatten.length =
      frame p ++ after.flatten := by rw [sent_frame hs]; simp
  have hl : ((frame p ++ after.flatten).length : Int) ≤ P.intMax := by
    rw [← e, List.length_drop]; omega
  have := C63_decode_frame P dst cap p after.flatten hcap hI hl
  simp only [e]
  rw [this, if_pos hroom]

example : SentAll Plat.ip16 [[7, 4], []] [[1, 7, 16, 4, 4], [1, 4]] ∧
    decode Plat.ip16 [9, 9, 9] 3 ([1, 7, 16, 4, 4, 1, 4].drop 0) 7 = .ok (3, [1, 7, 4]) ∧
    decode Plat.ip16 [9, 9, 9] 3 ([1, 7, 16, 4, 4, 1, 4].drop 5) 2 = .ok (1, [1, 9, 9]) :=
  ⟨⟨⟨List.replicate 8 0, 8, 5, [1, 7, 16, 4, 4, 0, 0, 0], by decide, by decide, by decide, by decide⟩,
    ⟨[0, 0], 2, 2, [1, 4], by decide, by decide, by decide, by decide⟩, trivial⟩, by decide, by decide⟩

theorem body_fun {e p q : List UInt8} (h : Body e p) (h' : Body e q) : p = q := by
  obtain ⟨l, hl⟩ := dscan_body h 1 []
  obtain ⟨l', hl'⟩ := dscan_body h' 1 []
  rw [hl'] at hl
  have := (Prod.mk.inj hl).1
  simpa [dscan] using this.symm

theorem stuff_append (p q : List UInt8) : stuff (p ++ q) = stuff p ++ stuff q := by
  simp [stuff]

theorem endsEscaped_stuff (q : List UInt8) : EndsEscapedEot (stuff q) ↔ q.getLast? = some 4 := by
  constructor
  · rintro ⟨e', p', hb, he⟩
    have h1 : Body (e' ++ [16, 4]) (p' ++ [4]) := body_append hb (Body.esc Body.nil)
    rw [← he] at h1
    rw [body_fun (body_stuff q) h1]
    simp
  · intro h
    obtain ⟨q', rfl⟩ := List.getLast?_eq_some_iff.1 h
    exact ⟨stuff q', q', body_stuff q', by rw [stuff_append]; rfl⟩

/-- where a cut through the stuffed payload falls -/
theorem cut_stuff (p : List UInt8) : ∀ k, k ≤ (stuff p).length →
    ∃ q r, q <+: p ∧ (stuff p).take k = stuff q ++ r ∧ (r = [] ∨ r = [16]) := by
  induction p with
  | nil => intro k _; exact ⟨[], [], List.prefix_refl _, by simp [stuff], .inl rfl⟩
  | cons b p ih =>
    intro k hk
    rw [stuff_cons] at hk ⊢
    by_cases hb : isControl b = true
    · simp only [hb, if_true] at hk ⊢
      match k with
      | 0 => exact ⟨[], [], List.nil_prefix, by simp [stuff], .inl rfl⟩
      | 1 => exact ⟨[], [16], List.nil_prefix, by simp [stuff], .inr rfl⟩
      | k + 2 =>
        obtain ⟨q, r, h1, h2, h3⟩ := ih k (by simpa using hk)
        refine ⟨b :: q, r, by simpa using h1, ?_, h3⟩
        rw [stuff_cons]
        simp [hb, h2]
    · simp only [hb, Bool.false_eq_true, if_false] at hk ⊢
      match k with
      | 0 => exact ⟨[], [], List.nil_prefix, by simp [stuff], .inl rfl⟩
      | k + 1 =>
        obtain ⟨q, r, h1, h2, h3⟩ := ih k (by simpa using hk)
        refine ⟨b :: q, r, by simpa using h1, ?_, h3⟩
        rw [stuff_cons]
        simp [hb, h2]

theorem truncated_frame (P : Plat) (dst : List UInt8) (cap : Nat) (p : List UInt8) (n : Nat)
    (hn : n < (frame p).length) (hcap : cap ≤ dst.length) (hI : (cap : Int) ≤ P.intMax)
    (hlen : ((frame p).length : Int) ≤ P.intMax) (hroom : p.length + 1 ≤ cap) :
    (∀ q, q <+: p → q.getLast? = some 4 → (frame p).take n = 1 :: stuff q →
      decode P dst cap ((frame p).take n) n =
        .ok (((q.length + 1 : Nat) : Int), 1 :: q ++ dst.drop (q.length + 1))) ∧
    ((¬ ∃ q, q <+: p ∧ q.getLast? = some 4 ∧ (frame p).take n = 1 :: stuff q) →
      ∃ dst', decode P dst cap ((frame p).take n) n = .ok (-2, dst')) := by
  have hlt : ((frame p).take n).length = n := by rw [List.length_take]; omega
  have hfl : (frame p).length = (stuff p).length + 2 := by simp [frame]
  constructor
  · intro q hq h4 he
    have hql := hq.length_le
    have h := (C64_decode_exact P dst cap (stuff q) q [] hcap hI
      (by rw [List.append_nil, ← he, hlt]; omega) (body_stuff q) (.inl rfl)).2.1 (by omega)
      (.inr ⟨rfl, (endsEscaped_stuff q).2 h4⟩)
    rw [List.append_nil, ← he, hlt] at h
    exact h
  · intro hno
    match n with
    | 0 =>
      refine ⟨dst, ?_⟩
      have := C64_no_soh P dst [] cap hcap (by have := P.intMax_ge; simp; omega) (by simp)
      simpa using this
    | k + 1 =>
      have hk : k ≤ (stuff p).length := by omega
      have ht : (frame p).take (k + 1) = 1 :: (stuff p).take k := by
        simp only [frame, List.take_succ_cons, List.cons.injEq, true_and]
        exact List.take_append_of_le_length hk
      obtain ⟨q, r, h1, h2, h3⟩ := cut_stuff p k hk
      rw [h2] at ht
      have hql := h1.length_le
      have h := (C64_decode_exact P dst cap (stuff q) q r hcap hI
        (by rw [← ht, hlt]; omega) (body_stuff q) (by
          rcases h3 with h | h
          · exact .inl h
          · exact .inr (.inl h))).2.2 (by omega) (by
          rcases h3 with h | h
          · refine .inr ⟨h, fun hE => hno ⟨q, h1, (endsEscaped_stuff q).1 hE, ?_⟩⟩
            rw [ht, h, List.append_nil]
          · exact .inl h)
      rw [← ht, hlt] at h
      exact ⟨_, h⟩

/-- **C98.**  A frame cut short after `n` bytes: `mu_bisync_decode` accepts it exactly if the cut falls
right behind an escaped EOT, that is, if the `n` bytes are SOH and the stuffed bytes of a part `q` of
the payload that ends with EOT; then it delivers `q`.  Otherwise it reports MU_BISYNC_ERR_FORMAT. -/
theorem C98_truncated_frame (P Q : Plat) (dst : List UInt8) (cap : Nat) (p f : List UInt8) (n : Nat)
    (hs : Sent Q p f) (hn : n < f.length) (hcap : cap ≤ dst.length) (hI : (cap : Int) ≤ P.intMax)
    (hlen : (f.length : Int) ≤ P.intMax) (hroom : p.length + 1 ≤ cap) :
    (∀ q, q <+: p → q.getLast? = some 4 → f.take n = 1 :: stuff q →
      decode P dst cap (f.take n) n =
        .ok (((q.length + 1 : Nat) : Int), 1 :: q ++ dst.drop (q.length + 1))) ∧
    ((¬ ∃ q, q <+: p ∧ q.getLast? = some 4 ∧ f.take n = 1 :: stuff q) →
      ∃ dst', decode P dst cap (f.take n) n = .ok (-2, dst')) := by
  cases sent_frame hs
  exact truncated_frame P dst cap p n hn hcap hI hlen hroom

/-- **C98, corollary.**  If the payload contains no EOT byte, every truncation of its frame is
detected. -/
theorem C98_no_eot_detected (P Q : Plat) (dst : List UInt8) (cap : Nat) (p f : List UInt8) (n : Nat)
    (hs : Sent Q p f) (hn : n < f.length) (hcap : cap ≤ dst.length) (hI : (cap : Int) ≤ P.intMax)
    (hlen : (f.length : Int) ≤ P.intMax) (hroom : p.length + 1 ≤ cap) (h4 : 4 ∉ p) :
    ∃ dst', decode P dst cap (f.take n) n = .ok (-2, dst') := by
  refine (C98_truncated_frame P Q dst cap p f n hs hn hcap hI hlen hroom).2 ?_
  rintro ⟨q, hq, h, -⟩
  exact h4 (hq.subset (List.mem_of_getLast? h))

/-- Non-vacuity: the frame of 7, 4, 8 cut after the escaped EOT is taken for the payload 7, 4; cut one
byte earlier or later it is refused. -/
example : frame [7, 4, 8] = [1, 7, 16, 4, 8, 4] ∧
    decode Plat.ip16 [9, 9, 9, 9] 4 ((frame [7, 4, 8]).take 4) 4 = .ok (3, [1, 7, 4, 9]) ∧
    decode Plat.ip16 [9, 9, 9, 9] 4 ((frame [7, 4, 8]).take 3) 3 = .ok (-2, [1, 7, 9, 9]) ∧
    decode Plat.ip16 [9, 9, 9, 9] 4 ((frame [7, 4, 8]).take 5) 5 = .ok (-2, [1, 7, 4, 8]) := by decide

end Mu.Bisync
