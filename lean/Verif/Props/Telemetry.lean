import Verif.Props.Link
import Verif.Props.Init
import Verif.Props.BBuf

/-! # Properties C106, C107: JSON documents in a mu_bvec, framed by mu_bisync, sent through a mu_spsc -/

namespace Mu.Telemetry
open Mu
open Mu.Jems (Jems Level)
open Mu.Jems.Spec (Doc Writes depth Fits render ascii escape quote hexChar digitChar renderItems
  renderMembers)
open Mu.Bisync (Sent SentAll decode)
open Mu.Bisync.Spec (isControl)
open Mu.BVec (BVec getCount)
open Mu.BBuf (BBuf Valid view)

/-! ## The text of a document has no control characters -/

theorem ascii_ge {s : String} (h : ∀ c ∈ s.toList, 32 ≤ c.toNat ∧ c.toNat < 256) :
    ∀ b ∈ ascii s, 32 ≤ b := by
  intro b hb
  obtain ⟨c, hc, rfl⟩ := List.mem_map.1 hb
  obtain ⟨h1, h2⟩ := h c hc
  rw [UInt8.le_iff_toNat_le]
  simp only [UInt8.toNat_ofNat']
  show 32 ≤ c.toNat % 256
  omega

theorem natDigits_ge (n : Nat) : ∀ c ∈ (Nat.toDigits 10 n), 32 ≤ c.toNat ∧ c.toNat < 256 := by
  intro c hc
  have := Nat.isDigit_of_mem_toDigits (b := 10) (by omega) (by omega) hc
  simp only [Char.isDigit, Bool.and_eq_true, decide_eq_true_eq] at this
  have h1 : 48 ≤ c.toNat := this.1
  have h2 : c.toNat ≤ 57 := this.2
  omega

theorem int_ge (v : Int) : ∀ b ∈ ascii (toString v), 32 ≤ b := by
  apply ascii_ge
  intro c hc
  cases v with
  | ofNat n =>
    have : c ∈ (Nat.toDigits 10 n) := by simpa [toString, Int.repr, Nat.repr] using hc
    exact natDigits_ge n c this
  | negSucc n =>
    have : c = '-' ∨ c ∈ (Nat.toDigits 10 (n + 1)) := by
      simpa [toString, Int.repr, Nat.repr, String.toList_append] using hc
    rcases this with rfl | h
    · decide
    · exact natDigits_ge _ c h

theorem hex_ge : ∀ n, n < 16 → 32 ≤ hexChar n := by decide

theorem escape_ge (b : UInt8) : ∀ c ∈ escape b, 32 ≤ c := by
  intro c hc
  unfold escape at hc
  have h1 := hex_ge (b.toNat / 16) (by have := b.toNat_lt; omega)
  have h2 := hex_ge (b.toNat % 16) (by omega)
  split at hc
  · simp at hc; rcases hc with rfl | rfl <;> decide
  · split at hc
    · simp at hc; subst hc; decide
    · split at hc
      · rename_i h; simp at hc; subst hc; exact h.1
      · simp at hc
        rcases hc with rfl | rfl | rfl | rfl | rfl
        · decide
        · decide
        · decide
        · exact h1
        · exact h2

theorem quote_ge (s : List UInt8) : ∀ c ∈ quote s, 32 ≤ c := by
  intro c hc
  simp only [quote, List.mem_cons, List.mem_append, List.mem_flatMap, List.not_mem_nil,
    or_false] at hc
  rcases hc with rfl | ⟨b, _, h⟩ | rfl
  · decide
  · exact escape_ge b c h
  · decide

theorem digit_ge (d : Fin 10) : 32 ≤ digitChar d := by
  revert d; decide

mutual
theorem render_ge : ∀ (x : Doc), ∀ c ∈ render x, 32 ≤ c
  | .null => by simp only [render]; decide
  | .bool true => by simp only [render]; decide
  | .bool false => by simp only [render]; decide
  | .int v => by simp only [render]; exact int_ge v
  | .dec neg n f fs => by
    intro c hc
    simp only [render, List.mem_append] at hc
    rcases hc with ((h | h) | h) | h
    · cases neg
      · simp at h
      · revert c; decide
    · exact int_ge _ c h
    · revert c; decide
    · obtain ⟨d, _, rfl⟩ := List.mem_map.1 h
      exact digit_ge d
  | .str s => by simp only [render]; exact quote_ge s
  | .arr l => by
    intro c hc
    simp only [render, List.mem_cons, List.mem_append, List.not_mem_nil, or_false] at hc
    rcases hc with rfl | h | rfl
    · decide
    · exact renderItems_ge true l c h
    · decide
  | .obj l => by
    intro c hc
    simp only [render, List.mem_cons, List.mem_append, List.not_mem_nil, or_false] at hc
    rcases hc with rfl | h | rfl
    · decide
    · exact renderMembers_ge true l c h
    · decide
theorem renderItems_ge : ∀ (first : Bool) (l : List Doc), ∀ c ∈ renderItems first l, 32 ≤ c
  | _, [] => by simp [renderItems]
  | first, x :: l => by
    intro c hc
    simp only [renderItems, List.mem_append] at hc
    rcases hc with (h | h) | h
    · cases first <;> simp at h
      subst h; decide
    · exact render_ge x c h
    · exact renderItems_ge false l c h
theorem renderMembers_ge : ∀ (first : Bool) (l : List (List UInt8 × Doc)),
    ∀ c ∈ renderMembers first l, 32 ≤ c
  | _, [] => by simp [renderMembers]
  | first, (k, x) :: l => by
    intro c hc
    simp only [renderMembers, List.mem_append] at hc
    rcases hc with (((h | h) | h) | h) | h
    · cases first <;> simp at h
      subst h; decide
    · exact quote_ge k c h
    · simp at h; subst h; decide
    · exact render_ge x c h
    · exact renderMembers_ge false l c h
end

theorem not_control {b : UInt8} (h : 32 ≤ b) : isControl b = false := by
  rw [UInt8.le_iff_toNat_le] at h
  have hn : ∀ k : UInt8, k.toNat < 32 → (b == k) = false := by
    intro k hk
    rw [beq_eq_false_iff_ne]
    rintro rfl
    have : (32 : UInt8).toNat = 32 := rfl
    omega
  simp [isControl, hn 1 (by decide), hn 4 (by decide), hn 16 (by decide)]

theorem stuff_plain : ∀ (p : List UInt8), (∀ b ∈ p, 32 ≤ b) → Bisync.Spec.stuff p = p
  | [], _ => rfl
  | b :: p, h => by
    rw [Bisync.stuff_cons, stuff_plain p (fun c hc => h c (List.mem_cons_of_mem _ hc)),
      not_control (h b List.mem_cons_self)]
    rfl

/-! ## The message of a document -/

/-- `p` is the message of the document `x`: calls that emit `x` were made with a writer that appends to
a freshly initialised vector, the text fitted, and `p` are the bytes the vector then holds. -/
def Message (P : Plat) (x : Doc) (p : List UInt8) : Prop :=
  ∃ (ms m m' : Mem) (junk j0 j : Jems) (levels : List Level) (maxLevel : Nat) (writer : Val)
    (arg : Nat) (cs : List Jems.Call) (old v' : BVec) (b : BBuf),
    junk.out = [] ∧ Jems.InitOk P levels maxLevel writer ∧ Writes P ms x cs ∧ depth x < maxLevel ∧
    Fits P.szMod x ∧ Valid m b ∧ b.cap < P.szMod ∧ (render x).length < P.szMod ∧
    Jems.init junk levels maxLevel writer arg = .ok j0 ∧ Jems.calls P ms j0 cs = .ok j ∧
    Jems.intoVec P m (BVec.initB old b) j.out = .ok (m', v') ∧ getCount v' ≤ b.cap ∧
    p = (view m' b).take (getCount v')

theorem Message.text {P : Plat} {x : Doc} {p : List UInt8} (h : Message P x p) : p = render x := by
  obtain ⟨ms, m, m', junk, j0, j, levels, maxLevel, writer, arg, cs, old, v', b, h1, h2, h3, h4, h5,
    h6, h7, h8, h9, h10, h11, h12, rfl⟩ := h
  obtain ⟨k0, k, n', w', e0, e, ev, hm, hcnt, _⟩ :=
    Jems.C88_into_bvec junk h1 arg h2 h3 h4 h5 old h6 h7 h8
  obtain rfl : k0 = j0 := Except.ok.inj (e0.symm.trans h9)
  obtain rfl : k = j := Except.ok.inj (e.symm.trans h10)
  obtain ⟨rfl, rfl⟩ := Prod.mk.inj (Except.ok.inj (ev.symm.trans h11))
  have hl := BBuf.view_length h6
  have hol : (BVec.overwritten (view m b) (render x)).length = b.cap := by
    unfold BVec.overwritten
    simp [hl]; omega
  have hview : view n' b = BVec.overwritten (view m b) (render x) := by
    rw [hm]; exact (BBuf.replaced_valid h6 hol).2
  rw [hview, hcnt] at *
  unfold BVec.overwritten
  rw [List.take_take, hl, Nat.min_eq_left h12, List.take_left]

/-- **C106a.**  The frame of a document is two bytes longer than the document: nothing is stuffed.  It
is SOH, the text, EOT. -/
theorem C106_frame_is_text (P Q : Plat) {x : Doc} {p f : List UInt8} (hx : Message P x p)
    (hs : Sent Q p f) : f = 1 :: (p ++ [4]) ∧ f.length = p.length + 2 := by
  have e : f = 1 :: (p ++ [4]) := by
    rw [Bisync.sent_frame hs, Bisync.Spec.frame, stuff_plain]
    rw [hx.text]; exact render_ge x
  exact ⟨e, by rw [e]; simp⟩

/-- **C106b.**  Whatever document was sent, its frame cut short anywhere is refused by
`mu_bisync_decode`: there is no document whose truncated frame passes for another one. -/
theorem C106_truncation_detected (P Q R : Plat) {x : Doc} {p f : List UInt8} (hx : Message P x p)
    (hs : Sent Q p f) (n : Nat) (hn : n < f.length) (dst : List UInt8) (cap : Nat)
    (hcap : cap ≤ dst.length) (hI : (cap : Int) ≤ R.intMax) (hlen : (f.length : Int) ≤ R.intMax)
    (hroom : p.length + 1 ≤ cap) : ∃ dst', decode R dst cap (f.take n) n = .ok (-2, dst') := by
  refine Bisync.C98_no_eot_detected R Q dst cap p f n hs hn hcap hI hlen hroom ?_
  rw [hx.text]
  intro h4
  exact absurd (render_ge x 4 h4) (by decide)

/-- What the receiver keeps of a decoded frame: the bytes after the SOH that `mu_bisync_decode` leaves
in front of the payload. -/
def payload (n : Int) (dst : List UInt8) : List UInt8 := (dst.take n.toNat).drop 1

/-- **C106c.**  Documents emitted, framed, and sent byte by byte through a `mu_spsc`: under every
interleaving each frame that has been received completely decodes to a text that reads as the document
it was made from. -/
theorem C106_documents_arrive (P Q R : Plat) (q0 : Spsc.Spsc) (store : List Val) (N : Nat)
    (hok : (Spsc.init q0 store N).1 = .none) (halloc : N ≤ store.length) {xs : List Doc}
    {ps fs : List (List UInt8)} (hm : List.Forall₂ (Message P) xs ps) (hf : SentAll Q ps fs)
    (sched : List Spsc.Act) (s : Spsc.Sys)
    (hs : Spsc.exec (Spsc.Sys.start (Spsc.init q0 store N).2) sched = .ok s)
    (hsend : Link.Sends (fs.flatten.map Link.item) s.log)
    (before after : List (List UInt8)) (x : Doc) (f : List UInt8) (hsplit : fs = before ++ f :: after)
    (hx : xs[before.length]? = some x)
    (hgot : (before.flatten ++ f).length ≤ (Link.received s.log).length)
    (dst : List UInt8) (cap : Nat) (hcap : cap ≤ dst.length) (hI : (cap : Int) ≤ R.intMax)
    (hlen : ((Link.received s.log).length : Int) ≤ R.intMax) (hroom : f.length ≤ cap + 1) :
    let inp := (Link.received s.log).drop before.flatten.length
    ∃ n dst', decode R dst cap inp inp.length = .ok (n, dst') ∧
      Jems.Spec.read (payload n dst') = some x := by
  obtain ⟨hlt, hxe⟩ := List.getElem?_eq_some_iff.1 hx
  have hlp : before.length < ps.length := by rw [← hm.length_eq]; exact hlt
  have hmsg : Message P x ps[before.length] := by
    rw [← hxe]
    exact (List.forall₂_iff_get.1 hm).2 _ hlt hlp
  have hfr : Sent Q ps[before.length] f := by
    have h1 : fs[before.length]? = some f := by rw [hsplit]; simp
    clear hs hsend hsplit hgot hmsg hm hx hxe hlt
    revert hlp
    generalize before.length = i at h1
    intro hlp
    induction ps generalizing fs i with
    | nil => simp at hlp
    | cons p ps ih =>
      cases fs with
      | nil => exact hf.elim
      | cons g gs =>
        cases i with
        | zero => obtain rfl : g = f := by simpa using h1
                  exact hf.1
        | succ i => exact ih hf.2 i (by simpa using h1) (by simpa using hlp)
  have hl := (C106_frame_is_text P Q hmsg hfr).2
  have h := (Link.C102_link R Q q0 store N hok halloc hf sched s hs hsend).2 before after
    ps[before.length] f hsplit (List.getElem?_eq_getElem hlp) hgot dst cap hcap hI hlen (by omega)
  refine ⟨_, _, h, ?_⟩
  rw [payload, Int.toNat_natCast, List.take_append_of_le_length (by simp)]
  rw [List.take_of_length_le (by simp)]
  simp only [List.drop_succ_cons, List.drop_zero]
  rw [hmsg.text]
  exact Jems.read_render x

/-- Every document that fits has a message. -/
theorem message_of {P : Plat} {ms m : Mem} (junk : Jems) (hj : junk.out = []) {levels : List Level}
    {maxLevel : Nat} {writer : Val} (arg : Nat) (hi : Jems.InitOk P levels maxLevel writer) {x : Doc}
    {cs : List Jems.Call} (h : Writes P ms x cs) (hd : depth x < maxLevel) (hf : Fits P.szMod x)
    (old : BVec) {b : BBuf} (hv : Valid m b) (hc : b.cap < P.szMod)
    (hlen : (render x).length ≤ b.cap) : Message P x (render x) := by
  obtain ⟨j0, j, m', v', e0, e, ev, _, hcnt, _⟩ :=
    Jems.C88_into_bvec junk hj arg hi h hd hf old hv hc (by omega)
  have hM : Message P x ((view m' b).take (getCount v')) :=
    ⟨ms, m, m', junk, j0, j, levels, maxLevel, writer, arg, cs, old, v', b, hj, hi, h, hd, hf, hv, hc,
      by omega, e0, e, ev, by omega, rfl⟩
  have := hM.text
  rw [this] at hM
  exact hM

/-- The hypotheses are met: `[true,-5]` emitted into a vector of twelve bytes and framed. -/
example : Message Plat.ip16 (.arr [.bool true, .int (-5)]) (ascii "[true,-5]") ∧
    Sent Plat.ip16 (ascii "[true,-5]") (1 :: (ascii "[true,-5]" ++ [4])) := by
  constructor
  · exact message_of (ms := fun _ => []) (m := fun _ => List.replicate 12 46) ⟨[], 0, 0, 0, 0, []⟩ rfl
      (levels := [⟨5, true⟩, ⟨6, true⟩]) (maxLevel := 2) (writer := 1) 7
      ⟨by decide, by decide, by decide, by decide⟩
      (.arr (.cons .true (.cons (.int _ (by decide) (by decide)) .nil))) (by decide)
      ⟨by decide, trivial, trivial, trivial⟩ ⟨⟨⟨3, 3⟩, 3⟩, 3⟩ (b := ⟨⟨0, 0⟩, 12⟩)
      ⟨by decide, by decide⟩ (by decide) (by decide)
  · exact ⟨List.replicate 12 0, 12, 11, 1 :: (ascii "[true,-5]" ++ [4, 0]), by decide, by decide,
      by decide, by decide⟩

/-! ## C107: joining late -/

/-- The positions of SOH in a stream of such frames are the places where the frames begin. -/
theorem soh_positions {P Q : Plat} {xs : List Doc} {ps fs : List (List UInt8)}
    (hm : List.Forall₂ (Message P) xs ps) (hf : SentAll Q ps fs) (j : Nat) :
    fs.flatten[j]? = some 1 ↔
      ∃ before f after, fs = before ++ f :: after ∧ j = before.flatten.length := by
  induction hm generalizing fs j with
  | nil =>
    cases fs with
    | nil => simp
    | cons g gs => exact hf.elim
  | @cons x p xs ps hx hm ih =>
    cases fs with
    | nil => exact hf.elim
    | cons g gs =>
      have hg := (C106_frame_is_text P Q hx hf.1).1
      have hp : ∀ b ∈ p, 32 ≤ b := by rw [hx.text]; exact render_ge x
      rw [List.flatten_cons]
      by_cases hj : j < g.length
      · rw [List.getElem?_append_left hj]
        constructor
        · intro h
          refine ⟨[], g, gs, rfl, ?_⟩
          match j with
          | 0 => rfl
          | j + 1 =>
            exfalso
            rw [hg, List.getElem?_cons_succ] at h
            have := List.mem_of_getElem? h
            simp only [List.mem_append, List.mem_singleton] at this
            rcases this with h | h
            · exact absurd (hp 1 h) (by decide)
            · exact absurd h (by decide)
        · rintro ⟨before, f, after, e, rfl⟩
          cases before with
          | nil => rw [hg]; rfl
          | cons h t =>
            obtain ⟨rfl, _⟩ := List.cons.inj e
            simp at hj
      · rw [List.getElem?_append_right (by omega), ih hf.2]
        constructor
        · rintro ⟨before, f, after, e, e'⟩
          refine ⟨g :: before, f, after, by rw [e]; rfl, ?_⟩
          rw [List.flatten_cons, List.length_append]; omega
        · rintro ⟨before, f, after, e, rfl⟩
          cases before with
          | nil =>
            have : 0 < g.length := by rw [hg]; simp
            rw [List.flatten_nil, List.length_nil] at hj; omega
          | cons h t =>
            obtain ⟨rfl, e2⟩ := List.cons.inj e
            exact ⟨t, f, after, e2, by simp⟩

/-- **C107.**  A receiver joins a stream of framed documents anywhere, and holds the bytes received
since in a buffer.  `mu_bbuf_find_byte(SOH)` then finds the beginning of the first frame that begins
after it joined, and that frame decodes to its document; if the byte is not found, no frame has begun
since. -/
theorem C107_join_late (P Q R : Plat) {xs : List Doc} {ps fs : List (List UInt8)}
    (hm : List.Forall₂ (Message P) xs ps) (hf : SentAll Q ps fs) (k : Nat) {m : Mem} {b : BBuf}
    (hv : Valid m b) (hfit : BBuf.Fits R b) (hb : view m b = fs.flatten.drop k) :
    ∃ r, BBuf.findByte R m b 1 = .ok r ∧
      (r = BBuf.NOT_FOUND R →
        ∀ before f after, fs = before ++ f :: after → before.flatten.length < k) ∧
      (r ≠ BBuf.NOT_FOUND R → ∃ (i : Nat) (before : List (List UInt8)) (f : List UInt8)
        (after : List (List UInt8)) (x : Doc),
        r = i ∧ fs = before ++ f :: after ∧ before.flatten.length = k + i ∧
        xs[before.length]? = some x ∧
        (∀ before' f' after', fs = before' ++ f' :: after' → k ≤ before'.flatten.length →
          before.flatten.length ≤ before'.flatten.length) ∧
        ∀ (dst : List UInt8) (cap : Nat), cap ≤ dst.length → (cap : Int) ≤ R.intMax →
          (fs.flatten.length : Int) ≤ R.intMax → f.length ≤ cap + 1 →
          let inp := (view m b).drop i
          ∃ n dst', decode R dst cap inp inp.length = .ok (n, dst') ∧
            Jems.Spec.read (payload n dst') = some x) := by
  obtain ⟨r, h1, h2, h3⟩ := (BBuf.C43_byte (P := R) hv hfit 1).1
  refine ⟨r, h1, ?_, ?_⟩
  · intro hr before f after e
    apply Nat.lt_of_not_le
    intro hk
    apply h2.1 hr
    rw [hb]
    have := (soh_positions hm hf before.flatten.length).2 ⟨before, f, after, e, rfl⟩
    apply List.mem_of_getElem? (i := before.flatten.length - k)
    rw [List.getElem?_drop]
    rw [← this]
    congr 1
    omega
  · intro hr
    obtain ⟨i, hi, e1, e2⟩ := h3 hr
    rw [hb, List.getElem?_drop] at e1
    obtain ⟨before, f, after, e, hpos⟩ := (soh_positions hm hf (k + i)).1 e1
    have hlf : ∀ {ps fs : List (List UInt8)}, SentAll Q ps fs → ps.length = fs.length := by
      intro ps fs h
      rw [Bisync.sentAll_frames h, List.length_map]
    have hlx : before.length < xs.length := by
      rw [hm.length_eq, hlf hf, e]; simp
    have hlp : before.length < ps.length := by rw [← hm.length_eq]; exact hlx
    have hmsg : Message P xs[before.length] ps[before.length] :=
      (List.forall₂_iff_get.1 hm).2 _ hlx hlp
    refine ⟨i, before, f, after, xs[before.length], hi, e, hpos.symm,
      List.getElem?_eq_getElem hlx, ?_, ?_⟩
    · intro before' f' after' e' hk
      apply Nat.le_of_not_lt
      intro hlt
      have h := (soh_positions hm hf before'.flatten.length).2 ⟨before', f', after', e', rfl⟩
      refine e2 (before'.flatten.length - k) (by omega) ?_
      rw [hb, List.getElem?_drop, ← h]
      congr 1
      omega
    · intro dst cap c1 c2 c3 c4
      have hF := Bisync.sentAll_frames hf
      have hfp : f = Bisync.Spec.frame ps[before.length] := by
        have : fs[before.length]? = some f := by rw [e]; simp
        rw [hF, List.getElem?_map, List.getElem?_eq_getElem hlp] at this
        exact (Option.some.inj this).symm
      have hst : Bisync.Spec.frame ps[before.length] = 1 :: (ps[before.length] ++ [4]) := by
        rw [Bisync.Spec.frame, stuff_plain]
        rw [hmsg.text]; exact render_ge _
      have hpl : ps[before.length].length + 2 = f.length := by rw [hfp, hst]; simp
      have hinp : (view m b).drop i = f ++ after.flatten := by
        rw [hb, List.drop_drop, hpos, e]; simp
      have hdec := Bisync.C63_decode_frame R dst cap ps[before.length] after.flatten c1 c2 (by
        rw [← hfp]
        have : fs.flatten.length = before.flatten.length + (f ++ after.flatten).length := by
          rw [e]; simp
        omega)
      rw [if_pos (by omega), ← hfp] at hdec
      simp only [hinp]
      refine ⟨_, _, hdec, ?_⟩
      rw [payload, Int.toNat_natCast, List.take_append_of_le_length (by simp),
        List.take_of_length_le (by simp)]
      simp only [List.drop_succ_cons, List.drop_zero]
      rw [hmsg.text]
      exact Jems.read_render _

/-- A receiver that joined in the middle of the frame of `[0]`: the next frame begins at 2. -/
example : BBuf.findByte Plat.ip16 (fun _ => [93, 4, 1, 49, 4]) ⟨⟨0, 0⟩, 5⟩ 1 = .ok 2 ∧
    decode Plat.ip16 [9, 9, 9] 3 ([93, 4, 1, 49, 4].drop 2) 3 = .ok (2, [1, 49, 9]) ∧
    payload 2 [1, 49, 9] = render (.int 1) := by decide

end Mu.Telemetry
