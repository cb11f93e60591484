import Verif.Props.BVec
import Verif.Lemmas.BBuf
import Verif.Model.JemsVec
import Verif.Props.Jems

/-! # Initialisation and copying of byte buffers and vectors: C87; mu_jems into mu_bvec: C88 -/

namespace Mu.BBuf

/-! ## C87 -/

/-- C87: `mu_bbuf_init_ro`/`_rw`: afterwards the object describes exactly the bytes given, and no other
object changes. -/
theorem C87_init (m : Mem) (O : Objs) (b : Val) (p : Ptr) (cap : Nat) :
    bytes (init O b p cap b) = p ∧ capacity (init O b p cap b) = cap ∧
      view m (init O b p cap b) = ((m p.blk).drop p.off.toNat).take cap ∧
      ∀ x, x ≠ b → init O b p cap x = O x := by
  refine ⟨by simp [init, set, bytes], by simp [init, set, capacity], by simp [init, set, view], ?_⟩
  intro x hx
  simp [init, set, hx]

/-- C87: `mu_bbuf_init_cstr` describes the characters of the string without the terminating NUL. -/
theorem C87_init_cstr {m : Mem} (O : Objs) (b : Val) {p : Ptr} {s : List UInt8} (h : IsCstr m p s) :
    ∃ O', initCstr m O b p = .ok O' ∧ bytes (O' b) = p ∧ capacity (O' b) = s.length ∧
      Valid m (O' b) ∧ view m (O' b) = s ∧ ∀ x, x ≠ b → O' x = O x := by
  refine ⟨set O b ⟨p, s.length⟩, ?_, ?_, ?_, ?_, ?_, ?_⟩
  · rw [initCstr, strlen_ok h]; rfl
  · simp [set, bytes]
  · simp [set, capacity]
  · have := h.at.2
    simp only [set, if_true]
    exact ⟨this.1, this.2.1⟩
  · obtain ⟨_, _, rest, h3⟩ := h
    simp only [set, if_true, view]
    rw [h3, List.take_left]
  · intro x hx; simp [set, hx]

/-- C87: `mu_bbuf_copy` makes `dst` describe the bytes that `src` describes; no other object (in
particular not `src`) changes, and no byte is copied. -/
theorem C87_copy (m : Mem) (O : Objs) (dst src : Val) :
    bytes (copy O dst src dst) = bytes (O src) ∧
      capacity (copy O dst src dst) = capacity (O src) ∧
      view m (copy O dst src dst) = view m (O src) ∧ copy O dst src src = O src ∧
      ∀ x, x ≠ dst → copy O dst src x = O x := by
  refine ⟨by simp [copy, set], by simp [copy, set], by simp [copy, set], ?_, ?_⟩
  · simp [copy, set]
  · intro x hx; simp [copy, set, hx]

example : IsCstr (fun _ => [9, 104, 105, 0, 7]) ⟨0, 1⟩ [104, 105] ∧
    (match initCstr (fun _ => [9, 104, 105, 0, 7]) (fun _ => ⟨⟨5, 5⟩, 5⟩) 3 ⟨0, 1⟩ with
      | .ok O => O 3 = ⟨⟨0, 1⟩, 2⟩ ∧ O 4 = ⟨⟨5, 5⟩, 5⟩ ∧ copy O 6 3 6 = ⟨⟨0, 1⟩, 2⟩
      | .error _ => False) := by
  refine ⟨⟨by decide, by decide, [7], by decide⟩, ?_⟩
  show _ ∧ _ ∧ _
  decide

end Mu.BBuf

namespace Mu.BVec
open BBuf

/-- C87: the three ways to initialise a vector over the bytes of `b`, whatever the object held before:
count 0, the capacity and the bytes of `b`, everything available, and `n` reads return the bytes of `b`
in order and then fail. -/
theorem C87_bvec_init {P : Plat} {m : Mem} (junk : BVec) {b : BBuf} (hv : Valid m b)
    (hc : b.cap < P.szMod) {v : BVec} (h : v = initB junk b ∨ v = init junk b.p b.cap) :
    getCount v = 0 ∧ getCapacity v = capacity b ∧ getBbuf v = b ∧ getAvailable P v = capacity b ∧
      ∀ n d, n < P.szMod → ∃ v', calls P m v (List.replicate n (.read d)) =
        .ok ((List.range n).map (fun i => match (view m b)[i]? with
          | some x => .read true x
          | none => .read false d), m, v') ∧ getCount v' = n := by
  have e : v = ⟨b, 0⟩ := by rcases h with rfl | rfl <;> rfl
  subst e
  refine ⟨rfl, rfl, rfl, ?_, ?_⟩
  · simp only [getAvailable, capacity]
    rw [if_neg (by omega), Plat.szSub_of_le (by omega) hc]; rfl
  · intro n d hn
    have hS : Sane P m ⟨b, 0⟩ := ⟨hv, hc, P.szMod_pos⟩
    obtain ⟨l, h1, h2, h3⟩ := C55_refines (List.replicate n (.read d)) hS
      (by intro k hk; rw [List.eq_of_mem_replicate hk]; trivial)
    simp only at h1 h2 h3
    rw [steps_read _ _ _ _ _ _ (by omega)] at h2 h3
    simp only [Nat.zero_add] at h2 h3
    exact ⟨⟨b, n⟩, h3.trans (by rw [h2, replaced_view hv]; rfl), rfl⟩

example : (match calls Plat.ip16 (fun _ => [1, 2, 3]) (initB ⟨⟨⟨7, 7⟩, 7⟩, 7⟩ ⟨⟨0, 1⟩, 2⟩)
      [.read 0, .read 0, .read 0] with
    | .ok (rs, _, _) => rs = [.read true 2, .read true 3, .read false 0]
    | .error _ => False) := by
  show _ = _
  decide

end Mu.BVec

namespace Mu.Jems
open Spec BBuf
open Mu.BVec (BVec getCount getCapacity getAvailable overwritten)

theorem intoVec_eq {P : Plat} : ∀ (es : List Emit) (m : Mem) (v : BVec),
    intoVec P m v es = (do
      let (_, m, v) ← BVec.calls P m v (es.map (fun e => BVec.Call.write e.ch))
      .ok (m, v)) := by
  intro es
  induction es with
  | nil => intro m v; rfl
  | cons e es ih =>
    intro m v
    simp only [intoVec, List.map_cons, BVec.calls, BVec.call]
    cases h : BVec.writeByte P m v e.ch with
    | error f => rfl
    | ok r =>
      obtain ⟨b, m', v'⟩ := r
      simp only [C.ok_bind, ih]
      cases BVec.calls P m' v' (es.map (fun e => BVec.Call.write e.ch)) <;> rfl

/-- C88.  A document emitted with a writer that appends to a freshly initialised vector of `cap` bytes:
the buffer then begins with the compact text of the document, cut at the capacity; the rest of the
buffer, and everything outside of it, is as before; the count is the length of the text. -/
theorem C88_into_bvec {P : Plat} {ms m : Mem} (junk : Jems) (hj : junk.out = [])
    {levels : List Level} {maxLevel : Nat} {writer : Val} (arg : Nat)
    (hi : InitOk P levels maxLevel writer) {x : Doc} {cs : List Call} (h : Writes P ms x cs)
    (hd : depth x < maxLevel) (hf : Fits P.szMod x) (old : BVec) {b : BBuf} (hv : Valid m b)
    (hc : b.cap < P.szMod) (hlen : (render x).length < P.szMod) :
    ∃ j0 j m' v', init junk levels maxLevel writer arg = .ok j0 ∧ calls P ms j0 cs = .ok j ∧
      intoVec P m (BVec.initB old b) j.out = .ok (m', v') ∧
      m' = replaced m b (overwritten (view m b) (render x)) ∧
      getCount v' = (render x).length ∧ getCapacity v' = b.cap := by
  obtain ⟨j0, j, h0, h1, h2⟩ := C56_document junk arg hi h hd hf
  have hS : BVec.Sane P m (BVec.initB old b) := ⟨hv, hc, P.szMod_pos⟩
  obtain ⟨l, e1, e2, e3⟩ := BVec.C55_refines ((render x).map .write) hS
    (by intro k hk; obtain ⟨c, _, rfl⟩ := List.mem_map.mp hk; trivial)
  have hcnt : (BVec.initB old b).count = 0 := rfl
  have hbb : (BVec.initB old b).bbuf = b := rfl
  rw [hcnt, hbb, BVec.steps_write _ _ _ _ _ (by omega)] at e2 e3
  simp only [Nat.zero_add, List.take_zero, List.nil_append, Nat.sub_zero] at e2 e3
  refine ⟨j0, j, replaced m b l, ⟨b, (render x).length⟩, h0, h1, ?_, ?_, rfl, rfl⟩
  · rw [intoVec_eq, h2, hj]
    have : (([] ++ written writer arg (render x)).map (fun e : Emit => BVec.Call.write e.ch)) =
        (render x).map BVec.Call.write := by
      simp [written, List.map_map, Function.comp_def]
    rw [this, e3]; rfl
  · rw [e2]; rfl

/-- C88, what that buffer holds: if the text fits (the count does not exceed the capacity), its first
`count` bytes are valid JSON that denotes the document, followed by the old bytes; if not, the buffer
is full with the beginning of the text. -/
theorem C88_contents {P : Plat} {ms m : Mem} (junk : Jems) (hj : junk.out = [])
    {levels : List Level} {maxLevel : Nat} {writer : Val} (arg : Nat)
    (hi : InitOk P levels maxLevel writer) {x : Doc} {cs : List Call} (h : Writes P ms x cs)
    (hd : depth x < maxLevel) (hf : Fits P.szMod x) (old : BVec) {b : BBuf} (hv : Valid m b)
    (hc : b.cap < P.szMod) (hlen : (render x).length < P.szMod) :
    ∃ j0 j m' v', init junk levels maxLevel writer arg = .ok j0 ∧ calls P ms j0 cs = .ok j ∧
      intoVec P m (BVec.initB old b) j.out = .ok (m', v') ∧ Valid m' b ∧
      (getCount v' ≤ b.cap →
        Spec.read ((view m' b).take (getCount v')) = some x ∧
        (view m' b).drop (getCount v') = (view m b).drop (getCount v')) ∧
      (b.cap < getCount v' → view m' b = (render x).take b.cap) := by
  obtain ⟨j0, j, m', v', e0, e, ev, hm, hcnt, _⟩ :=
    C88_into_bvec junk hj arg hi h hd hf old hv hc hlen
  have hl := view_length hv
  have hol : (overwritten (view m b) (render x)).length = b.cap := by
    unfold overwritten
    simp [hl]; omega
  have hview : view m' b = overwritten (view m b) (render x) := by
    rw [hm]; exact (replaced_valid hv hol).2
  refine ⟨j0, j, m', v', e0, e, ev, ?_, ?_, ?_⟩
  · rw [hm]; exact (replaced_valid hv hol).1
  · intro hle
    rw [hview, hcnt] at *
    constructor
    · unfold overwritten
      rw [List.take_take, hl, Nat.min_eq_left hle, List.take_left]
      exact read_render x
    · unfold overwritten
      rw [List.take_of_length_le (by simp; omega), List.drop_left]
  · intro hle
    rw [hview, hcnt] at *
    unfold overwritten
    rw [hl, List.take_append_of_le_length (by omega)]

/-- A concrete emission of `[true,-5]` into seven bytes of a buffer of nine: cut after seven. -/
example : (match init ⟨[], 0, 0, 0, 0, []⟩ [⟨5, true⟩, ⟨6, true⟩] 2 1 7 with
    | .ok j0 => match calls Plat.ip16 (fun _ => []) j0
          [.item .arrayOpen, .item .true, .item (.integer (-5)), .arrayClose] with
      | .ok j => match intoVec Plat.ip16 (fun _ => List.replicate 9 46) (BVec.initB ⟨⟨⟨3, 3⟩, 3⟩, 3⟩
            ⟨⟨0, 1⟩, 7⟩) j.out with
        | .ok (m, v) => m 0 = ascii ".[true,-." ∧ getCount v = 9 ∧ getCapacity v = 7
        | .error _ => False
      | .error _ => False
    | .error _ => False) := by
  show _ ∧ _ ∧ _
  exact ⟨by decide, by decide, by decide⟩

end Mu.Jems
