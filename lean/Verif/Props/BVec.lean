import Verif.Spec.BVec
import Verif.Lemmas.BBufMut
import Mathlib.Data.List.Induction

/-! # Properties of mu_bvec: C54, C55 -/

namespace Mu.BVec
open BBuf

/-- Counts and capacities are `size_t` values. -/
def Sane (P : Plat) (m : Mem) (v : BVec) : Prop :=
  Valid m v.bbuf ∧ v.bbuf.cap < P.szMod ∧ v.count < P.szMod

/-- The values passed to `mu_bvec_set_count` are `size_t` values. -/
def Call.Sane (P : Plat) : Call → Prop
  | .setCount n => n < P.szMod
  | _ => True

theorem call_ok {P : Plat} {m : Mem} {v : BVec} (h : Sane P m v) {k : Call} (hk : k.Sane P) :
    ∃ l, l.length = v.bbuf.cap ∧ l = (Spec.step P.szMod v.bbuf.p (view m v.bbuf) v.count k).2.1 ∧
      call P m v k = .ok ((Spec.step P.szMod v.bbuf.p (view m v.bbuf) v.count k).1,
        replaced m v.bbuf l, ⟨v.bbuf, (Spec.step P.szMod v.bbuf.p (view m v.bbuf) v.count k).2.2⟩) ∧
      (Spec.step P.szMod v.bbuf.p (view m v.bbuf) v.count k).2.2 < P.szMod := by
  obtain ⟨hv, hc, hn⟩ := h
  have hl := view_length hv
  have hM := P.szMod_pos
  cases k with
  | setCount n =>
    exact ⟨_, hl, rfl, by simp [call, Spec.step, setCount, replaced_view hv], hk⟩
  | reset => exact ⟨_, hl, rfl, by simp [call, Spec.step, reset, replaced_view hv], hM⟩
  | available =>
    refine ⟨_, hl, rfl, ?_, hn⟩
    simp only [call, Spec.step, getAvailable, replaced_view hv, hl]
    by_cases h : v.count > v.bbuf.cap
    · rw [if_pos h, show v.bbuf.cap - v.count = 0 by omega]
    · rw [if_neg h, Plat.szSub_of_le (by omega) hc]
  | count => exact ⟨_, hl, rfl, by simp [call, Spec.step, getCount, replaced_view hv], hn⟩
  | capacity =>
    exact ⟨_, hl, rfl, by simp [call, Spec.step, getCapacity, capacity, replaced_view hv, hl], hn⟩
  | ref i =>
    refine ⟨_, hl, rfl, ?_, hn⟩
    simp only [call, refAt, ref, Spec.step, replaced_view hv, hl]
    by_cases h : i < v.bbuf.cap
    · rw [if_pos h, hv.at.add (by omega), if_pos h]; rfl
    · rw [if_neg h, if_neg h]; rfl
  | read b =>
    refine ⟨_, hl, rfl, ?_, Nat.mod_lt _ hM⟩
    simp only [call, readByte, refAt, ref, Spec.step, replaced_view hv]
    by_cases h : v.count < v.bbuf.cap
    · rw [if_pos h, hv.at.add (by omega), List.getElem?_eq_getElem (by omega)]
      have hp := (hv.at.drop (i := v.count) (by omega)).ld' (i := 0) (k := 0)
        (by simp; omega) rfl
      simp only [C.ok_bind]
      rw [hp]
      simp [Plat.sz]
    · rw [if_neg h, List.getElem?_eq_none (by omega)]
      simp [Plat.sz]
  | write b =>
    refine ⟨(view m v.bbuf).set v.count b, by simpa using hl, rfl, ?_, Nat.mod_lt _ hM⟩
    simp only [call, writeByte, refAt, ref, Spec.step, hl]
    by_cases h : v.count < v.bbuf.cap
    · rw [if_pos h, hv.at.add (by omega)]
      have hp := st_ok hv h b
      have e : m.st ⟨v.bbuf.p.blk, v.bbuf.p.off + (v.count : Int)⟩ 0 b = m.st v.bbuf.p v.count b := by
        simp [Mem.st]
      simp only [C.ok_bind]
      rw [e, hp]
      simp [Plat.sz, h]
    · rw [if_neg h, List.set_eq_of_length_le (by omega), replaced_view hv]
      simp [Plat.sz, h]

/-- C55 (and the whole behaviour of mu_bvec): every history of calls, from any state with any
count, is defined and returns exactly what the byte list with a position returns; only bytes of the
buffer change (`replaced`). -/
theorem C55_refines {P : Plat} : ∀ (ks : List Call) {m : Mem} {v : BVec}, Sane P m v →
    (∀ k ∈ ks, k.Sane P) → ∃ l, l.length = v.bbuf.cap ∧
      l = (Spec.steps P.szMod v.bbuf.p (view m v.bbuf) v.count ks).2.1 ∧
      calls P m v ks = .ok ((Spec.steps P.szMod v.bbuf.p (view m v.bbuf) v.count ks).1,
        replaced m v.bbuf l, ⟨v.bbuf, (Spec.steps P.szMod v.bbuf.p (view m v.bbuf) v.count ks).2.2⟩) := by
  intro ks
  induction ks with
  | nil =>
    intro m v h _
    exact ⟨_, view_length h.1, rfl, by simp [calls, Spec.steps, replaced_view h.1]⟩
  | cons k ks ih =>
    intro m v h hks
    obtain ⟨l, h1, h2, h3, h4⟩ := call_ok h (hks k (by simp))
    obtain ⟨w1, w2⟩ := replaced_valid h.1 h1
    obtain ⟨l', g1, g2, g3⟩ := ih (m := replaced m v.bbuf l)
      (v := ⟨v.bbuf, (Spec.step P.szMod v.bbuf.p (view m v.bbuf) v.count k).2.2⟩) ⟨w1, h.2.1, h4⟩
      (fun k hk => hks k (by simp [hk]))
    simp only at g1 g2 g3
    rw [w2, h2] at g2 g3
    refine ⟨l', g1, g2, ?_⟩
    simp only [calls]
    rw [h3]
    simp only [C.ok_bind]
    rw [h2] at h1 ⊢
    rw [g3]
    simp only [C.ok_bind, replaced_replaced h.1 h1]
    rfl

/-- C55, single calls: at or past the capacity a read or write returns false and changes no byte;
before it, it succeeds. -/
theorem C55_bounds {P : Plat} {m : Mem} {v : BVec} (h : Sane P m v) (b : UInt8) :
    (v.bbuf.cap ≤ v.count →
      readByte P m v b = .ok (false, b, ⟨v.bbuf, (v.count + 1) % P.szMod⟩) ∧
      writeByte P m v b = .ok (false, m, ⟨v.bbuf, (v.count + 1) % P.szMod⟩)) ∧
    (v.count < v.bbuf.cap →
      (∃ x, (view m v.bbuf)[v.count]? = some x ∧
        readByte P m v b = .ok (true, x, ⟨v.bbuf, (v.count + 1) % P.szMod⟩)) ∧
      writeByte P m v b = .ok (true, replaced m v.bbuf ((view m v.bbuf).set v.count b),
        ⟨v.bbuf, (v.count + 1) % P.szMod⟩)) ∧
    getAvailable P v = v.bbuf.cap - v.count := by
  obtain ⟨hv, hc, hn⟩ := h
  have hl := view_length hv
  refine ⟨fun h => ?_, fun h => ?_, ?_⟩
  · unfold readByte writeByte refAt ref
    simp only [if_neg (Nat.not_lt.mpr h), C.ok_bind]
    exact ⟨rfl, rfl⟩
  · obtain ⟨x, hx⟩ : ∃ x, (view m v.bbuf)[v.count]? = some x :=
      ⟨_, List.getElem?_eq_getElem (by omega)⟩
    have hp := (hv.at.drop (i := v.count) (by omega)).ld' (i := 0) (k := 0) (by simp; omega) rfl
    have e : m.st ⟨v.bbuf.p.blk, v.bbuf.p.off + (v.count : Int)⟩ 0 b = m.st v.bbuf.p v.count b := by
      simp [Mem.st]
    have hx' : (view m v.bbuf)[v.count]'(by omega) = x := by
      rw [List.getElem?_eq_getElem (by omega)] at hx
      exact Option.some.inj hx
    unfold readByte writeByte refAt ref
    rw [if_pos h, hv.at.add (by omega)]
    simp only [C.ok_bind]
    rw [hp, e, st_ok hv h b]
    refine ⟨⟨x, hx, ?_⟩, ?_⟩
    · simp [Plat.sz, hx']
    · simp [Plat.sz]
  · unfold getAvailable
    by_cases h : v.count > v.bbuf.cap
    · rw [if_pos h]; omega
    · rw [if_neg h, Plat.szSub_of_le (by omega) hc]

example : Sane Plat.ip16 (fun _ => [1, 2, 3]) ⟨⟨⟨0, 1⟩, 2⟩, 65535⟩ := by
  refine ⟨⟨by decide, by decide⟩, by decide, by decide⟩

/-- A write with the count at `SIZE_MAX` fails and wraps the count to 0, so the next one succeeds and
overwrites the first byte. -/
example : (match calls Plat.ip16 (fun _ => [1, 2, 3]) ⟨⟨⟨0, 1⟩, 2⟩, 65535⟩
      [.available, .write 9, .write 8, .read 0] with
    | .ok (rs, m, v) => rs = [.num 0, .write false, .write true, .read true 3] ∧ m 0 = [1, 8, 3] ∧
        v.count = 2
    | .error _ => False) := by
  show _ ∧ _ ∧ _
  exact ⟨by decide, by decide, by decide⟩

/-! ## C54 -/

theorem steps_append (M : Nat) (base : Ptr) (a b : List Call) : ∀ (l : List UInt8) (c : Nat),
    Spec.steps M base l c (a ++ b) =
      ((Spec.steps M base l c a).1 ++ (Spec.steps M base (Spec.steps M base l c a).2.1
          (Spec.steps M base l c a).2.2 b).1,
        (Spec.steps M base (Spec.steps M base l c a).2.1 (Spec.steps M base l c a).2.2 b).2) := by
  induction a with
  | nil => intro l c; rfl
  | cons k a ih =>
    intro l c
    simp only [List.cons_append, Spec.steps, ih]

theorem steps_write (M : Nat) (base : Ptr) (bs : List UInt8) : ∀ (l : List UInt8) (c : Nat),
    c + bs.length < M →
    Spec.steps M base l c (bs.map .write) =
      ((List.range bs.length).map (fun i => .write (decide (c + i < l.length))),
        l.take c ++ (bs ++ l.drop (c + bs.length)).take (l.length - c), c + bs.length) := by
  induction bs with
  | nil =>
    intro l c h
    simp only [List.map_nil, Spec.steps, List.length_nil, List.range_zero, Nat.add_zero,
      List.nil_append]
    rw [List.take_of_length_le (l := l.drop c) (i := l.length - c) (by simp),
      List.take_append_drop]
  | cons b bs ih =>
    intro l c h
    simp only [List.length_cons] at h
    simp only [List.map_cons, Spec.steps, Spec.step]
    rw [Nat.mod_eq_of_lt (by omega), ih _ _ (by omega)]
    simp only [List.length_set, List.length_cons]
    refine Prod.ext ?_ (Prod.ext ?_ ?_)
    · simp only [List.range_succ_eq_map, List.map_cons, List.map_map, Nat.add_zero]
      congr 1
      apply List.map_congr_left
      intro i _
      simp only [Function.comp_apply, Nat.succ_eq_add_one]
      rw [show c + 1 + i = c + (i + 1) by omega]
    · simp only
      by_cases hc : c < l.length
      · have e1 : (l.set c b).take (c + 1) = l.take c ++ [b] := by
          rw [List.set_eq_take_append_cons_drop, if_pos hc]
          rw [List.take_append, List.take_of_length_le (by simp; omega)]
          simp [Nat.min_eq_left (Nat.le_of_lt hc)]
        have e2 : (l.set c b).drop (c + 1 + bs.length) = l.drop (c + 1 + bs.length) := by
          rw [List.drop_set, if_pos (by omega)]
        rw [e1, e2, show l.length - c = (l.length - (c + 1)) + 1 by omega, List.cons_append,
          List.take_succ_cons, show c + (bs.length + 1) = c + 1 + bs.length by omega]
        simp
      · rw [List.set_eq_of_length_le (by omega), show l.length - c = 0 by omega,
          show l.length - (c + 1) = 0 by omega, List.take_of_length_le (i := c) (by omega),
          List.take_of_length_le (i := c + 1) (by omega)]
        simp
    · simp only; omega

theorem steps_read (M : Nat) (base : Ptr) : ∀ (n : Nat) (l : List UInt8) (c : Nat) (d : UInt8), c + n < M →
    Spec.steps M base l c (List.replicate n (.read d)) =
      ((List.range n).map (fun i => match l[c + i]? with
        | some x => .read true x
        | none => .read false d), l, c + n) := by
  intro n
  induction n with
  | zero => intro l c d _; rfl
  | succ n ih =>
    intro l c d h
    simp only [List.replicate_succ, Spec.steps, Spec.step]
    rw [Nat.mod_eq_of_lt (by omega), ih _ _ _ (by omega)]
    refine Prod.ext ?_ (Prod.ext rfl ?_)
    · simp only [List.range_succ_eq_map, List.map_cons, List.map_map, Nat.add_zero]
      congr 1
      apply List.map_congr_left
      intro i _
      simp only [Function.comp_apply, Nat.succ_eq_add_one]
      rw [show c + 1 + i = c + (i + 1) by omega]
    · simp only; omega

/-- The bytes of `bs`, then those of `old` that were not overwritten: what a buffer with the old
contents `old` holds after `bs` was written to its beginning. -/
def overwritten (old bs : List UInt8) : List UInt8 := (bs ++ old.drop bs.length).take old.length

/-- C54.  Write `bs` to a freshly initialised vector, reset it, read `n` times: the `i`-th write
succeeds iff `i < capacity`; the `j`-th read returns the `j`-th byte written, from there on the old
contents, and fails from the capacity on.  (At most `SIZE_MAX` calls of each kind, so that the count
does not wrap.) -/
theorem C54_write_read_back {P : Plat} {m : Mem} (junk : BVec) (p : Ptr) (cap : Nat)
    (hv : Valid m ⟨p, cap⟩) (hc : cap < P.szMod) (bs : List UInt8) (n : Nat) (d : UInt8)
    (hb : bs.length < P.szMod) (hn : n < P.szMod) :
    ∃ m' v', calls P m (init junk p cap)
        (bs.map .write ++ [.reset] ++ List.replicate n (.read d)) =
      .ok ((List.range bs.length).map (fun i => .write (decide (i < cap))) ++ [.unit] ++
        (List.range n).map (fun j => match (overwritten (view m ⟨p, cap⟩) bs)[j]? with
          | some x => .read true x
          | none => .read false d), m', v') ∧
      (overwritten (view m ⟨p, cap⟩) bs).length = cap ∧
      (∀ i, i < cap → i < bs.length → (overwritten (view m ⟨p, cap⟩) bs)[i]? = bs[i]?) := by
  have hl : (view m ⟨p, cap⟩).length = cap := view_length hv
  have hS : Sane P m (init junk p cap) := ⟨hv, hc, P.szMod_pos⟩
  obtain ⟨l, h1, h2, h3⟩ := C55_refines (bs.map .write ++ [.reset] ++ List.replicate n (.read d)) hS
    (by
      intro k hk
      simp only [List.mem_append, List.mem_map, List.mem_singleton, List.mem_replicate] at hk
      rcases hk with (⟨b, _, rfl⟩ | rfl) | ⟨_, rfl⟩ <;> trivial)
  refine ⟨replaced m ⟨p, cap⟩ l, ⟨⟨p, cap⟩, (Spec.steps P.szMod p (view m ⟨p, cap⟩) 0
    (bs.map .write ++ [.reset] ++ List.replicate n (.read d))).2.2⟩, h3.trans ?_, ?_, ?_⟩
  · refine congrArg Except.ok (Prod.ext ?_ rfl)
    simp only
    have e : (init junk p cap).bbuf = ⟨p, cap⟩ := rfl
    have e2 : (init junk p cap).count = 0 := rfl
    rw [e, e2, steps_append, steps_append, steps_write _ _ _ _ _ (by omega)]
    simp only [Spec.steps, Spec.step]
    rw [steps_read _ _ _ _ _ _ (by omega)]
    simp only [hl, Nat.zero_add, List.take_zero, List.nil_append, Nat.sub_zero]
    unfold overwritten
    rw [hl]
  · unfold overwritten; simp; omega
  · intro i hi1 hi2
    unfold overwritten
    rw [List.getElem?_take_of_lt (by omega), List.getElem?_append_left hi2]

example : (match calls Plat.ip16 (fun _ => [1, 2, 3]) (init ⟨⟨⟨7, 7⟩, 7⟩, 7⟩ ⟨0, 1⟩ 2)
      ([5, 6, 7].map .write ++ [.reset] ++ List.replicate 3 (.read 0)) with
    | .ok (rs, m, _) => rs = [.write true, .write true, .write false, .unit, .read true 5,
        .read true 6, .read false 0] ∧ m 0 = [1, 5, 6]
    | .error _ => False) := by
  show _ ∧ _
  exact ⟨by decide, by decide⟩

end Mu.BVec
