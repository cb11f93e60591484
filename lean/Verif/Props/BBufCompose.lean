import Verif.Props.BBufExact

/-! # Property C96: a slice of a slice is a slice -/

namespace Mu.BBuf

/-- **C96.**  Slicing a slice gives the very same buffer (same address, same capacity) as slicing the
source once, with the second pair of indices counted from where the first slice begins; for all
indices not below minus the capacity they refer to, negative ones and MU_BBUF_END included.  The
intermediate object `tmp` may be the source or the destination. -/
theorem C96_slice_of_slice {P : Plat} {m : Mem} {O : Objs} {src tmp dst once : Val}
    {start stop start' stop' : Int} (hv : Valid m (O src)) (hf : Fits P (O src))
    (h1 : -((O src).cap : Int) ≤ start) (h2 : start ≤ P.intMax) (h3 : P.intMin ≤ stop)
    (h4 : stop ≤ P.intMax) (g2 : start' ≤ P.intMax) (g3 : P.intMin ≤ stop') (g4 : stop' ≤ P.intMax) :
    ∃ A, slice P m O tmp src start stop = .ok A ∧
      (-((A tmp).cap : Int) ≤ start' →
        ∃ B C, slice P m A dst tmp start' stop' = .ok B ∧
          slice P m O once src ((position (O src).cap start + position (A tmp).cap start' : Nat) : Int)
            ((position (O src).cap start + position (A tmp).cap stop' : Nat) : Int) = .ok C ∧
          B dst = C once) := by
  have hmin := P.intMin_eq
  have hmax := P.intMax_ge
  have hs := position_le (O src).cap start
  have he := position_le (O src).cap stop
  have hfi : ((O src).cap : Int) ≤ P.intMax := hf
  refine ⟨_, slice_ok (dst := tmp) hv hf h1 h2 h3 h4, ?_⟩
  generalize hA : (set O tmp _ : Objs) = A
  have hAt : A tmp = ⟨⟨(O src).p.blk, (O src).p.off + (position (O src).cap start : Int)⟩,
        max (position (O src).cap start) (position (O src).cap stop) -
          position (O src).cap start⟩ := by rw [← hA]; simp [set]
  have hcap : (A tmp).cap = max (position (O src).cap start) (position (O src).cap stop) -
          position (O src).cap start := by rw [hAt]
  have hvA : Valid m (A tmp) := by
    rw [hAt]; exact (view_part hv (by omega)).1
  have hfA : Fits P (A tmp) := by unfold Fits; omega
  intro g1
  have ps := position_le (A tmp).cap start'
  have pe := position_le (A tmp).cap stop'
  refine ⟨_, _, slice_ok (dst := dst) hvA hfA g1 g2 g3 g4,
    slice_ok (dst := once) hv hf (by omega) (by omega) (by omega) (by omega), ?_⟩
  have pid : ∀ i : Nat, i ≤ (O src).cap → position (O src).cap (i : Int) = i := by
    intro i hi
    unfold position
    rw [if_neg (by omega)]
    omega
  simp only [set, if_true]
  rw [pid _ (by omega), pid _ (by omega)]
  generalize position (A tmp).cap start' = x at *
  generalize position (A tmp).cap stop' = y at *
  rw [hAt]
  simp only [BBuf.mk.injEq, Ptr.mk.injEq, true_and]
  constructor <;> omega

/-- Non-vacuity: "abcab"[1..-1] is "bca", of which [-2..END) is "ca"; directly: [2..4). -/
example :
    let m : Mem := fun _ => [97, 98, 99, 97, 98]
    let O : Objs := fun _ => ⟨⟨0, 0⟩, 5⟩
    Valid m (O 0) ∧ Fits Plat.lp64 (O 0) ∧
    position 5 1 + position 3 (-2) = 2 ∧ position 5 1 + position 3 (END Plat.lp64) = 4 ∧
    (do let A ← slice Plat.lp64 m O 1 0 1 (-1)
        let B ← slice Plat.lp64 m A 2 1 (-2) (END Plat.lp64)
        .ok (A 1, B 2)) = .ok (⟨⟨0, 1⟩, 3⟩, ⟨⟨0, 2⟩, 2⟩) := by decide

end Mu.BBuf
