import Verif.Props.Jems
import Verif.Lemmas.JemsNumber

/-! # Properties of mu_jems_number: C61, C62 -/

namespace Mu.Jems
open Spec

/-- C61, integral values: `mu_jems_number` does exactly what `mu_jems_integer` does. -/
theorem C61_integral {P : Plat} (j : Jems) {v : Dbl} (hv : IsDouble v) {k : Int}
    (hk : dblVal v = k) (h1 : -(2 ^ 63) ≤ k) (h2 : k < 2 ^ 63) :
    number P j v = integer P j k := by
  obtain ⟨e1, e2⟩ := integral_ok hv hk h1 h2
  simp only [number, e1, C.ok_bind, e2, if_true]
  rfl

/-- C61, all other finite values: in every state of the emitter a JSON number with 3 to 6 digits
after the point is written (6, unless the text fills the 21 characters of the internal buffer), and
its value differs from `v` by at most one unit of its last digit. -/
theorem C61_fraction {P : Plat} {m : Mem} {j : Jems} (hj : Reached P m j) {v : Dbl}
    (hv : IsDouble v) (hn : ∀ k : Int, dblVal v ≠ k) :
    ∃ j' t d w, number P j v = .ok j' ∧ Wrote j j' t ∧ IsDecimal t d w ∧ 3 ≤ d ∧ d ≤ 6 ∧
      (d = 6 ∨ t.length = 21) ∧ |w - dblVal v| ≤ 1 / 10 ^ d := by
  cases v with
  | nan => cases hv
  | inf neg => cases hv
  | fin neg q e =>
    obtain ⟨i, h1, h2⟩ := frac_ok hv hn
    obtain ⟨d, w, h3, h4, h5, h6, h7⟩ := fmtLf_take hv hn
    obtain ⟨j', e1, _, hw⟩ := item_wrote (m := m) hj.wf (.number h1)
    rw [h2] at hw
    exact ⟨j', _, d, w, e1, hw, h3, h4, h5, h6, h7⟩

/-- A string of decimal digits as a list of digits. -/
theorem digits_list {fp : List UInt8} (h : ∀ c ∈ fp, isDigit c = true) :
    ∃ ds : List (Fin 10), fp = ds.map digitChar ∧
      decVal fp = ds.foldl (fun a d => a * 10 + d.val) 0 := by
  have key : ∀ (fp : List UInt8), (∀ c ∈ fp, isDigit c = true) → ∀ a : Nat,
      ∃ ds : List (Fin 10), fp = ds.map digitChar ∧
        fp.foldl (fun n c => n * 10 + (c.toNat - 48)) a = ds.foldl (fun a d => a * 10 + d.val) a := by
    intro fp
    induction fp with
    | nil => intro _ a; exact ⟨[], rfl, rfl⟩
    | cons c fp ih =>
      intro h a
      have hc := h c (by simp)
      obtain ⟨ds, e1, e2⟩ := ih (fun c hc => h c (by simp [hc])) (a * 10 + (c.toNat - 48))
      have hr : 48 ≤ c.toNat ∧ c.toNat ≤ 57 := by
        simp only [isDigit, decide_eq_true_eq, UInt8.le_iff_toNat_le] at hc
        exact hc
      refine ⟨⟨c.toNat - 48, by omega⟩ :: ds, ?_, ?_⟩
      · rw [List.map_cons, ← e1]
        congr 1
        unfold digitChar
        rw [show 48 + (c.toNat - 48) = c.toNat by omega, UInt8.ofNat_toNat]
      · rw [List.foldl_cons, e2]; rfl
  exact key fp h 0

/-- C61: for every `double` for which the call is defined there is a JSON number that it emits, in any
place of a document (`Writes.number`, C56); it is the value itself if that is an integer, and otherwise
has 3 to 6 digits after the point and differs from the value by at most one unit of the last. -/
theorem C61_document {v : Dbl} (hv : IsDouble v) (h1 : -(2 ^ 63 : ℚ) ≤ dblVal v)
    (h2 : dblVal v < 2 ^ 63) :
    ∃ x, IsNumber v x ∧ ((∃ k : Int, dblVal v = k) → docVal x = dblVal v) ∧
      ((∀ k : Int, dblVal v ≠ k) → ∃ neg n f fs, x = .dec neg n f fs ∧ 2 ≤ fs.length ∧
        fs.length ≤ 5 ∧ |docVal x - dblVal v| ≤ 1 / 10 ^ (fs.length + 1)) := by
  by_cases hk : ∃ k : Int, dblVal v = k
  · obtain ⟨k, hk⟩ := hk
    refine ⟨.int k, ⟨hv, .inl ⟨k, hk, ?_, ?_, rfl⟩⟩, fun _ => hk.symm, fun hn => absurd hk (hn k)⟩
    · rw [hk] at h1; exact_mod_cast h1
    · rw [hk] at h2; exact_mod_cast h2
  · have hn : ∀ k : Int, dblVal v ≠ k := fun k h => hk ⟨k, h⟩
    obtain ⟨d, w, ⟨neg, ip, fp, ht, hi1, hi2, hi3, hf1, hf2, hf3, hw⟩, h3, h4, h5, h6⟩ :=
      fmtLf_take hv hn
    obtain ⟨ds, e1, e2⟩ := digits_list hf3
    have hip : digits (decVal ip) = ip := digits_decVal hi1 hi2 hi3
    cases ds with
    | nil => rw [e1] at hf1; exact absurd hf1.symm hf2
    | cons f fs =>
      have hl : fs.length + 1 = d := by rw [← hf1, e1]; simp
      refine ⟨.dec neg (decVal ip) f fs, ⟨hv, .inr ⟨hn, ⟨_, _, _, _, rfl⟩, ?_⟩⟩,
        fun h => absurd h hk, fun _ => ⟨_, _, _, _, rfl, by omega, by omega, ?_⟩⟩
      · have a1 : ascii "-" = [45] := by decide
        have a2 : ascii "." = [46] := by decide
        rw [dec_text, ht, hip, e1, a1, a2]
        simp
      · have : docVal (.dec neg (decVal ip) f fs) = w := by
          rw [hw, docVal, e2, hl]
        rw [this, hl]
        exact h6

/-- 1.5 is not an integer. -/
example : IsDouble (.fin false 3 (-1)) ∧ (∀ k : Int, dblVal (.fin false 3 (-1)) ≠ k) ∧
    fmtLf (.fin false 3 (-1)) = ascii "1.500000" := by
  refine ⟨⟨by decide, by decide, by decide⟩, ?_, by decide +kernel⟩
  intro k hk
  have : (k : ℚ) * 2 = 3 := by
    rw [← hk]; norm_num [dblVal]
  have h2 : k * 2 = 3 := by exact_mod_cast this
  omega

/-- A document with a number: `{"k":1.500000}`. -/
example : IsNumber (.fin false 3 (-1)) (.dec false 1 5 [0, 0, 0, 0, 0]) ∧
    Writes Plat.ip16 exMem (.obj [([107], .dec false 1 5 [0, 0, 0, 0, 0])])
      [.item .objectOpen, .key ⟨0, 0⟩ (.number (.fin false 3 (-1))), .objectClose] ∧
    render (.obj [([107], .dec false 1 5 [0, 0, 0, 0, 0])]) = ascii "{\"k\":1.500000}" := by
  have hn : IsNumber (.fin false 3 (-1)) (.dec false 1 5 [0, 0, 0, 0, 0]) := by
    refine ⟨⟨by decide, by decide, by decide⟩, .inr ⟨?_, ⟨_, _, _, _, rfl⟩, by decide +kernel⟩⟩
    intro k hk
    have : (k : ℚ) * 2 = 3 := by
      rw [← hk]; norm_num [dblVal]
    have h2 : k * 2 = 3 := by exact_mod_cast this
    omega
  have hk : BBuf.IsCstr exMem ⟨0, 0⟩ [107] := ⟨by decide, by decide, [], by decide⟩
  exact ⟨hn, .obj (.key hk (.number hn) .nil), by decide +kernel⟩

/-- `-2^52 - 0.5` would need 24 characters: the text is cut off. -/
example : (match number Plat.lp64 ⟨[⟨0, false⟩], 1, 0, 1, 0, []⟩ (.fin true (2 ^ 53 - 1) (-1)) with
    | .ok j => j.out.map Emit.ch = ascii "-4503599627370495.500"
    | .error _ => False) := by
  show _ = _
  decide +kernel

/-- C62: `mu_jems_number` is not defined for every finite `double`: the conversion to `int64_t` of
2^63 (and of every larger value) is undefined behaviour. -/
theorem C62_out_of_range :
    ¬ (∀ (P : Plat) (j : Jems) (v : Dbl), WF P j → IsDouble v → C.Safe (number P j v)) := by
  intro h
  obtain ⟨a, ha⟩ := h Plat.lp64 ⟨[⟨0, false⟩], 1, 0, 1, 0, []⟩ (.fin false 1 63)
    ⟨by decide, by decide, by decide, by decide⟩ ⟨by decide, by decide, by decide⟩
  have : number Plat.lp64 ⟨[⟨0, false⟩], 1, 0, 1, 0, []⟩ (.fin false 1 63) = .error .overflow := by
    decide +kernel
  rw [this] at ha
  cases ha

/-- C62, what holds: for a finite `double` the call is defined exactly when the value, truncated,
is an `int64_t`. -/
theorem C62_defined_iff {P : Plat} {m : Mem} {j : Jems} (hj : Reached P m j) {v : Dbl}
    (hv : IsDouble v) :
    C.Safe (number P j v) ↔ -(2 ^ 63 : ℚ) - 1 < dblVal v ∧ dblVal v < 2 ^ 63 := by
  by_cases hk : ∃ k : Int, dblVal v = k
  · obtain ⟨k, hk⟩ := hk
    have hr : (-(2 ^ 63 : ℚ) - 1 < dblVal v ∧ dblVal v < 2 ^ 63) ↔ (-(2 ^ 63) ≤ k ∧ k < 2 ^ 63) := by
      rw [hk]
      have e : (-(2 ^ 63 : ℚ) - 1 < k) ↔ (-(2 ^ 63) - 1 < k) := by
        constructor
        · intro h; exact_mod_cast h
        · intro h; exact_mod_cast h
      have e2 : ((k : ℚ) < 2 ^ 63) ↔ (k < 2 ^ 63) := by
        constructor
        · intro h; exact_mod_cast h
        · intro h; exact_mod_cast h
      rw [e, e2]
      omega
    rw [hr]
    by_cases hin : -(2 ^ 63) ≤ k ∧ k < 2 ^ 63
    · refine ⟨fun _ => hin, fun _ => ?_⟩
      rw [C61_integral j hv hk hin.1 hin.2]
      obtain ⟨j', e, _⟩ := C59_integer hj hin.1 hin.2
      exact ⟨j', e⟩
    · refine ⟨fun h => ?_, fun h => absurd h hin⟩
      obtain ⟨a, ha⟩ := h
      simp only [number, integral_range hv hk hin] at ha
      cases ha
  · have hn : ∀ k : Int, dblVal v ≠ k := fun k h => hk ⟨k, h⟩
    obtain ⟨j', _, _, _, e, _⟩ := C61_fraction hj hv hn
    refine ⟨fun _ => ?_, fun _ => ⟨j', e⟩⟩
    cases v with
    | nan => cases hv
    | inf neg => cases hv
    | fin neg q e =>
      obtain ⟨h1, h2⟩ := frac_small hv hn
      constructor
      · refine lt_trans ?_ h1; norm_num
      · refine lt_trans h2 ?_; norm_num

end Mu.Jems
