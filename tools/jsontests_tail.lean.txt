theorem open_arrays : ∀ k n, readDoc k (List.replicate n 91) = none ∧
    readItems k (List.replicate n 91) = none := by
  intro k
  induction k with
  | zero => intro n; simp [readDoc, readItems]
  | succ k ih =>
    intro n
    have h : readDoc (k + 1) (List.replicate n 91) = none := by
      cases n with
      | zero => simp [readDoc, ws]
      | succ n =>
        have e := (ih n).2
        have hd : (ws (List.replicate n 91)).head? ≠ some 93 := by
          cases n <;> simp [List.replicate, ws]
        simp [List.replicate, readDoc, ws, hd, e]
    exact ⟨h, by simp [readItems, (ih n).1]⟩

/-- n_structure_100000_opening_arrays.json, for any number of opening brackets (`n = 100000`). -/
theorem reject_open_arrays (n : Nat) : read (List.replicate n 91) = none := by
  simp [Jems.Spec.read, (open_arrays _ n).1]

/-- `n` times `[{"":` and a line feed. -/
def openArrayObjects : Nat → List UInt8
  | 0 => [10]
  | n + 1 => 91 :: 123 :: 34 :: 34 :: 58 :: openArrayObjects n

theorem open_array_objects : ∀ n k, readDoc k (openArrayObjects n) = none := by
  intro n
  induction n with
  | zero => intro k; cases k <;> simp [openArrayObjects, readDoc, ws]
  | succ n ih =>
    intro k
    match k with
    | 0 => simp [readDoc]
    | 1 => simp [openArrayObjects, readDoc, ws, readItems]
    | 2 => simp [openArrayObjects, readDoc, ws, readItems]
    | 3 => simp [openArrayObjects, readDoc, ws, readItems, readMembers]
    | k + 4 =>
      have e : readChars (34 :: 58 :: openArrayObjects n) = some ([], 58 :: openArrayObjects n) := by
        simp [readChars.eq_def]
      simp [openArrayObjects, readDoc, ws, readItems, readMembers, readChar, e, ih]

/-- n_structure_open_array_object.json, for any number of repetitions (`n = 50000`). -/
theorem reject_open_array_objects (n : Nat) : read (openArrayObjects n) = none := by
  simp [Jems.Spec.read, open_array_objects]

