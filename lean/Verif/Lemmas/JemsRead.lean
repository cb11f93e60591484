import Verif.Lemmas.JemsDoc

namespace Mu.Jems
open Spec

/-! ## Reading back strings -/

theorem escape_cases (b : UInt8) :
    (escape b = [92, b] ∧ (b = 34 ∨ b = 92)) ∨
    (escape b = [b] ∧ b ≠ 34 ∧ b ≠ 92 ∧ ¬ b < 32) ∨
    (∃ x y, escape b = [92, 117, 48, 48, x, y] ∧ hex4 48 48 x y = some b) := by
  have h : ∀ n : Fin 256, 
    (escape (UInt8.ofNat n.val) = [92, UInt8.ofNat n.val] ∧
      (UInt8.ofNat n.val = 34 ∨ UInt8.ofNat n.val = 92)) ∨
    (escape (UInt8.ofNat n.val) = [UInt8.ofNat n.val] ∧ UInt8.ofNat n.val ≠ 34 ∧
      UInt8.ofNat n.val ≠ 92 ∧ ¬ UInt8.ofNat n.val < 32) ∨
    (escape (UInt8.ofNat n.val) = [92, 117, 48, 48, hexChar (n.val / 16), hexChar (n.val % 16)] ∧
      hex4 48 48 (hexChar (n.val / 16)) (hexChar (n.val % 16)) = some (UInt8.ofNat n.val)) := by
    decide +kernel
  have := h ⟨b.toNat, b.toNat_lt⟩
  simp only [UInt8.ofNat_toNat] at this
  rcases this with h | h | h
  · exact .inl h
  · exact .inr (.inl h)
  · exact .inr (.inr ⟨_, _, h⟩)

theorem readChars_escape (b : UInt8) (t : List UInt8) :
    readChars (escape b ++ t) = (readChars t).map (fun p => (b :: p.1, p.2)) := by
  rcases escape_cases b with ⟨h1, h2⟩ | ⟨h1, h2, h3, h4⟩ | ⟨x, y, h1, h2⟩
  · have e : unescape b = some b := by rcases h2 with rfl | rfl <;> rfl
    have e2 : b ≠ 117 := by rcases h2 with rfl | rfl <;> decide
    rw [h1]
    simp only [List.cons_append, List.nil_append]
    rw [readChars.eq_def]
    simp only [if_neg (by decide : ¬ (92 : UInt8) = 34), if_true, if_neg e2, e]
    cases readChars t <;> rfl
  · rw [h1]
    simp only [List.cons_append, List.nil_append]
    rw [readChars.eq_def]
    simp only [if_neg h2, if_neg h3, if_neg h4]
    cases readChars t <;> rfl
  · rw [h1]
    simp only [List.cons_append, List.nil_append]
    rw [readChars.eq_def]
    simp only [if_neg (by decide : ¬ (92 : UInt8) = 34), if_true, h2]
    cases readChars t <;> rfl

theorem readChars_quote (s r : List UInt8) :
    readChars (s.flatMap escape ++ 34 :: r) = some (s, r) := by
  induction s with
  | nil => rw [List.flatMap_nil, List.nil_append, readChars.eq_def]; rfl
  | cons b s ih =>
    rw [List.flatMap_cons, List.append_assoc, readChars_escape, ih]
    rfl

/-! ## Reading back integers -/

theorem decVal_append (a : List UInt8) (c : UInt8) : decVal (a ++ [c]) = decVal a * 10 + (c.toNat - 48) := by
  simp [decVal]

theorem digit_val {d : Nat} (h : d < 10) : (UInt8.ofNat (48 + d)).toNat - 48 = d := by
  rw [UInt8.toNat_ofNat']
  omega

theorem decVal_digits (n : Nat) : decVal (digits n) = n := by
  induction n using Nat.strongRecOn with
  | _ n ih =>
    rw [digits_rec]
    by_cases h : n < 10
    · rw [if_pos h]
      have := digit_val h
      simp only [decVal, List.foldl_cons, List.foldl_nil, this]
      omega
    · rw [if_neg h, decVal_append, ih _ (by omega), digit_val (by omega)]
      omega

theorem digits_head (n : Nat) : n ≠ 0 → (digits n).head? ≠ some 48 := by
  induction n using Nat.strongRecOn with
  | _ n ih =>
    intro h0
    rw [digits_rec]
    by_cases h : n < 10
    · rw [if_pos h]
      intro e
      have := digit_val h
      rw [List.head?_cons] at e
      rw [Option.some.inj e] at this
      simp at this
      omega
    · rw [if_neg h, List.head?_append]
      have := ih (n / 10) (by omega) (by omega)
      cases hd : (digits (n / 10)).head? with
      | none =>
        rw [List.head?_eq_none_iff] at hd
        exact absurd hd (digits_ne_nil _)
      | some c => rw [hd] at this; simpa using this

/-- What may follow a number. -/
def Stop (r : List UInt8) : Prop :=
  ∀ c ∈ r.head?, isDigit c = false ∧ c ≠ 46 ∧ c ≠ 101 ∧ c ≠ 69

theorem span_digits {d r : List UInt8} (hd : ∀ c ∈ d, isDigit c = true)
    (hr : ∀ c ∈ r.head?, isDigit c = false) :
    (d ++ r).takeWhile isDigit = d ∧ (d ++ r).dropWhile isDigit = r := by
  induction d with
  | nil =>
    cases r with
    | nil => exact ⟨rfl, rfl⟩
    | cons c r =>
      have := hr c (by simp)
      simp [this]
  | cons c d ih =>
    have h1 := hd c (by simp)
    obtain ⟨h2, h3⟩ := ih (fun c hc => hd c (by simp [hc]))
    simp [h1, h2, h3]

theorem readNat_digits (n : Nat) {r : List UInt8} (hr : ∀ c ∈ r.head?, isDigit c = false) :
    readNat (digits n ++ r) = some (n, r) := by
  obtain ⟨h1, h2⟩ := span_digits (digits_isDigit n) hr
  unfold readNat
  simp only [h1, h2]
  rw [if_neg (digits_ne_nil n), if_neg, decVal_digits]
  rintro ⟨h3, h4⟩
  by_cases h0 : n = 0
  · subst h0; exact h4 rfl
  · exact digits_head n h0 h3

theorem noExp_stop {r : List UInt8} (hr : Stop r) : noExp r = true := by
  unfold noExp
  rw [decide_eq_true_eq]
  constructor
  · intro h; exact (hr _ h).2.2.1 rfl
  · intro h; exact (hr _ h).2.2.2 rfl

theorem digits_cons (n : Nat) : ∃ c t, digits n = c :: t ∧ isDigit c = true := by
  have h := digits_ne_nil n
  have h2 := digits_isDigit n
  cases hd : digits n with
  | nil => exact absurd hd h
  | cons c t => exact ⟨c, t, rfl, h2 c (by rw [hd]; simp)⟩

theorem isDigit_ne {c d : UInt8} (h : isDigit c = true) (hd : isDigit d = false) : c ≠ d := by
  rintro rfl; rw [h] at hd; cases hd

theorem readNum_sign (neg : Bool) (n : Nat) (t : List UInt8)
    (ht : ∀ c ∈ t.head?, isDigit c = false) :
    readNum ((if neg then [45] else []) ++ digits n ++ t) =
      if t.head? = some 46 then
        match t.tail.takeWhile isDigit with
        | [] => none
        | f :: fs =>
          if noExp (t.tail.dropWhile isDigit) then
            some (.dec neg n (digitOf f) (fs.map digitOf), t.tail.dropWhile isDigit) else none
      else if noExp t then some (.int (if neg then -(n : Int) else n), t) else none := by
  obtain ⟨c, u, h1, h2⟩ := digits_cons n
  have hn : (decide (((if neg then [45] else []) ++ digits n ++ t).head? = some (45 : UInt8))) = neg := by
    cases neg with
    | true => rfl
    | false =>
      simp only [Bool.false_eq_true, if_false, List.nil_append, h1, List.cons_append,
        List.head?_cons, Option.some.injEq, decide_eq_false_iff_not]
      exact isDigit_ne h2 (by decide)
  have ht' : (if neg = true then ((if neg then [45] else []) ++ digits n ++ t).tail
      else (if neg then [45] else []) ++ digits n ++ t) = digits n ++ t := by
    cases neg <;> rfl
  unfold readNum
  simp only [hn, ht', readNat_digits n ht, Option.bind_eq_bind, Option.bind_some]
  rfl

theorem readNum_fmt (v : Int) {r : List UInt8} (hr : Stop r) :
    readNum (fmtI64 v ++ r) = some (.int v, r) := by
  have e : fmtI64 v = (if decide (v < 0) then [45] else []) ++ digits v.natAbs := by
    unfold fmtI64
    by_cases h : v < 0 <;> simp [h]
  rw [e, readNum_sign _ _ _ (fun c hc => (hr c hc).1), if_neg, if_pos (noExp_stop hr)]
  · by_cases h : v < 0
    · simp only [h, decide_true, if_true]
      rw [show -((v.natAbs : Nat) : Int) = v by omega]
    · simp only [h, decide_false, Bool.false_eq_true, if_false]
      rw [show ((v.natAbs : Nat) : Int) = v by omega]
  · intro h
    exact (hr 46 h).2.1 rfl

theorem digitChar_isDigit (d : Fin 10) : isDigit (digitChar d) = true := by
  revert d; decide

theorem digitOf_digitChar (d : Fin 10) : digitOf (digitChar d) = d := by
  revert d; decide

theorem dec_text (neg : Bool) (n : Nat) (f : Fin 10) (fs : List (Fin 10)) :
    render (.dec neg n f fs) =
      (if neg then [45] else []) ++ digits n ++ 46 :: (f :: fs).map digitChar := by
  have e1 : ascii "-" = [45] := by decide
  have e2 : ascii "." = [46] := by decide
  rw [render, e1, e2, ← fmtI64_eq, fmtI64, if_neg (Int.not_lt.mpr (Int.natCast_nonneg n)),
    Int.natAbs_natCast]
  simp

theorem readNum_dec (neg : Bool) (n : Nat) (f : Fin 10) (fs : List (Fin 10)) {r : List UInt8}
    (hr : Stop r) :
    readNum (render (.dec neg n f fs) ++ r) = some (.dec neg n f fs, r) := by
  have hd : ∀ c ∈ (f :: fs).map digitChar, isDigit c = true := by
    intro c hc
    obtain ⟨d, _, rfl⟩ := List.mem_map.mp hc
    exact digitChar_isDigit d
  obtain ⟨h1, h2⟩ := span_digits hd (r := r) (fun c hc => (hr c hc).1)
  rw [dec_text, List.append_assoc _ _ r, List.cons_append, readNum_sign]
  · rw [if_pos (by rfl)]
    simp only [List.tail_cons, h1, h2]
    simp only [List.map_cons]
    rw [if_pos (noExp_stop hr), List.map_map, digitOf_digitChar]
    have : fs.map (digitOf ∘ digitChar) = fs := by
      have h : (digitOf ∘ digitChar) = id := funext digitOf_digitChar
      rw [h, List.map_id]
    rw [this]
  · intro c hc
    simp only [List.head?_cons, Option.mem_some] at hc
    subst hc; decide

/-- The digits of the value of a digit string without superfluous zeros. -/
theorem digits_decVal {l : List UInt8} (h0 : l ≠ []) (hd : ∀ c ∈ l, isDigit c = true)
    (hz : l.head? = some 48 → l = [48]) : digits (decVal l) = l := by
  have hb : ∀ c : UInt8, isDigit c = true → 48 ≤ c.toNat ∧ c.toNat ≤ 57 := by
    intro c hc
    simp only [isDigit, decide_eq_true_eq, UInt8.le_iff_toNat_le] at hc
    exact hc
  have hof : ∀ c : UInt8, isDigit c = true → UInt8.ofNat (48 + (c.toNat - 48)) = c := by
    intro c hc
    have := hb c hc
    rw [show 48 + (c.toNat - 48) = c.toNat by omega, UInt8.ofNat_toNat]
  induction l using List.reverseRecOn with
  | nil => exact absurd rfl h0
  | append_singleton l c ih =>
    have hc := hd c (by simp)
    have hcb := hb c hc
    rw [decVal_append]
    by_cases hl : l = []
    · subst hl
      rw [digits_rec, if_pos (by simp [decVal]; omega)]
      simp only [decVal, List.foldl_nil, Nat.zero_mul, Nat.zero_add, List.nil_append]
      rw [hof c hc]
    · have ih' := ih hl (fun c hc => hd c (by simp [hc])) (by
        intro h
        have : (l ++ [c]).head? = some 48 := by rw [List.head?_append, h]; rfl
        have := congrArg List.length (hz this)
        simp only [List.length_append, List.length_cons, List.length_nil] at this
        exact absurd (List.length_eq_zero_iff.mp (by omega)) hl)
      have hpos : decVal l ≠ 0 := by
        intro h
        rw [h] at ih'
        have h48 : l = [48] := by rw [← ih']; rfl
        have := congrArg List.length (hz (by rw [h48]; rfl))
        rw [h48] at this
        simp at this
      rw [digits_rec, if_neg (by omega), show (decVal l * 10 + (c.toNat - 48)) / 10 = decVal l by omega,
        show (decVal l * 10 + (c.toNat - 48)) % 10 = c.toNat - 48 by omega, ih', hof c hc]

/-! ## Reading back documents -/

/-- The first character of a document. -/
def start (c : UInt8) : Prop :=
  c = 110 ∨ c = 116 ∨ c = 102 ∨ c = 45 ∨ isDigit c = true ∨ c = 34 ∨ c = 91 ∨ c = 123

theorem ws_cons {c : UInt8} (h : ¬ (c = 32 ∨ c = 9 ∨ c = 10 ∨ c = 13)) (t : List UInt8) :
    ws (c :: t) = c :: t := by simp only [ws, if_neg h]

theorem start_ws {c : UInt8} (h : start c) : ¬ (c = 32 ∨ c = 9 ∨ c = 10 ∨ c = 13) := by
  rcases h with rfl | rfl | rfl | rfl | h | rfl | rfl | rfl
  · decide
  · decide
  · decide
  · decide
  · have := isDigit_ne h (d := 32) (by decide)
    have := isDigit_ne h (d := 9) (by decide)
    have := isDigit_ne h (d := 10) (by decide)
    have := isDigit_ne h (d := 13) (by decide)
    simp [*]
  · decide
  · decide
  · decide

theorem start_ne93 {c : UInt8} (h : start c) : c ≠ 93 := by
  rcases h with rfl | rfl | rfl | rfl | h | rfl | rfl | rfl
  · decide
  · decide
  · decide
  · decide
  · exact isDigit_ne h (by decide)
  · decide
  · decide
  · decide

theorem render_start (x : Doc) : ∃ c t, render x = c :: t ∧ start c := by
  cases x with
  | null => exact ⟨110, _, by rw [render]; rfl, by simp [start]⟩
  | bool b =>
    cases b
    · exact ⟨102, _, by rw [render]; rfl, by simp [start]⟩
    · exact ⟨116, _, by rw [render]; rfl, by simp [start]⟩
  | int v =>
    rw [render, ← fmtI64_eq, fmtI64]
    by_cases h : v < 0
    · rw [if_pos h]; exact ⟨45, _, rfl, by simp [start]⟩
    · rw [if_neg h]
      obtain ⟨c, t, h1, h2⟩ := digits_cons v.natAbs
      exact ⟨c, t, h1, by simp [start, h2]⟩
  | dec neg n f fs =>
    rw [dec_text]
    cases neg with
    | true => exact ⟨45, _, rfl, by simp [start]⟩
    | false =>
      obtain ⟨c, t, h1, h2⟩ := digits_cons n
      exact ⟨c, _, by rw [h1]; rfl, by simp [start, h2]⟩
  | str s => exact ⟨34, _, by rw [render]; rfl, by simp [start]⟩
  | arr l => exact ⟨91, _, by rw [render], by simp [start]⟩
  | obj l => exact ⟨123, _, by rw [render], by simp [start]⟩

theorem stop_cons {c : UInt8} (h : isDigit c = false ∧ c ≠ 46 ∧ c ≠ 101 ∧ c ≠ 69)
    (t : List UInt8) : Stop (c :: t) := by
  intro d hd
  simp only [List.head?_cons, Option.mem_some] at hd
  subst hd
  exact h

/-- The branch of the reader for numbers. -/
theorem number_branch {c : UInt8} {t : List UInt8} {f : Nat} {z : Doc × List UInt8}
    (hc : c = 45 ∨ isDigit c = true) (h : readNum (c :: t) = some z) :
    (if c = 34 then do
        let (s, r) ← readChars t
        some (.str s, r)
      else if c = 91 then
        if (ws t).head? = some 93 then some (.arr [], (ws t).tail)
        else do
          let (xs, r) ← readItems f t
          some (.arr xs, r)
      else if c = 123 then
        if (ws t).head? = some 125 then some (.obj [], (ws t).tail)
        else do
          let (xs, r) ← readMembers f t
          some (.obj xs, r)
      else if c = 110 then readWord (ascii "null") .null (c :: t)
      else if c = 116 then readWord (ascii "true") (.bool true) (c :: t)
      else if c = 102 then readWord (ascii "false") (.bool false) (c :: t)
      else readNum (c :: t)) = some z := by
  have hn : ∀ d : UInt8, isDigit d = false → d ≠ 45 → c ≠ d := by
    intro d h1 h2
    rcases hc with rfl | hc
    · exact Ne.symm h2
    · exact isDigit_ne hc h1
  rw [if_neg (hn 34 (by decide) (by decide)), if_neg (hn 91 (by decide) (by decide)),
    if_neg (hn 123 (by decide) (by decide)), if_neg (hn 110 (by decide) (by decide)),
    if_neg (hn 116 (by decide) (by decide)), if_neg (hn 102 (by decide) (by decide)), h]

mutual
theorem readDoc_render (x : Doc) {fuel : Nat} (hf : (render x).length < fuel) {r : List UInt8}
    (hr : Stop r) : readDoc fuel (render x ++ r) = some (x, r) := by
  obtain ⟨f, rfl⟩ : ∃ f, fuel = f + 1 := ⟨fuel - 1, by omega⟩
  obtain ⟨c, t, hct, hs⟩ := render_start x
  have hws : ws (render x ++ r) = c :: (t ++ r) := by
    rw [hct, List.cons_append, ws_cons (start_ws hs)]
  rw [readDoc, hws]
  cases x with
  | null =>
    rw [render] at hct
    obtain ⟨rfl, rfl⟩ := List.cons.inj hct
    rfl
  | bool b =>
    cases b <;>
    · rw [render] at hct
      obtain ⟨rfl, rfl⟩ := List.cons.inj hct
      rfl
  | int v =>
    have hrd := readNum_fmt v hr
    rw [fmtI64_eq, ← render, hct, List.cons_append] at hrd
    have hc : c = 45 ∨ isDigit c = true := by
      rw [render, ← fmtI64_eq] at hct
      unfold fmtI64 at hct
      by_cases h : v < 0
      · rw [if_pos h] at hct
        exact .inl (List.cons.inj hct).1.symm
      · rw [if_neg h] at hct
        exact .inr (digits_isDigit v.natAbs c (by rw [hct]; simp))
    exact number_branch hc hrd
  | dec neg n g fs =>
    have hrd := readNum_dec neg n g fs hr
    rw [hct, List.cons_append] at hrd
    have hc : c = 45 ∨ isDigit c = true := by
      rw [dec_text] at hct
      cases neg with
      | true => exact .inl (List.cons.inj hct).1.symm
      | false =>
        obtain ⟨c', t', h1, h2⟩ := digits_cons n
        rw [h1] at hct
        rw [← (List.cons.inj hct).1]
        exact .inr h2
    exact number_branch hc hrd
  | str s =>
    rw [render, quote] at hct
    obtain ⟨rfl, rfl⟩ := List.cons.inj hct
    simp only [if_true, List.append_assoc, List.cons_append, List.nil_append, readChars_quote]
    rfl
  | arr l =>
    rw [render] at hct hf
    obtain ⟨rfl, rfl⟩ := List.cons.inj hct
    simp only [List.length_cons, List.length_append, List.length_nil] at hf
    simp only [if_neg (by decide : ¬ (91 : UInt8) = 34), if_true, List.append_assoc,
      List.cons_append, List.nil_append]
    cases l with
    | nil =>
      simp only [renderItems, List.nil_append, ws_cons (c := 93) (by decide)]
      rfl
    | cons y l =>
      have h1 := readItems_render y l (fuel := f) (by omega) r
      obtain ⟨c, t, h2, h3⟩ := render_start y
      have h4 : (ws (renderItems true (y :: l) ++ 93 :: r)).head? = some c := by
        rw [renderItems]
        simp only [if_true, List.nil_append, h2, List.cons_append]
        rw [ws_cons (start_ws h3)]
        rfl
      rw [if_neg (by rw [h4]; intro e; exact start_ne93 h3 (Option.some.inj e)), h1]
      rfl
  | obj l =>
    rw [render] at hct hf
    obtain ⟨rfl, rfl⟩ := List.cons.inj hct
    simp only [List.length_cons, List.length_append, List.length_nil] at hf
    simp only [if_neg (by decide : ¬ (123 : UInt8) = 34), if_neg (by decide : ¬ (123 : UInt8) = 91),
      if_true, List.append_assoc, List.cons_append, List.nil_append]
    cases l with
    | nil =>
      simp only [renderMembers, List.nil_append, ws_cons (c := 125) (by decide)]
      rfl
    | cons y l =>
      obtain ⟨k, y⟩ := y
      have h1 := readMembers_render k y l (fuel := f) (by omega) r
      have h4 : (ws (renderMembers true ((k, y) :: l) ++ 125 :: r)).head? = some 34 := by
        rw [renderMembers]
        simp only [if_true, List.nil_append, quote, List.cons_append]
        rw [ws_cons (by decide)]
        rfl
      rw [if_neg (by rw [h4]; decide), h1]
      rfl
termination_by fuel

theorem readItems_render (x : Doc) (l : List Doc) {fuel : Nat}
    (hf : (renderItems true (x :: l)).length + 1 < fuel) (r : List UInt8) :
    readItems fuel (renderItems true (x :: l) ++ 93 :: r) = some (x :: l, r) := by
  obtain ⟨f, rfl⟩ : ∃ f, fuel = f + 1 := ⟨fuel - 1, by omega⟩
  rw [renderItems] at hf ⊢
  simp only [if_true, List.nil_append, List.length_append] at hf ⊢
  rw [readItems, List.append_assoc]
  cases l with
  | nil =>
    rw [readDoc_render x (by omega)]
    · simp only [renderItems, List.nil_append, Option.bind_eq_bind, Option.bind_some,
        ws_cons (c := 93) (by decide), if_true]
    · simp only [renderItems, List.nil_append]
      exact stop_cons (by decide) _
  | cons y l =>
    have e : renderItems false (y :: l) = 44 :: renderItems true (y :: l) := by
      simp [renderItems]
    rw [e] at hf ⊢
    simp only [List.length_cons] at hf
    rw [List.cons_append, readDoc_render x (by omega) (stop_cons (by decide) _)]
    have hpos : 0 < (render x).length := by
      obtain ⟨c, t, h, _⟩ := render_start x; rw [h]; simp
    simp only [Option.bind_eq_bind, Option.bind_some, ws_cons (c := 44) (by decide),
      if_neg (by decide : ¬ (44 : UInt8) = 93), if_true]
    rw [readItems_render y l (by omega)]
    rfl
termination_by fuel

theorem readMembers_render (k : List UInt8) (x : Doc) (l : List (List UInt8 × Doc)) {fuel : Nat}
    (hf : (renderMembers true ((k, x) :: l)).length + 1 < fuel) (r : List UInt8) :
    readMembers fuel (renderMembers true ((k, x) :: l) ++ 125 :: r) = some ((k, x) :: l, r) := by
  obtain ⟨f, rfl⟩ : ∃ f, fuel = f + 1 := ⟨fuel - 1, by omega⟩
  rw [renderMembers] at hf ⊢
  simp only [if_true, List.nil_append, List.length_append, quote, List.length_cons,
    List.length_nil] at hf
  simp only [if_true, List.nil_append, quote, List.append_assoc, List.cons_append]
  rw [readMembers]
  have c34 : ∀ t, readChar 34 (34 :: t) = some t := by
    intro t; simp [readChar, ws_cons (c := 34) (by decide) t]
  have c58 : ∀ t, readChar 58 (58 :: t) = some t := by
    intro t; simp [readChar, ws_cons (c := 58) (by decide) t]
  simp only [c34, readChars_quote, c58, Option.bind_eq_bind, Option.bind_some]
  cases l with
  | nil =>
    rw [readDoc_render x (by omega)]
    · simp only [renderMembers, List.nil_append, Option.bind_some,
        ws_cons (c := 125) (by decide), if_true]
    · simp only [renderMembers, List.nil_append]
      exact stop_cons (by decide) _
  | cons y l =>
    obtain ⟨k', y⟩ := y
    have e : renderMembers false ((k', y) :: l) = 44 :: renderMembers true ((k', y) :: l) := by
      simp [renderMembers]
    rw [e] at hf ⊢
    simp only [List.length_cons] at hf
    rw [List.cons_append, readDoc_render x (by omega) (stop_cons (by decide) _)]
    simp only [Option.bind_some, ws_cons (c := 44) (by decide),
      if_neg (by decide : ¬ (44 : UInt8) = 125), if_true]
    rw [readMembers_render k' y l (by omega)]
    rfl
termination_by fuel
end

/-- Reading the compact text of a document gives the document. -/
theorem read_render (x : Doc) : Spec.read (render x) = some x := by
  have := readDoc_render x (fuel := (render x).length + 1) (by omega) (r := [])
    (by intro c hc; simp at hc)
  rw [List.append_nil] at this
  simp [Spec.read, this, ws]

end Mu.Jems
