import Verif.Spec.Jems
import Verif.Lemmas.BBuf

namespace Mu.Jems
open BBuf hiding isDigit
open Spec

/-! ## Emitting characters -/

@[simp] theorem say_nil (j : Jems) : say j [] = j := by simp [say]

theorem say_say (j : Jems) (a b : List UInt8) : say (say j a) b = say j (a ++ b) := by
  simp [say, List.append_assoc]

theorem emitChar_ok {j : Jems} (h : j.writer ≠ NULL) (c : UInt8) :
    emitChar j c = .ok (say j [c]) := by simp [emitChar, h, say]

theorem say_writer (j : Jems) (a : List UInt8) : (say j a).writer = j.writer := rfl

theorem At.ld0 {m : Mem} {p : Ptr} {c : UInt8} {l : List UInt8} (h : At m p (c :: l)) :
    m.ld p 0 = .ok c := h.ld (i := 0) (by simp)

theorem At.add1 {m : Mem} {p : Ptr} {c : UInt8} {l : List UInt8} (h : At m p (c :: l)) :
    m.add p 1 = .ok ⟨p.blk, p.off + 1⟩ := h.add (i := 1) (by simp)

theorem At.tail {m : Mem} {p : Ptr} {c : UInt8} {l : List UInt8} (h : At m p (c :: l)) :
    At m ⟨p.blk, p.off + 1⟩ l := by
  have := h.drop (i := 1) (by simp)
  simpa using this

theorem emitStringAux_ok {m : Mem} {s : List UInt8} : ∀ {fuel : Nat} {p : Ptr} {j : Jems},
    j.writer ≠ NULL → 0 ∉ s → At m p (s ++ [0]) → s.length < fuel →
    emitStringAux m fuel p j = .ok (say j s) := by
  induction s with
  | nil =>
    intro fuel p j hw _ hp hf
    obtain ⟨f, rfl⟩ : ∃ f, fuel = f + 1 := ⟨fuel - 1, by omega⟩
    simp only [emitStringAux, At.ld0 hp, C.ok_bind, if_true, say_nil]
  | cons c s ih =>
    intro fuel p j hw h0 hp hf
    obtain ⟨f, rfl⟩ : ∃ f, fuel = f + 1 := ⟨fuel - 1, by omega⟩
    simp only [List.mem_cons, not_or] at h0
    rw [List.cons_append] at hp
    simp only [List.length_cons] at hf
    simp only [emitStringAux, At.ld0 hp, At.add1 hp, C.ok_bind, if_neg (Ne.symm h0.1), emitChar_ok hw]
    rw [ih (by exact hw) h0.2 (At.tail hp) (by omega), say_say]
    rfl

theorem emitString_ok {m : Mem} {p : Ptr} {s : List UInt8} {j : Jems} (hw : j.writer ≠ NULL)
    (h : IsCstr m p s) : emitString j m p = .ok (say j s) := by
  have h2 := h.at.1.2.1
  have h0 := h.1
  simp only [List.length_append, List.length_singleton] at h2
  exact emitStringAux_ok hw h.2.1 h.at.1 (by omega)

theorem emitLocal_ok {s : List UInt8} {j : Jems} (hw : j.writer ≠ NULL) (h0 : 0 ∉ s) :
    emitLocal j (s ++ [0]) = .ok (say j s) :=
  emitString_ok hw ⟨by simp, h0, [], by simp⟩

theorem byte_all {p : UInt8 → Prop} (h : ∀ n : Fin 256, p (UInt8.ofNat n.val)) (b : UInt8) : p b := by
  have := h ⟨b.toNat, b.toNat_lt⟩
  simpa using this

theorem sprintfU_eq (b : UInt8) :
    (b < 0x20 ∨ b ≥ 127) → sprintfU b = escape b ++ [0] ∧ 0 ∉ escape b := by
  refine byte_all (p := fun b => (b < 0x20 ∨ b ≥ 127) → sprintfU b = escape b ++ [0] ∧ 0 ∉ escape b)
    ?_ b
  decide +kernel

theorem escape_plain (b : UInt8) :
    ¬ (b < 0x20 ∨ b ≥ 127) → escape b = if b = 92 ∨ b = 34 then [92, b] else [b] := by
  refine byte_all (p := fun b => ¬ (b < 0x20 ∨ b ≥ 127) →
    escape b = if b = 92 ∨ b = 34 then [92, b] else [b]) ?_ b
  decide +kernel

theorem emitQuotedByte_ok {j : Jems} (hw : j.writer ≠ NULL) (b : UInt8) :
    emitQuotedByte j b = .ok (say j (escape b)) := by
  unfold emitQuotedByte
  by_cases h : b < 0x20 ∨ b ≥ 127
  · obtain ⟨h1, h2⟩ := sprintfU_eq b h
    rw [if_pos h, if_pos (by simp [sprintfU]), h1, emitLocal_ok hw h2]
  · rw [if_neg h, escape_plain b h]
    by_cases h2 : b = 92 ∨ b = 34
    · rw [if_pos h2, if_pos h2, emitChar_ok hw]
      simp only [C.ok_bind]
      rw [emitChar_ok (by exact hw), say_say]
      rfl
    · rw [if_neg h2, if_neg h2, emitChar_ok hw]

theorem emitQuotedStringAux_ok {m : Mem} {s : List UInt8} : ∀ {fuel : Nat} {p : Ptr} {j : Jems},
    j.writer ≠ NULL → 0 ∉ s → At m p (s ++ [0]) → s.length < fuel →
    emitQuotedStringAux m fuel p j = .ok (say j (s.flatMap escape)) := by
  induction s with
  | nil =>
    intro fuel p j hw _ hp hf
    obtain ⟨f, rfl⟩ : ∃ f, fuel = f + 1 := ⟨fuel - 1, by omega⟩
    simp only [emitQuotedStringAux, At.ld0 hp, C.ok_bind, if_true, List.flatMap_nil, say_nil]
  | cons c s ih =>
    intro fuel p j hw h0 hp hf
    obtain ⟨f, rfl⟩ : ∃ f, fuel = f + 1 := ⟨fuel - 1, by omega⟩
    simp only [List.mem_cons, not_or] at h0
    rw [List.cons_append] at hp
    simp only [List.length_cons] at hf
    simp only [emitQuotedStringAux, At.ld0 hp, At.add1 hp, C.ok_bind, if_neg (Ne.symm h0.1),
      emitQuotedByte_ok hw]
    rw [ih (by exact hw) h0.2 (At.tail hp) (by omega), say_say]
    rfl

theorem emitQuotedString_ok {m : Mem} {p : Ptr} {s : List UInt8} {j : Jems}
    (hw : j.writer ≠ NULL) (h : IsCstr m p s) :
    emitQuotedString j m p = .ok (say j (s.flatMap escape)) := by
  have h2 := h.at.1.2.1
  have h0 := h.1
  simp only [List.length_append, List.length_singleton] at h2
  exact emitQuotedStringAux_ok hw h.2.1 h.at.1 (by omega)

theorem IsBytes.ld {P : Plat} {m : Mem} {p : Ptr} {n : Nat} {s : List UInt8}
    (h : IsBytes P m p n s) {i : Nat} (hi : i < s.length) : m.ld p i = .ok s[i] := by
  obtain ⟨h1, h2, h3, h4⟩ := h
  have hl : s.length = min n ((m p.blk).length - p.off.toNat) := by rw [← h2]; simp
  have : At m p s := ⟨h1, by omega, by rw [h3]; exact h2⟩
  exact this.ld hi

theorem forBytes_ok {P : Plat} {m : Mem} {p : Ptr} {f : Jems → UInt8 → C Jems}
    {g : UInt8 → List UInt8} (hf : ∀ j c, j.writer ≠ NULL → f j c = .ok (say j (g c)))
    {n : Nat} {s : List UInt8} (h : IsBytes P m p n s) : ∀ (k fuel i : Nat) (j : Jems),
    k + i = n → k < fuel → j.writer ≠ NULL →
    forBytes P m p n f fuel i j = .ok (say j ((s.drop i).flatMap g)) := by
  intro k
  induction k with
  | zero =>
    intro fuel i j hi hfu hw
    obtain ⟨f', rfl⟩ : ∃ f, fuel = f + 1 := ⟨fuel - 1, by omega⟩
    have hb := h.2.2.2
    have hl := h.2.2.1
    simp only [forBytes]
    rw [Plat.toSz_int (by omega) (by omega), if_neg (by omega), List.drop_of_length_le (by omega)]
    simp
  | succ k ih =>
    intro fuel i j hi hfu hw
    obtain ⟨f', rfl⟩ : ∃ f, fuel = f + 1 := ⟨fuel - 1, by omega⟩
    have hb := h.2.2.2
    have hl := h.2.2.1
    have hlt : i < s.length := by omega
    simp only [forBytes]
    rw [Plat.toSz_int (by omega) (by omega), if_pos (by omega), IsBytes.ld h hlt]
    simp only [C.ok_bind, hf _ _ hw]
    rw [Plat.int_ok_nonneg (by omega) (by omega)]
    simp only [C.ok_bind]
    have e : ((i : Int) + 1) = ((i + 1 : Nat) : Int) := by omega
    rw [e, ih f' (i + 1) (say j (g s[i])) (by omega) (by omega) (by exact hw), say_say]
    rw [List.drop_eq_getElem_cons hlt, List.flatMap_cons]

theorem emitQuotedBytes_ok {P : Plat} {m : Mem} {p : Ptr} {n : Nat} {s : List UInt8} {j : Jems}
    (hw : j.writer ≠ NULL) (h : IsBytes P m p n s) :
    emitQuotedBytes P j m p n = .ok (say j (s.flatMap escape)) := by
  have := forBytes_ok (f := emitQuotedByte) (g := escape)
    (fun j c hw => emitQuotedByte_ok hw c) h n (n + 1) 0 j (by omega) (by omega) hw
  rw [List.drop_zero] at this
  exact this

theorem forEmit_ok {P : Plat} {m : Mem} {p : Ptr} {n : Nat} {s : List UInt8} {j : Jems}
    (hw : j.writer ≠ NULL) (h : IsBytes P m p n s) :
    forBytes P m p n emitChar (n + 1) 0 j = .ok (say j s) := by
  have := forBytes_ok (f := emitChar) (g := fun c => [c])
    (fun j c hw => emitChar_ok hw c) h n (n + 1) 0 j (by omega) (by omega) hw
  simpa using this

/-! ## Decimal text -/

theorem digitsAux_eq : ∀ (fuel n : Nat) (acc : List UInt8), n < fuel →
    digitsAux fuel n acc = (Nat.toDigits 10 n).map (fun c => UInt8.ofNat c.toNat) ++ acc := by
  have hd : ∀ d : Fin 10, UInt8.ofNat (Nat.digitChar d.val).toNat = UInt8.ofNat (48 + d.val) := by
    decide
  intro fuel
  induction fuel with
  | zero => intro n acc h; omega
  | succ fuel ih =>
    intro n acc h
    simp only [digitsAux]
    by_cases hn : n < 10
    · rw [if_pos hn, Nat.toDigits_of_lt_base hn]
      have := hd ⟨n, hn⟩
      simp only at this
      simp [this]
    · have := hd ⟨n % 10, Nat.mod_lt _ (by decide)⟩
      simp only at this
      rw [if_neg hn, ih _ _ (by omega), Nat.toDigits_of_base_le (n := n) (by decide) (by omega)]
      simp [this]

theorem digits_eq (n : Nat) : digits n = (Nat.toDigits 10 n).map (fun c => UInt8.ofNat c.toNat) := by
  simp [digits, digitsAux_eq]

theorem digits_length_le {n k : Nat} (hk : 0 < k) (h : n < 10 ^ k) : (digits n).length ≤ k := by
  rw [digits_eq, List.length_map]
  exact (Nat.length_toDigits_le_iff (by decide) hk).mpr h

theorem digits_ne_nil (n : Nat) : digits n ≠ [] := by
  rw [digits_eq]
  simp

theorem digits_isDigit (n : Nat) : ∀ c ∈ digits n, isDigit c = true := by
  intro c hc
  rw [digits_eq] at hc
  simp only [List.mem_map] at hc
  obtain ⟨d, hd, rfl⟩ := hc
  have := Nat.isDigit_of_mem_toDigits (by decide) (by decide) hd
  simp only [Char.isDigit, Bool.and_eq_true, decide_eq_true_eq] at this
  obtain ⟨h1, h2⟩ := this
  have e1 : 48 ≤ d.toNat := h1
  have e2 : d.toNat ≤ 57 := h2
  simp only [isDigit, decide_eq_true_eq]
  rw [UInt8.le_iff_toNat_le, UInt8.le_iff_toNat_le]
  simp only [UInt8.toNat_ofNat']
  simp
  omega

theorem digits_nz (n : Nat) : 0 ∉ digits n := by
  intro h
  have := digits_isDigit n 0 h
  exact absurd this (by decide)

theorem digits_rec (n : Nat) :
    digits n = if n < 10 then [UInt8.ofNat (48 + n)]
      else digits (n / 10) ++ [UInt8.ofNat (48 + n % 10)] := by
  by_cases h : n < 10
  · rw [if_pos h]
    simp [digits, digitsAux, h]
  · rw [if_neg h]
    conv => lhs; rw [digits, digitsAux, if_neg h]
    rw [digitsAux_eq _ _ _ (by omega), digits_eq]

theorem fmtI64_eq (v : Int) : fmtI64 v = ascii (toString v) := by
  rw [Int.toString_eq_repr, Int.repr_eq_if]
  unfold fmtI64 ascii
  by_cases h : v < 0
  · rw [if_pos h, if_neg (by omega)]
    rw [digits_eq, String.toList_append, Nat.toList_repr]
    rw [show (-v).toNat = v.natAbs by omega]
    rw [List.map_append]
    rfl
  · rw [if_neg h, if_pos (by omega)]
    rw [digits_eq, Nat.toList_repr, show v.toNat = v.natAbs by omega]

theorem fmtI64_nz (v : Int) : 0 ∉ fmtI64 v := by
  unfold fmtI64
  split
  · simp [digits_nz]
  · exact digits_nz _

theorem fmtI64_length {v : Int} (h1 : -(2 ^ 63) ≤ v) (h2 : v < 2 ^ 63) : (fmtI64 v).length ≤ 20 := by
  have h : (digits v.natAbs).length ≤ 19 := digits_length_le (by decide) (by omega)
  unfold fmtI64
  split
  · simp; omega
  · omega

theorem snprintf_fits {n : Nat} {text : List UInt8} (h : text.length < n) :
    snprintf n text = text ++ [0] := by
  unfold snprintf
  rw [List.take_of_length_le (by omega)]

/-! ## Levels -/

/-- The object is initialised, its level array has `max_level ≥ 1` elements (or more), the current
level is one of the `max_level`. -/
structure WF (P : Plat) (j : Jems) : Prop where
  writer : j.writer ≠ NULL
  curr : j.curr < j.maxLevel
  len : j.maxLevel ≤ j.levels.length
  max : j.maxLevel < P.szMod

/-- The separator before the next item at a level. -/
def sep (l : Level) : List UInt8 :=
  if l.itemCount = 0 then [] else if l.isObject ∧ l.itemCount % 2 = 1 then [58] else [44]

/-- One more item at the current level. -/
def bump (P : Plat) (j : Jems) (l : Level) : Jems :=
  { j with levels := j.levels.set j.curr ⟨(l.itemCount + 1) % P.szMod, l.isObject⟩ }

theorem commify_ok {P : Plat} {j : Jems} {l : Level} (hw : j.writer ≠ NULL)
    (hl : j.levels[j.curr]? = some l) :
    commify P j = .ok (bump P (say j (sep l)) l) := by
  have hlt : j.curr < j.levels.length := by
    rw [List.getElem?_eq_some_iff] at hl; exact hl.1
  have hset : ∀ t, setLevel (say j t) { l with itemCount := P.sz (l.itemCount + 1) } =
      .ok (bump P (say j t) l) := by
    intro t
    unfold setLevel
    rw [show (say j t).levels = j.levels from rfl, show (say j t).curr = j.curr from rfl,
      stN_ok hlt]
    rfl
  unfold commify level
  rw [ldN_some hl]
  simp only [C.ok_bind]
  unfold sep
  by_cases h0 : l.itemCount = 0
  · simp only [h0, gt_iff_lt, Nat.lt_irrefl, if_false, if_true, C.ok_bind]
    have := hset []
    rw [h0] at this
    cases hob : l.isObject <;> simpa [hob] using this
  · have h0' : l.itemCount > 0 := by omega
    simp only [if_neg h0, if_pos h0']
    cases hob : l.isObject with
    | false =>
      simp only [emitChar_ok hw, C.ok_bind]
      have := hset [44]
      rw [hob] at this
      simpa using this
    | true =>
      by_cases hodd : l.itemCount % 2 = 1
      · simp only [hodd, if_true, emitChar_ok hw, C.ok_bind, and_self]
        have := hset [58]
        rw [hob] at this
        simpa using this
      · simp only [hodd, if_false, if_true, emitChar_ok hw, C.ok_bind, and_false]
        have := hset [44]
        rw [hob] at this
        simpa using this

theorem WF.level {P : Plat} {j : Jems} (h : WF P j) : ∃ l, j.levels[j.curr]? = some l :=
  ⟨_, List.getElem?_eq_getElem (Nat.lt_of_lt_of_le h.curr h.len)⟩

/-- `n` items have been completed at the current level, with the text `t`: lower levels, current
level, writer are the same; the levels above may hold anything. -/
structure Adv (P : Plat) (n : Nat) (t : List UInt8) (j j' : Jems) : Prop where
  maxLevel : j'.maxLevel = j.maxLevel
  curr : j'.curr = j.curr
  writer : j'.writer = j.writer
  arg : j'.arg = j.arg
  len : j'.levels.length = j.levels.length
  out : j'.out = j.out ++ t.map (fun c => ⟨j.writer, c, j.arg⟩)
  below : j'.levels.take j.curr = j.levels.take j.curr
  here : ∀ l, j.levels[j.curr]? = some l →
    j'.levels[j.curr]? = some ⟨(l.itemCount + n) % P.szMod, l.isObject⟩

theorem Adv.wf {P : Plat} {n : Nat} {t : List UInt8} {j j' : Jems} (h : Adv P n t j j')
    (hj : WF P j) : WF P j' :=
  ⟨by rw [h.writer]; exact hj.writer, by rw [h.curr, h.maxLevel]; exact hj.curr,
    by rw [h.maxLevel, h.len]; exact hj.len, by rw [h.maxLevel]; exact hj.max⟩

theorem Adv.trans {P : Plat} {n n' : Nat} {t t' : List UInt8} {j j' j'' : Jems}
    (h : Adv P n t j j') (h' : Adv P n' t' j' j'') : Adv P (n + n') (t ++ t') j j'' where
  maxLevel := h'.maxLevel.trans h.maxLevel
  curr := h'.curr.trans h.curr
  writer := h'.writer.trans h.writer
  arg := h'.arg.trans h.arg
  len := h'.len.trans h.len
  out := by rw [h'.out, h.out, h.writer, h.arg]; simp
  below := by have := h'.below; rw [h.curr] at this; exact this.trans h.below
  here := by
    intro l hl
    have := h'.here
    rw [h.curr] at this
    rw [this _ (h.here l hl)]
    simp only [Nat.mod_add_mod, Nat.add_assoc]

theorem Adv.bump {P : Plat} {j : Jems} {l : Level} (hl : j.levels[j.curr]? = some l)
    (t : List UInt8) : Adv P 1 t j (bump P (say j t) l) where
  maxLevel := rfl
  curr := rfl
  writer := rfl
  arg := rfl
  len := by simp [Jems.bump, say]
  out := rfl
  below := by simp [Jems.bump, say, List.take_set_of_le]
  here := by
    intro l' hl'
    have e : l = l' := Option.some.inj (hl.symm.trans hl')
    subst e
    have hlt : j.curr < j.levels.length := by
      rw [List.getElem?_eq_some_iff] at hl; exact hl.1
    simp [Jems.bump, say, hlt]

theorem bump_say {P : Plat} (j : Jems) (l : Level) (a b : List UInt8) :
    say (bump P (say j a) l) b = bump P (say j (a ++ b)) l := by
  simp [say, bump]

/-- The text of a scalar item. -/
inductive ItemText (P : Plat) (m : Mem) : Item → List UInt8 → Prop
  | null : ItemText P m .null (ascii "null")
  | true : ItemText P m .true (ascii "true")
  | false : ItemText P m .false (ascii "false")
  | bool (b : Bool) : ItemText P m (.bool b) (ascii (if b then "true" else "false"))
  | int {v : Int} : -(2 ^ 63) ≤ v → v < 2 ^ 63 → ItemText P m (.integer v) (ascii (toString v))
  | number {v : Dbl} {i : Int} : toI64 v = .ok i → ItemText P m (.number v)
      ((if dblEq (i64ToDbl i) v then fmtI64 i else fmtLf v).take 21)
  | string {p : Ptr} {s : List UInt8} : IsCstr m p s → ItemText P m (.string p) (quote s)
  | bytes {p : Ptr} {n : Nat} {s : List UInt8} : IsBytes P m p n s →
      ItemText P m (.bytes p n) (quote s)
  | literal {p : Ptr} {n : Nat} {s : List UInt8} : IsBytes P m p n s →
      ItemText P m (.literal p n) s

theorem fmtLf_nz (v : Dbl) : 0 ∉ fmtLf v := by
  have h6 : ∀ d : Nat, d < 10 → (0 : UInt8) ≠ UInt8.ofNat (48 + d) := by
    have : ∀ d : Fin 10, (0 : UInt8) ≠ UInt8.ofNat (48 + d.val) := by decide
    intro d hd; exact this ⟨d, hd⟩
  cases v with
  | nan => decide
  | inf neg => cases neg <;> decide
  | fin neg m e =>
    simp only [fmtLf]
    generalize (if 0 ≤ e then m * 2 ^ e.toNat * 1000000
      else roundEven (m * 1000000) (2 ^ (-e).toNat)) = n
    have hd := digits_nz (n / 1000000)
    simp only [List.mem_append, List.mem_cons, not_or]
    refine ⟨⟨by cases neg <;> simp, hd⟩, by decide, ?_⟩
    simp only [sixDigits, List.map_cons, List.map_nil, List.mem_cons, List.not_mem_nil, or_false,
      not_or]
    exact ⟨h6 _ (Nat.mod_lt _ (by decide)), h6 _ (Nat.mod_lt _ (by decide)),
      h6 _ (Nat.mod_lt _ (by decide)), h6 _ (Nat.mod_lt _ (by decide)),
      h6 _ (Nat.mod_lt _ (by decide)), h6 _ (Nat.mod_lt _ (by decide))⟩

theorem item_ok {P : Plat} {m : Mem} {j : Jems} {l : Level} (hw : j.writer ≠ NULL)
    (hl : j.levels[j.curr]? = some l) {x : Item} {t : List UInt8} (h : ItemText P m x t) :
    item P m j x = .ok (bump P (say j (sep l ++ t)) l) := by
  have hc := commify_ok (P := P) hw hl
  have hw' : (bump P (say j (sep l)) l).writer ≠ NULL := hw
  have loc : ∀ s : List UInt8, 0 ∉ s →
      emitLocal (bump P (say j (sep l)) l) (s ++ [0]) = .ok (bump P (say j (sep l ++ s)) l) := by
    intro s hs
    rw [emitLocal_ok hw' hs, bump_say]
  cases h with
  | null =>
    simp only [item, jnull, hc, C.ok_bind]
    exact loc (ascii "null") (by decide)
  | true =>
    simp only [item, jtrue, hc, C.ok_bind]
    exact loc (ascii "true") (by decide)
  | false =>
    simp only [item, jfalse, hc, C.ok_bind]
    exact loc (ascii "false") (by decide)
  | bool b =>
    simp only [item, Jems.bool, hc, C.ok_bind]
    cases b with
    | true => exact loc (ascii "true") (by decide)
    | false => exact loc (ascii "false") (by decide)
  | @int v h1 h2 =>
    simp only [item, integer, hc, C.ok_bind]
    have := fmtI64_length h1 h2
    rw [snprintf_fits (by omega), loc _ (fmtI64_nz v), fmtI64_eq]
  | @number v i h1 =>
    simp only [item, number, h1, hc, C.ok_bind]
    by_cases hd : dblEq (i64ToDbl i) v
    · simp only [hd, if_true]
      exact loc _ (fun h => fmtI64_nz i (List.mem_of_mem_take h))
    · simp only [hd]
      exact loc _ (fun h => fmtLf_nz v (List.mem_of_mem_take h))
  | @string p s h1 =>
    simp only [item, Jems.string, hc, C.ok_bind, emitChar_ok hw']
    rw [emitQuotedString_ok (by exact hw') h1]
    simp only [C.ok_bind]
    rw [emitChar_ok (by exact hw'), say_say, say_say, bump_say]
    simp [quote]
  | @bytes p n s h1 =>
    simp only [item, Jems.bytes, hc, C.ok_bind, emitChar_ok hw']
    rw [emitQuotedBytes_ok (by exact hw') h1]
    simp only [C.ok_bind]
    rw [emitChar_ok (by exact hw'), say_say, say_say, bump_say]
    simp [quote]
  | @literal p n s h1 =>
    simp only [item, Jems.literal, hc, C.ok_bind]
    rw [forEmit_ok hw' h1, bump_say]

theorem item_adv {P : Plat} {m : Mem} {j : Jems} (hj : WF P j) {l : Level}
    (hl : j.levels[j.curr]? = some l) {x : Item} {t : List UInt8} (h : ItemText P m x t) :
    ∃ j', item P m j x = .ok j' ∧ Adv P 1 (sep l ++ t) j j' :=
  ⟨_, item_ok hj.writer hl h, Adv.bump hl _⟩

end Mu.Jems
