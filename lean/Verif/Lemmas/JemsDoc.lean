import Verif.Lemmas.JemsDouble

namespace Mu.Jems
open BBuf hiding isDigit Fits
open Spec

/-! ## Containers -/

/-- The state just inside a container opened at `j`. -/
structure Opened (P : Plat) (isObj : Bool) (t : List UInt8) (j j1 : Jems) : Prop where
  maxLevel : j1.maxLevel = j.maxLevel
  curr : j1.curr = j.curr + 1
  writer : j1.writer = j.writer
  arg : j1.arg = j.arg
  len : j1.levels.length = j.levels.length
  out : j1.out = j.out ++ t.map (fun c => ⟨j.writer, c, j.arg⟩)
  below : j1.levels.take j.curr = j.levels.take j.curr
  here : ∀ l, j.levels[j.curr]? = some l →
    j1.levels[j.curr]? = some ⟨(l.itemCount + 1) % P.szMod, l.isObject⟩
  new : j1.levels[j1.curr]? = some ⟨0, isObj⟩

theorem Opened.wf {P : Plat} {b : Bool} {t : List UInt8} {j j' : Jems} (h : Opened P b t j j')
    (hj : WF P j) (hd : j.curr + 1 < j.maxLevel) : WF P j' :=
  ⟨by rw [h.writer]; exact hj.writer, by rw [h.curr, h.maxLevel]; exact hd,
    by rw [h.maxLevel, h.len]; exact hj.len, by rw [h.maxLevel]; exact hj.max⟩

theorem open_push {P : Plat} {j : Jems} (hj : WF P j) (hd : j.curr + 1 < j.maxLevel) {l : Level}
    (hl : j.levels[j.curr]? = some l) (b : Bool) (c : UInt8) :
    ∃ j', (do let j ← commify P j; let j ← emitChar j c; pushLevel P j b) = .ok j' ∧
      Opened P b (sep l ++ [c]) j j' := by
  have hm := hj.max
  have hlen := hj.len
  rw [commify_ok hj.writer hl]
  simp only [C.ok_bind]
  rw [emitChar_ok (by exact hj.writer)]
  simp only [C.ok_bind]
  rw [bump_say]
  have hadv := Adv.bump (P := P) hl (sep l ++ [c])
  generalize hk : bump P (say j (sep l ++ [c])) l = k at hadv ⊢
  have hsub : P.szSub k.maxLevel 1 = j.maxLevel - 1 := by
    rw [hadv.maxLevel, Plat.szSub_of_le (by omega) hm]
  have hsz : P.sz (k.curr + 1) = j.curr + 1 := by
    rw [hadv.curr, Plat.sz_of_lt (by omega)]
  have hlt : j.curr + 1 < k.levels.length := by rw [hadv.len]; omega
  unfold pushLevel level setLevel
  rw [if_pos (by rw [hsub, hadv.curr]; omega)]
  simp only [hsz]
  rw [ldN_ok hlt]
  simp only [C.ok_bind, stN_ok hlt]
  rw [ldN_some (List.getElem?_set_self hlt)]
  simp only [C.ok_bind]
  rw [stN_ok (by rw [List.length_set]; exact hlt)]
  refine ⟨_, rfl, hadv.maxLevel, rfl, hadv.writer, hadv.arg, ?_, hadv.out, ?_, ?_, ?_⟩
  · simp [hadv.len]
  · simp only
    rw [List.take_set_of_le (by omega), List.take_set_of_le (by omega)]
    exact hadv.below
  · intro l' hl'
    simp only
    rw [List.getElem?_set_ne (by omega), List.getElem?_set_ne (by omega)]
    exact hadv.here l' hl'
  · simp [hlt]

theorem close_pop {P : Plat} {j j1 j2 : Jems} {b : Bool} {t t2 : List UInt8} {n : Nat}
    (hj : WF P j) (hd : j.curr + 1 < j.maxLevel) (h1 : Opened P b t j j1) (h2 : Adv P n t2 j1 j2)
    (c : UInt8) :
    ∃ j', (do let j ← emitChar j2 c; .ok (popLevel P j) : C Jems) = .ok j' ∧
      Adv P 1 (t ++ t2 ++ [c]) j j' := by
  have hm := hj.max
  rw [emitChar_ok (by rw [h2.writer, h1.writer]; exact hj.writer)]
  simp only [C.ok_bind]
  have hc : j2.curr = j.curr + 1 := h2.curr.trans h1.curr
  unfold popLevel
  rw [if_pos (by rw [show (say j2 [c]).curr = j2.curr from rfl]; omega)]
  rw [show (say j2 [c]).curr = j2.curr from rfl, hc, Plat.szSub_of_le (by omega) (by omega)]
  have hb2 := h2.below
  rw [h1.curr] at hb2
  refine ⟨_, rfl, h2.maxLevel.trans h1.maxLevel, rfl, h2.writer.trans h1.writer,
    h2.arg.trans h1.arg, h2.len.trans h1.len, ?_, ?_, ?_⟩
  · simp [say, h2.out, h1.out, h2.writer, h1.writer, h2.arg, h1.arg]
  · have := congrArg (List.take j.curr) hb2
    rw [List.take_take, List.take_take, Nat.min_eq_left (by omega)] at this
    exact this.trans h1.below
  · intro l hl
    have : (j2.levels.take (j.curr + 1))[j.curr]? = (j1.levels.take (j.curr + 1))[j.curr]? := by
      rw [hb2]
    rw [List.getElem?_take_of_lt (by omega), List.getElem?_take_of_lt (by omega)] at this
    exact this.trans (h1.here l hl)

theorem calls_append {P : Plat} {m : Mem} : ∀ (a b : List Call) (j : Jems),
    calls P m j (a ++ b) = (calls P m j a >>= fun j => calls P m j b) := by
  intro a
  induction a with
  | nil => intro b j; rfl
  | cons c a ih =>
    intro b j
    simp only [List.cons_append, calls]
    cases call P m j c with
    | error e => rfl
    | ok j' => simp only [C.ok_bind]; exact ih b j'

theorem calls_one {P : Plat} {m : Mem} (j : Jems) (c : Call) :
    calls P m j [c] = call P m j c := by
  simp only [calls]
  cases call P m j c <;> rfl

theorem keyItem_eq {P : Plat} {m : Mem} (j : Jems) (k : Ptr) (x : Item) :
    keyItem P m j k x = (do let j ← string P j m k; item P m j x) := by
  cases x <;> rfl

theorem calls_key {P : Plat} {m : Mem} (j : Jems) (p : Ptr) (i : Item) (cs : List Call) :
    calls P m j (.key p i :: cs) = calls P m j (.item (.string p) :: .item i :: cs) := by
  simp only [calls, call, keyItem_eq, item]
  cases string P j m p with
  | error e => rfl
  | ok j' => rfl

theorem sep_arr (c : Nat) : sep ⟨c, false⟩ = if c = 0 then [] else [44] := by
  simp [sep]

theorem sep_obj_even {c : Nat} (h : c % 2 = 0) : sep ⟨c, true⟩ = if c = 0 then [] else [44] := by
  simp [sep, h]

theorem sep_obj_odd {c : Nat} (h : c % 2 = 1) : sep ⟨c, true⟩ = [58] := by
  have : c ≠ 0 := by omega
  simp [sep, h, this]

theorem one_item {P : Plat} {m : Mem} {j : Jems} (hj : WF P j) {l : Level}
    (hl : j.levels[j.curr]? = some l) {x : Item} {t : List UInt8} (h : ItemText P m x t) :
    ∃ j', calls P m j [.item x] = .ok j' ∧ Adv P 1 (sep l ++ t) j j' := by
  rw [calls_one]
  exact item_adv hj hl h

theorem writes_str {P : Plat} {m : Mem} {s : List UInt8} {cs : List Call}
    (h : Writes P m (.str s) cs) : ∃ x, cs = [.item x] ∧ ItemText P m x (quote s) := by
  cases h with
  | number h =>
    rcases h.2 with ⟨k, _, _, _, h⟩ | ⟨_, ⟨_, _, _, _, h⟩, _⟩ <;> cases h
  | string h => exact ⟨_, rfl, .string h⟩
  | bytes h => exact ⟨_, rfl, .bytes h⟩
  | literal h =>
    refine ⟨_, rfl, ?_⟩
    have := ItemText.literal h
    simpa [render] using this

/-- The text of a number. -/
theorem number_text {P : Plat} {m : Mem} {v : Dbl} {x : Doc} (h : IsNumber v x) :
    ItemText P m (.number v) (render x) := by
  obtain ⟨hv, h⟩ := h
  rcases h with ⟨k, hk, h1, h2, rfl⟩ | ⟨hn, -, hr⟩
  · obtain ⟨e1, e2⟩ := integral_ok hv hk h1 h2
    have := ItemText.number (P := P) (m := m) e1
    rw [if_pos e2, List.take_of_length_le (by have := fmtI64_length h1 h2; omega), fmtI64_eq] at this
    rw [render]; exact this
  · cases v with
    | nan => cases hv
    | inf neg => cases hv
    | fin neg q e =>
      obtain ⟨i, e1, e2⟩ := frac_ok hv hn
      have := ItemText.number (P := P) (m := m) e1
      rw [e2] at this
      rw [hr]; exact this

mutual
theorem writes_ok {P : Plat} {m : Mem} {x : Doc} {cs : List Call} (h : Writes P m x cs)
    {j : Jems} (hj : WF P j) {l : Level} (hl : j.levels[j.curr]? = some l)
    (hd : j.curr + depth x < j.maxLevel) (hf : Fits P.szMod x) :
    ∃ j', calls P m j cs = .ok j' ∧ Adv P 1 (sep l ++ render x) j j' := by
  cases h with
  | null => rw [render]; exact one_item hj hl .null
  | true => rw [render]; exact one_item hj hl .true
  | false => rw [render]; exact one_item hj hl .false
  | bool b =>
    have := one_item (m := m) hj hl (.bool b)
    cases b <;> (rw [render]; simpa using this)
  | int v h1 h2 => rw [render]; exact one_item hj hl (.int h1 h2)
  | number h => exact one_item hj hl (number_text h)
  | string h => rw [render]; exact one_item hj hl (.string h)
  | bytes h => rw [render]; exact one_item hj hl (.bytes h)
  | literal h => exact one_item hj hl (.literal h)
  | @arr its cs h =>
    rw [depth] at hd
    rw [Fits] at hf
    have hd' : j.curr + 1 < j.maxLevel := by omega
    obtain ⟨j1, e1, h1⟩ := open_push hj hd' hl false 91
    have wf1 := h1.wf hj hd'
    obtain ⟨j2, e2, h2⟩ := items_ok h wf1 (c := 0) (by rw [Nat.zero_mod]; exact h1.new) (by omega)
      (by rw [h1.curr, h1.maxLevel]; omega) hf.2
    obtain ⟨j3, e3, h3⟩ := close_pop hj hd' h1 h2 93
    refine ⟨j3, ?_, ?_⟩
    · simp only [calls, call, item, arrayOpen]
      rw [e1]
      simp only [C.ok_bind]
      rw [calls_append, e2]
      simp only [C.ok_bind, calls_one]
      exact e3
    · rw [render]
      simpa using h3
  | @obj its cs h =>
    rw [depth] at hd
    rw [Fits] at hf
    have hd' : j.curr + 1 < j.maxLevel := by omega
    obtain ⟨j1, e1, h1⟩ := open_push hj hd' hl true 123
    have wf1 := h1.wf hj hd'
    obtain ⟨j2, e2, h2⟩ := members_ok h wf1 (c := 0) (by rw [Nat.zero_mod]; exact h1.new) (by omega) (by omega)
      (by rw [h1.curr, h1.maxLevel]; omega) hf.2
    obtain ⟨j3, e3, h3⟩ := close_pop hj hd' h1 h2 125
    refine ⟨j3, ?_, ?_⟩
    · simp only [calls, call, item, objectOpen]
      rw [e1]
      simp only [C.ok_bind]
      rw [calls_append, e2]
      simp only [C.ok_bind, calls_one]
      exact e3
    · rw [render]
      simpa using h3

theorem items_ok {P : Plat} {m : Mem} {l : List Doc} {cs : List Call}
    (h : WritesItems P m l cs) {j : Jems} (hj : WF P j) {c : Nat}
    (hl : j.levels[j.curr]? = some ⟨c % P.szMod, false⟩) (hc : c + l.length ≤ P.szMod)
    (hd : j.curr + depthItems l < j.maxLevel) (hf : FitsItems P.szMod l) :
    ∃ j', calls P m j cs = .ok j' ∧ Adv P l.length (renderItems (decide (c = 0)) l) j j' := by
  cases h with
  | nil =>
    refine ⟨j, rfl, rfl, rfl, rfl, rfl, rfl, by simp [renderItems], rfl, ?_⟩
    intro l hl'
    have e : (⟨c % P.szMod, false⟩ : Level) = l := Option.some.inj (hl.symm.trans hl')
    subst e
    rw [hl']
    simp
  | @cons x l cs ds h1 h2 =>
    simp only [List.length_cons] at hc
    rw [depthItems] at hd
    rw [FitsItems] at hf
    obtain ⟨j1, e1, a1⟩ := writes_ok h1 hj hl (by omega) hf.1
    have hl1 := a1.here _ hl
    simp only [Nat.mod_add_mod] at hl1
    rw [← a1.curr] at hl1
    obtain ⟨j2, e2, a2⟩ := items_ok h2 (a1.wf hj) hl1 (by omega)
      (by rw [a1.curr, a1.maxLevel]; omega) hf.2
    refine ⟨j2, ?_, ?_⟩
    · rw [calls_append, e1]
      exact e2
    · have := a1.trans a2
      rw [Nat.mod_eq_of_lt (by omega : c < P.szMod), sep_arr] at this
      rw [renderItems, List.length_cons, Nat.add_comm l.length 1]
      simpa using this

theorem members_ok {P : Plat} {m : Mem} {l : List (List UInt8 × Doc)} {cs : List Call}
    (h : WritesMembers P m l cs) {j : Jems} (hj : WF P j) {c : Nat}
    (hl : j.levels[j.curr]? = some ⟨c % P.szMod, true⟩) (he : c % 2 = 0)
    (hc : c + 2 * l.length ≤ P.szMod)
    (hd : j.curr + depthMembers l < j.maxLevel) (hf : FitsMembers P.szMod l) :
    ∃ j', calls P m j cs = .ok j' ∧
      Adv P (2 * l.length) (renderMembers (decide (c = 0)) l) j j' := by
  cases h with
  | nil =>
    refine ⟨j, rfl, rfl, rfl, rfl, rfl, rfl, by simp [renderMembers], rfl, ?_⟩
    intro l hl'
    have e : (⟨c % P.szMod, true⟩ : Level) = l := Option.some.inj (hl.symm.trans hl')
    subst e
    rw [hl']
    simp
  | @split k x l ks cs ds hk hx hr =>
    simp only [List.length_cons] at hc
    rw [depthMembers] at hd
    rw [FitsMembers] at hf
    obtain ⟨i, rfl, hi⟩ := writes_str hk
    obtain ⟨j0, e0, a0⟩ := one_item hj hl hi
    have hl0 := a0.here _ hl
    simp only [Nat.mod_add_mod] at hl0
    rw [← a0.curr] at hl0
    obtain ⟨j1, e1, a1⟩ := writes_ok hx (a0.wf hj) hl0 (by rw [a0.curr, a0.maxLevel]; omega) hf.1
    have hl1 := a1.here _ hl0
    simp only [Nat.mod_add_mod] at hl1
    rw [← a1.curr] at hl1
    obtain ⟨j2, e2, a2⟩ := members_ok hr (a1.wf (a0.wf hj)) hl1 (by omega) (by omega)
      (by rw [a1.curr, a1.maxLevel, a0.curr, a0.maxLevel]; omega) hf.2
    refine ⟨j2, ?_, ?_⟩
    · rw [calls_append, calls_append, e0]
      simp only [C.ok_bind, e1]
      exact e2
    · have := (a0.trans a1).trans a2
      rw [Nat.mod_eq_of_lt (by omega : c < P.szMod), sep_obj_even he,
        Nat.mod_eq_of_lt (by omega : c + 1 < P.szMod), sep_obj_odd (by omega)] at this
      rw [renderMembers, List.length_cons,
        show 2 * (l.length + 1) = 1 + 1 + 2 * l.length by omega]
      simpa using this
  | @key k p x i l cs ds hk hx hr =>
    simp only [List.length_cons] at hc
    rw [depthMembers] at hd
    rw [FitsMembers] at hf
    obtain ⟨j0, e0, a0⟩ := one_item (m := m) hj hl (.string hk)
    have hl0 := a0.here _ hl
    simp only [Nat.mod_add_mod] at hl0
    rw [← a0.curr] at hl0
    obtain ⟨j1, e1, a1⟩ := writes_ok hx (a0.wf hj) hl0 (by rw [a0.curr, a0.maxLevel]; omega) hf.1
    have hl1 := a1.here _ hl0
    simp only [Nat.mod_add_mod] at hl1
    rw [← a1.curr] at hl1
    obtain ⟨j2, e2, a2⟩ := members_ok hr (a1.wf (a0.wf hj)) hl1 (by omega) (by omega)
      (by rw [a1.curr, a1.maxLevel, a0.curr, a0.maxLevel]; omega) hf.2
    refine ⟨j2, ?_, ?_⟩
    · rw [calls_key, show (Call.item (.string p) :: Call.item i :: (cs ++ ds)) =
        [Call.item (.string p)] ++ ((Call.item i :: cs) ++ ds) by simp, calls_append, e0]
      simp only [C.ok_bind]
      rw [calls_append, e1]
      exact e2
    · have := (a0.trans a1).trans a2
      rw [Nat.mod_eq_of_lt (by omega : c < P.szMod), sep_obj_even he,
        Nat.mod_eq_of_lt (by omega : c + 1 < P.szMod), sep_obj_odd (by omega)] at this
      rw [renderMembers, List.length_cons,
        show 2 * (l.length + 1) = 1 + 1 + 2 * l.length by omega]
      simpa using this
end

end Mu.Jems
