import Verif.Lemmas.JemsDoc

namespace Mu.Jems
open BBuf hiding isDigit Fits
open Spec

/-! ## Initialisation -/

/-- What `mu_jems_reset` leaves behind. -/
structure Fresh (P : Plat) (j0 j : Jems) : Prop where
  wf : WF P j
  curr : j.curr = 0
  level : j.levels[0]? = some ⟨0, false⟩
  out : j.out = j0.out
  maxLevel : j.maxLevel = j0.maxLevel
  writer : j.writer = j0.writer
  arg : j.arg = j0.arg
  len : j.levels.length = j0.levels.length

theorem reset_ok {P : Plat} {j : Jems} (hw : j.writer ≠ NULL) (h1 : 1 ≤ j.maxLevel)
    (h2 : j.maxLevel ≤ j.levels.length) (h3 : j.maxLevel < P.szMod) :
    ∃ j', reset j = .ok j' ∧ Fresh P j j' := by
  have hlt : 0 < j.levels.length := by omega
  unfold reset level setLevel
  simp only [ldN_ok hlt, C.ok_bind, stN_ok hlt]
  rw [ldN_some (List.getElem?_set_self hlt)]
  simp only [C.ok_bind]
  rw [stN_ok (by rw [List.length_set]; exact hlt)]
  refine ⟨_, rfl, ⟨hw, by simp only; omega, by simpa using h2, h3⟩, rfl, ?_, rfl, rfl, rfl, rfl, ?_⟩
  · simp [hlt]
  · simp

theorem init_ok {P : Plat} (junk : Jems) {levels : List Level} {maxLevel : Nat} {writer : Val}
    (arg : Nat) (hw : writer ≠ NULL) (h1 : 1 ≤ maxLevel)
    (h2 : maxLevel ≤ levels.length) (h3 : maxLevel < P.szMod) :
    ∃ j', init junk levels maxLevel writer arg = .ok j' ∧ WF P j' ∧ j'.curr = 0 ∧
      j'.levels[0]? = some ⟨0, false⟩ ∧ j'.out = junk.out ∧ j'.maxLevel = maxLevel ∧
      j'.writer = writer ∧ j'.arg = arg := by
  obtain ⟨j', h, f⟩ := reset_ok (P := P)
    (j := { junk with levels := levels, maxLevel := maxLevel, writer := writer, arg := arg })
    hw h1 h2 h3
  exact ⟨j', h, f.wf, f.curr, f.level, f.out, f.maxLevel, f.writer, f.arg⟩

/-! ## Positions -/

/-- The counts of the levels up to the current one are those of the stack `s` (innermost first). -/
def Pos (P : Plat) (j : Jems) (s : List Nat) : Prop :=
  j.curr + 1 = s.length ∧
    (j.levels.take (j.curr + 1)).map Level.itemCount = s.reverse.map (· % P.szMod)

theorem take_succ' {α : Type} {l : List α} {i : Nat} {a : α} (h : l[i]? = some a) :
    l.take (i + 1) = l.take i ++ [a] := by
  rw [List.take_succ, h]; rfl

theorem Pos.top {P : Plat} {j : Jems} (hj : WF P j) {c : Nat} {s : List Nat}
    (h : Pos P j (c :: s)) : j.curr = s.length ∧
      (j.levels.take j.curr).map Level.itemCount = s.reverse.map (· % P.szMod) ∧
      ∃ l, j.levels[j.curr]? = some l ∧ l.itemCount = c % P.szMod := by
  obtain ⟨l, hl⟩ := hj.level
  obtain ⟨h1, h2⟩ := h
  rw [take_succ' hl] at h2
  simp only [List.map_append, List.map_cons, List.map_nil, List.reverse_cons] at h2
  obtain ⟨h3, h4⟩ := List.append_inj' h2 rfl
  exact ⟨by simpa using h1, h3, l, hl, (List.cons.inj h4).1⟩

theorem Pos.mk' {P : Plat} {j : Jems} {c : Nat} {s : List Nat} {l : Level}
    (h1 : j.curr = s.length)
    (h2 : (j.levels.take j.curr).map Level.itemCount = s.reverse.map (· % P.szMod))
    (hl : j.levels[j.curr]? = some l) (h3 : l.itemCount = c % P.szMod) : Pos P j (c :: s) := by
  refine ⟨by simp [h1], ?_⟩
  rw [take_succ' hl]
  simp [h2, h3]

theorem Pos.adv {P : Plat} {j j' : Jems} (hj : WF P j) {n : Nat} {t : List UInt8}
    (a : Adv P n t j j') {c : Nat} {s : List Nat} (h : Pos P j (c :: s)) :
    Pos P j' ((c + n) :: s) := by
  obtain ⟨h1, h2, l, hl, h3⟩ := h.top hj
  have hl' := a.here l hl
  refine Pos.mk' (l := ⟨(l.itemCount + n) % P.szMod, l.isObject⟩) (by rw [a.curr, h1])
    (by rw [a.curr, a.below, h2]) (by rw [a.curr, hl']) ?_
  simp [h3]

theorem Pos.opened {P : Plat} {j j' : Jems} (hj : WF P j) {b : Bool} {t : List UInt8}
    (a : Opened P b t j j') {c : Nat} {s : List Nat} (h : Pos P j (c :: s)) :
    Pos P j' (0 :: (c + 1) :: s) := by
  obtain ⟨h1, h2, l, hl, h3⟩ := h.top hj
  have hl' := a.here l hl
  refine Pos.mk' (l := ⟨0, b⟩) (by rw [a.curr, h1]; rfl) ?_ a.new (by simp)
  rw [a.curr, take_succ' hl', a.below]
  simp [h2, h3]

/-- An opening call. -/
theorem open_any {P : Plat} {j : Jems} (hj : WF P j) (b : Bool) (ch : UInt8) :
    ∃ j', (do let j ← commify P j; let j ← emitChar j ch; pushLevel P j b) = .ok j' ∧
      WF P j' ∧ j'.maxLevel = j.maxLevel ∧ (j.curr + 1 < j.maxLevel → ∃ t, Opened P b t j j') := by
  obtain ⟨l, hl⟩ := hj.level
  by_cases hd : j.curr + 1 < j.maxLevel
  · obtain ⟨j', e, h⟩ := open_push hj hd hl b ch
    exact ⟨j', e, h.wf hj hd, h.maxLevel, fun _ => ⟨_, h⟩⟩
  · rw [commify_ok hj.writer hl]
    simp only [C.ok_bind]
    rw [emitChar_ok (by exact hj.writer)]
    simp only [C.ok_bind]
    rw [bump_say]
    have hadv := Adv.bump (P := P) hl (sep l ++ [ch])
    generalize hk : bump P (say j (sep l ++ [ch])) l = k at hadv ⊢
    have hm := hj.max
    have hc := hj.curr
    have hsub : P.szSub k.maxLevel 1 = j.maxLevel - 1 := by
      rw [hadv.maxLevel, Plat.szSub_of_le (by omega) hm]
    unfold pushLevel
    rw [if_neg (by rw [hsub, hadv.curr]; omega)]
    exact ⟨k, rfl, hadv.wf hj, hadv.maxLevel, fun h => absurd h hd⟩

/-- A closing call. -/
theorem close_any {P : Plat} {j : Jems} (hj : WF P j) (ch : UInt8) :
    ∃ j', (do let j ← emitChar j ch; .ok (popLevel P j) : C Jems) = .ok j' ∧
      WF P j' ∧ j'.maxLevel = j.maxLevel ∧ j'.levels = j.levels ∧ j'.curr = j.curr - 1 := by
  have hc := hj.curr
  have hm := hj.max
  rw [emitChar_ok hj.writer]
  simp only [C.ok_bind, popLevel]
  rw [show (say j [ch]).curr = j.curr from rfl]
  by_cases h : j.curr > 0
  · rw [if_pos h, Plat.szSub_of_le (by omega) (by omega)]
    exact ⟨_, rfl, ⟨hj.writer, by simp only [say]; omega, hj.len, hj.max⟩, rfl, rfl, rfl⟩
  · rw [if_neg h]
    exact ⟨_, rfl, ⟨hj.writer, hj.curr, hj.len, hj.max⟩, rfl, rfl, by
      rw [show (say j [ch]).curr = j.curr from rfl]; omega⟩

theorem itemOk_text {P : Plat} {m : Mem} {x : Item} (h : ItemOk P m x) :
    x = .objectOpen ∨ x = .arrayOpen ∨
      ((∃ t, ItemText P m x t) ∧ x ≠ .objectOpen ∧ x ≠ .arrayOpen) := by
  cases x with
  | objectOpen => exact .inl rfl
  | arrayOpen => exact .inr (.inl rfl)
  | number v =>
    obtain ⟨i, hi⟩ := h
    exact .inr (.inr ⟨⟨_, .number hi⟩, nofun, nofun⟩)
  | integer v => exact .inr (.inr ⟨⟨_, .int h.1 h.2⟩, nofun, nofun⟩)
  | string p =>
    obtain ⟨s, hs⟩ := h
    exact .inr (.inr ⟨⟨_, .string hs⟩, nofun, nofun⟩)
  | bytes p n =>
    obtain ⟨s, hs⟩ := h
    exact .inr (.inr ⟨⟨_, .bytes hs⟩, nofun, nofun⟩)
  | bool b => exact .inr (.inr ⟨⟨_, .bool b⟩, nofun, nofun⟩)
  | true => exact .inr (.inr ⟨⟨_, .true⟩, nofun, nofun⟩)
  | false => exact .inr (.inr ⟨⟨_, .false⟩, nofun, nofun⟩)
  | null => exact .inr (.inr ⟨⟨_, .null⟩, nofun, nofun⟩)
  | literal p n =>
    obtain ⟨s, hs⟩ := h
    exact .inr (.inr ⟨⟨_, .literal hs⟩, nofun, nofun⟩)

theorem item_any {P : Plat} {m : Mem} {j : Jems} (hj : WF P j) {x : Item} (h : ItemOk P m x) :
    ∃ j', item P m j x = .ok j' ∧ WF P j' ∧ j'.maxLevel = j.maxLevel ∧
      ∀ c s s', Pos P j (c :: s) → track (c :: s) (.item x) = some s' → s'.length ≤ j.maxLevel →
        Pos P j' s' := by
  rcases itemOk_text h with rfl | rfl | ⟨⟨t, ht⟩, h1, h2⟩
  · obtain ⟨j', e, hw, hm, ho⟩ := open_any hj true 123
    refine ⟨j', e, hw, hm, ?_⟩
    intro c s s' hp ht hl
    simp only [track, Option.some.injEq] at ht
    subst ht
    have hc := (hp.top hj).1
    obtain ⟨t, ho⟩ := ho (by simp only [List.length_cons] at hl; omega)
    exact hp.opened hj ho
  · obtain ⟨j', e, hw, hm, ho⟩ := open_any hj false 91
    refine ⟨j', e, hw, hm, ?_⟩
    intro c s s' hp ht hl
    simp only [track, Option.some.injEq] at ht
    subst ht
    have hc := (hp.top hj).1
    obtain ⟨t, ho⟩ := ho (by simp only [List.length_cons] at hl; omega)
    exact hp.opened hj ho
  · obtain ⟨l, hl⟩ := hj.level
    obtain ⟨j', e, a⟩ := item_adv hj hl ht
    refine ⟨j', e, a.wf hj, a.maxLevel, ?_⟩
    intro c s s' hp ht hl
    have : s' = (c + 1) :: s := by
      cases x <;> simp_all [track]
    subst this
    exact hp.adv hj a

theorem call_any {P : Plat} {m : Mem} {j : Jems} (hj : WF P j) {x : Call} (h : CallOk P m x) :
    ∃ j', call P m j x = .ok j' ∧ WF P j' ∧ j'.maxLevel = j.maxLevel ∧
      ∀ c s s', Pos P j (c :: s) → track (c :: s) x = some s' → s'.length ≤ j.maxLevel →
        Pos P j' s' := by
  cases x with
  | reset =>
    have := hj.curr
    obtain ⟨j', e, f⟩ := reset_ok hj.writer (by omega) hj.len hj.max
    refine ⟨j', e, f.wf, f.maxLevel, ?_⟩
    intro c s s' hp ht hl
    simp only [track, Option.some.injEq] at ht
    subst ht
    exact Pos.mk' (l := ⟨0, false⟩) f.curr (by rw [f.curr]; rfl) (by rw [f.curr]; exact f.level)
      (by simp)
  | objectClose =>
    obtain ⟨j', e, hw, hm, hl, hc⟩ := close_any hj 125
    refine ⟨j', e, hw, hm, ?_⟩
    intro c s s' hp ht _
    cases s with
    | nil => simp [track] at ht
    | cons d s =>
      simp only [track, Option.some.injEq] at ht
      subst ht
      obtain ⟨h1, h2, _⟩ := hp.top hj
      simp only [List.length_cons] at h1
      refine ⟨by rw [hc, h1]; rfl, ?_⟩
      rw [hl, hc, show j.curr - 1 + 1 = j.curr by omega]
      exact h2
  | arrayClose =>
    obtain ⟨j', e, hw, hm, hl, hc⟩ := close_any hj 93
    refine ⟨j', e, hw, hm, ?_⟩
    intro c s s' hp ht _
    cases s with
    | nil => simp [track] at ht
    | cons d s =>
      simp only [track, Option.some.injEq] at ht
      subst ht
      obtain ⟨h1, h2, _⟩ := hp.top hj
      simp only [List.length_cons] at h1
      refine ⟨by rw [hc, h1]; rfl, ?_⟩
      rw [hl, hc, show j.curr - 1 + 1 = j.curr by omega]
      exact h2
  | item x => exact item_any hj h
  | key k x =>
    obtain ⟨⟨sk, hk⟩, hx⟩ := h
    obtain ⟨l, hl⟩ := hj.level
    obtain ⟨j1, e1, a1⟩ := item_adv (m := m) hj hl (.string hk)
    obtain ⟨j2, e2, hw, hm, ht⟩ := item_any (m := m) (a1.wf hj) hx
    refine ⟨j2, ?_, hw, hm.trans a1.maxLevel, ?_⟩
    · simp only [call, keyItem_eq]
      rw [show string P j m k = .ok j1 from e1]
      exact e2
    · intro c s s' hp hs hlen
      refine ht (c + 1) s s' (hp.adv hj a1) ?_ (by rw [a1.maxLevel]; exact hlen)
      rw [← hs]
      cases x <;> rfl

theorem calls_any {P : Plat} {m : Mem} : ∀ (cs : List Call) {j : Jems}, WF P j →
    (∀ c ∈ cs, CallOk P m c) → ∃ j', calls P m j cs = .ok j' ∧ WF P j' ∧
      j'.maxLevel = j.maxLevel := by
  intro cs
  induction cs with
  | nil => intro j hj _; exact ⟨j, rfl, hj, rfl⟩
  | cons c cs ih =>
    intro j hj h
    obtain ⟨j1, e1, w1, m1, _⟩ := call_any hj (h c (by simp))
    obtain ⟨j2, e2, w2, m2⟩ := ih w1 (fun c hc => h c (by simp [hc]))
    refine ⟨j2, ?_, w2, m2.trans m1⟩
    simp only [calls, e1, C.ok_bind]
    exact e2

theorem calls_pos {P : Plat} {m : Mem} : ∀ (cs : List Call) {j : Jems} {c : Nat} {s s' : List Nat},
    WF P j → (∀ c ∈ cs, CallOk P m c) → Pos P j (c :: s) →
    tracks j.maxLevel (c :: s) cs = some s' →
    ∃ j', calls P m j cs = .ok j' ∧ WF P j' ∧ Pos P j' s' := by
  intro cs
  induction cs with
  | nil =>
    intro j c s s' hj _ hp ht
    simp only [tracks, Option.some.injEq] at ht
    subst ht
    exact ⟨j, rfl, hj, hp⟩
  | cons x cs ih =>
    intro j c s s' hj h hp ht
    obtain ⟨j1, e1, w1, m1, p1⟩ := call_any hj (h x (by simp))
    simp only [tracks] at ht
    cases hx : track (c :: s) x with
    | none => rw [hx] at ht; simp at ht
    | some s1 =>
      rw [hx] at ht
      simp only [Option.bind_eq_bind, Option.bind_some] at ht
      by_cases hl : s1.length ≤ j.maxLevel
      · rw [if_pos hl] at ht
        have hp1 := p1 c s s1 hp hx hl
        cases s1 with
        | nil => simp [Pos] at hp1
        | cons c1 s1 =>
          rw [← m1] at ht
          obtain ⟨j2, e2, w2, p2⟩ := ih w1 (fun c hc => h c (by simp [hc])) hp1 ht
          refine ⟨j2, ?_, w2, p2⟩
          simp only [calls, e1, C.ok_bind]
          exact e2
      · rw [if_neg hl] at ht
        cases ht

end Mu.Jems
