import Verif.Props.Init

/-! # C115: a truncated document is never mistaken for a complete one -/

namespace Mu.Jems
open BBuf hiding isDigit Fits
open Mu.BVec (BVec getCount getCapacity overwritten)
open Spec

/-! ## More fuel does not hurt -/

/-- `b` is defined wherever `a` is, with the same value. -/
def Le {α : Type} (a b : Option α) : Prop := ∀ v, a = some v → b = some v

theorem Le.refl {α : Type} (a : Option α) : Le a a := fun _ h => h

theorem Le.bind {α β : Type} {a a' : Option α} {f g : α → Option β} (h : Le a a')
    (hf : ∀ x, Le (f x) (g x)) : Le (a.bind f) (a'.bind g) := by
  intro v hv
  rw [Option.bind_eq_some_iff] at hv ⊢
  obtain ⟨x, h1, h2⟩ := hv
  exact ⟨x, h x h1, hf x v h2⟩

theorem Le.ite {α : Type} {p : Prop} [Decidable p] {a a' b b' : Option α} (h1 : Le a a')
    (h2 : Le b b') : Le (if p then a else b) (if p then a' else b') := by
  split
  · exact h1
  · exact h2

theorem read_mono : ∀ fuel : Nat,
    (∀ l, Le (readDoc fuel l) (readDoc (fuel + 1) l)) ∧
    (∀ l, Le (readItems fuel l) (readItems (fuel + 1) l)) ∧
    (∀ l, Le (readMembers fuel l) (readMembers (fuel + 1) l)) := by
  intro fuel
  induction fuel with
  | zero =>
    refine ⟨fun l v h => ?_, fun l v h => ?_, fun l v h => ?_⟩
    · rw [readDoc] at h; cases h
    · rw [readItems] at h; cases h
    · rw [readMembers] at h; cases h
  | succ n ih =>
    obtain ⟨i1, i2, i3⟩ := ih
    refine ⟨fun l => ?_, fun l => ?_, fun l => ?_⟩
    · rw [readDoc, readDoc]
      split
      · exact Le.refl _
      · refine Le.ite (Le.refl _) (Le.ite (Le.ite (Le.refl _) ?_) (Le.ite (Le.ite (Le.refl _) ?_)
          (Le.refl _)))
        · exact Le.bind (i2 _) fun x => Le.refl _
        · exact Le.bind (i3 _) fun x => Le.refl _
    · rw [readItems, readItems]
      refine Le.bind (i1 _) fun x => ?_
      obtain ⟨x, r⟩ := x
      dsimp only
      split
      · exact Le.refl _
      · refine Le.ite (Le.refl _) (Le.ite ?_ (Le.refl _))
        exact Le.bind (i2 _) fun x => Le.refl _
    · rw [readMembers, readMembers]
      refine Le.bind (Le.refl _) fun t => Le.bind (Le.refl _) fun x => ?_
      obtain ⟨k, r⟩ := x
      refine Le.bind (Le.refl _) fun r => Le.bind (i1 _) fun x => ?_
      obtain ⟨x, r⟩ := x
      dsimp only
      split
      · exact Le.refl _
      · refine Le.ite (Le.refl _) (Le.ite ?_ (Le.refl _))
        exact Le.bind (i3 _) fun x => Le.refl _

theorem readDoc_mono {a b : Nat} (h : a ≤ b) (l : List UInt8) : Le (readDoc a l) (readDoc b l) := by
  induction h with
  | refl => exact Le.refl _
  | step _ ih => exact fun v hv => (read_mono _).1 l v (ih v hv)

/-! ## Reading something cut off -/

theorem readChars_short {b : UInt8} {p q : List UInt8} (h : p ++ q = escape b) (hq : q ≠ []) :
    readChars p = none := by
  rcases escape_cases b with ⟨h1, _⟩ | ⟨h1, _⟩ | ⟨x, y, h1, _⟩
  · rw [h1] at h
    rcases p with _ | ⟨a, _ | ⟨a2, p⟩⟩
    · rfl
    · obtain ⟨rfl, _⟩ := List.cons.inj h
      rfl
    · simp at h; exact absurd h.2.2.2 hq
  · rw [h1] at h
    rcases p with _ | ⟨a, p⟩
    · rfl
    · simp at h; exact absurd h.2.2 hq
  · rw [h1] at h
    rcases p with _ | ⟨a, _ | ⟨a2, _ | ⟨a3, _ | ⟨a4, _ | ⟨a5, _ | ⟨a6, p⟩⟩⟩⟩⟩⟩
    · rfl
    all_goals simp only [List.cons_append, List.nil_append, List.cons.injEq] at h
    · obtain ⟨rfl, _⟩ := h; rfl
    · obtain ⟨rfl, rfl, _⟩ := h; rfl
    · obtain ⟨rfl, rfl, rfl, _⟩ := h; rfl
    · obtain ⟨rfl, rfl, rfl, rfl, _⟩ := h; rfl
    · obtain ⟨rfl, rfl, rfl, rfl, rfl, _⟩ := h; rfl
    · simp at h; exact absurd h.2.2.2.2.2.2.2 hq

/-- A string literal without its closing quote. -/
theorem readChars_cut : ∀ (s : List UInt8) {p q : List UInt8}, p ++ q = s.flatMap escape ++ [34] →
    q ≠ [] → readChars p = none := by
  intro s
  induction s with
  | nil =>
    intro p q h hq
    cases p with
    | nil => rfl
    | cons a p => simp at h; exact absurd h.2.2 hq
  | cons b s ih =>
    intro p q h hq
    rw [List.flatMap_cons, List.append_assoc] at h
    rcases List.append_eq_append_iff.mp h with ⟨c, hc1, hc2⟩ | ⟨c, hc1, hc2⟩
    · by_cases hc : c = []
      · subst hc
        rw [List.append_nil] at hc1
        have := readChars_escape b []
        rw [List.append_nil, hc1] at this
        rw [this, show readChars [] = none from rfl]
        rfl
      · exact readChars_short hc1.symm hc
    · rw [hc1, readChars_escape, ih hc2.symm hq]
      rfl

/-- A number. -/
def IsNum : Doc → Prop
  | .int _ => True
  | .dec _ _ _ _ => True
  | _ => False

/-- A number cut off: what is there is rejected or read completely. -/
theorem readNum_cut {neg : Bool} {n : Nat} {t p q : List UInt8}
    (ht : t = [] ∨ ∃ ds, t = 46 :: ds ∧ ∀ c ∈ ds, isDigit c = true)
    (h : p ++ q = (if neg then [45] else []) ++ digits n ++ t) {v : Doc × List UInt8}
    (hv : readNum p = some v) : v.2 = [] := by
  -- reading after the sign
  have key : ∀ (d : List UInt8) (neg' : Bool), (∃ q, d ++ q = digits n ++ t) →
      (do
        let (n, r) ← readNat d
        if r.head? = some 46 then
          match r.tail.takeWhile isDigit with
          | [] => none
          | f :: fs =>
            let r := r.tail.dropWhile isDigit
            if noExp r then some (Doc.dec neg' n (digitOf f) (fs.map digitOf), r) else none
        else if noExp r then some (.int (if neg' then -(n : Int) else n), r) else none :
          Option (Doc × List UInt8)) = some v → v.2 = [] := by
    intro d neg' hd hv
    obtain ⟨q, hd⟩ := hd
    simp only [Option.bind_eq_bind, Option.bind_eq_some_iff] at hv
    obtain ⟨⟨n', r⟩, h1, h2⟩ := hv
    have hr : r = d.dropWhile isDigit := by
      unfold readNat at h1
      dsimp only at h1
      split at h1
      · cases h1
      · split at h1
        · cases h1
        · cases h1; rfl
    dsimp only at h2
    rcases List.append_eq_append_iff.mp hd with ⟨c, hc1, hc2⟩ | ⟨c, hc1, hc2⟩
    · -- all digits
      have hall : ∀ x ∈ d, isDigit x = true := fun x hx =>
        digits_isDigit n x (by rw [hc1]; simp [hx])
      have := (span_digits hall (r := []) (by simp)).2
      rw [List.append_nil] at this
      rw [this] at hr
      subst hr
      rw [if_neg (by simp)] at h2
      split at h2
      · cases h2; rfl
      · cases h2
    · -- all digits of the integer part, and some of what follows
      rcases ht with rfl | ⟨ds, rfl, hds⟩
      · have : c = [] := (List.append_eq_nil_iff.mp hc2.symm).1
        subst this
        rw [List.append_nil] at hc1
        have := (span_digits (digits_isDigit n) (r := []) (by simp)).2
        rw [List.append_nil, ← hc1] at this
        rw [this] at hr
        subst hr
        rw [if_neg (by simp)] at h2
        split at h2
        · cases h2; rfl
        · cases h2
      · cases c with
        | nil =>
          rw [List.append_nil] at hc1
          have := (span_digits (digits_isDigit n) (r := []) (by simp)).2
          rw [List.append_nil, ← hc1] at this
          rw [this] at hr
          subst hr
          rw [if_neg (by simp)] at h2
          split at h2
          · cases h2; rfl
          · cases h2
        | cons x c =>
          simp only [List.cons_append, List.cons.injEq] at hc2
          obtain ⟨rfl, hc2⟩ := hc2
          have h3 := (span_digits (digits_isDigit n) (r := 46 :: c)
            (fun x hx => by simp at hx; subst hx; decide)).2
          rw [← hc1] at h3
          rw [h3] at hr
          subst hr
          rw [if_pos (by rfl)] at h2
          have hall : ∀ x ∈ c, isDigit x = true := fun x hx => hds x (by rw [hc2]; simp [hx])
          have h4 := (span_digits hall (r := []) (by simp)).2
          rw [List.append_nil] at h4
          simp only [List.tail_cons, h4] at h2
          split at h2
          · cases h2
          · split at h2
            · cases h2; rfl
            · cases h2
  unfold readNum at hv
  dsimp only at hv
  obtain ⟨c0, u, hd1, hd2⟩ := digits_cons n
  cases neg with
  | true =>
    simp only [if_true, List.cons_append, List.nil_append] at h
    cases p with
    | nil => 
      refine key [] _ ⟨_, rfl⟩ hv
    | cons a p =>
      simp only [List.cons_append, List.cons.injEq] at h
      obtain ⟨rfl, h⟩ := h
      exact key p _ ⟨q, h⟩ hv
  | false =>
    simp only [Bool.false_eq_true, if_false, List.nil_append] at h
    have hh : ¬ p.head? = some 45 := by
      intro hc
      cases p with
      | nil => cases hc
      | cons a p =>
        rw [hd1] at h
        simp only [List.cons_append, List.cons.injEq] at h
        simp only [List.head?_cons, Option.some.injEq] at hc
        exact isDigit_ne hd2 (d := 45) (by decide) (by rw [← h.1, hc])
    simp only [hh, decide_false, Bool.false_eq_true, if_false] at hv
    exact key p false ⟨q, h⟩ hv

theorem readWord_cut {w p q : List UInt8} {a : Doc} (h : p ++ q = w) (hq : q ≠ []) :
    readWord w a p = none := by
  unfold readWord
  rw [if_neg]
  intro hc
  have := (List.isPrefixOf_iff_prefix.mp hc).length_le
  rw [← h, List.length_append] at this
  exact hq (List.length_eq_zero_iff.mp (by omega))

theorem ws_nil_doc (fuel : Nat) : readDoc fuel [] = none := by
  cases fuel <;> simp [readDoc, ws]

/-- Splitting something cut off at the end of the first part. -/
theorem cut_cases {p q a b : List UInt8} (h : p ++ q = a ++ b) :
    (∃ c, c ≠ [] ∧ p ++ c = a) ∨ ∃ c, p = a ++ c ∧ c ++ q = b := by
  rcases List.append_eq_append_iff.mp h with ⟨c, hc1, hc2⟩ | ⟨c, hc1, hc2⟩
  · by_cases hc : c = []
    · subst hc
      exact .inr ⟨[], by rw [hc1]; simp, by simpa using hc2⟩
    · exact .inl ⟨c, hc, hc1.symm⟩
  · exact .inr ⟨c, hc1, hc2.symm⟩

mutual
theorem readDoc_cut (x : Doc) {fuel : Nat} (hf : (render x).length < fuel) {p q : List UInt8}
    (h : p ++ q = render x) (hq : q ≠ []) {v : Doc × List UInt8} (hv : readDoc fuel p = some v) :
    IsNum x ∧ v.2 = [] := by
  obtain ⟨f, rfl⟩ : ∃ f, fuel = f + 1 := ⟨fuel - 1, by omega⟩
  obtain ⟨c, t, hct, hs⟩ := render_start x
  cases p with
  | nil => rw [ws_nil_doc] at hv; cases hv
  | cons c' p =>
    have hc' : c' = c := by
      rw [hct] at h; exact (List.cons.inj h).1
    subst hc'
    rw [readDoc, ws_cons (start_ws hs)] at hv
    cases x with
    | null =>
      exfalso
      have e : (c' :: p) ++ q = ascii "null" := by rw [h, render]
      have hc : c' = 110 := (List.cons.inj e).1
      subst hc
      have := readWord_cut (a := .null) e hq
      simp only [if_true, this] at hv
      cases hv
    | bool b =>
      exfalso
      cases b with
      | true =>
        have e : (c' :: p) ++ q = ascii "true" := by rw [h, render]
        have hc : c' = 116 := (List.cons.inj e).1
        subst hc
        have := readWord_cut (a := .bool true) e hq
        simp only [if_true, this] at hv
        cases hv
      | false =>
        have e : (c' :: p) ++ q = ascii "false" := by rw [h, render]
        have hc : c' = 102 := (List.cons.inj e).1
        subst hc
        have := readWord_cut (a := .bool false) e hq
        simp only [if_true, this] at hv
        cases hv
    | int i =>
      refine ⟨trivial, ?_⟩
      have e : fmtI64 i = (if decide (i < 0) then [45] else []) ++ digits i.natAbs := by
        unfold fmtI64
        by_cases h : i < 0 <;> simp [h]
      have h2 : (c' :: p) ++ q = (if decide (i < 0) then [45] else []) ++ digits i.natAbs ++ [] := by
        rw [h, render, ← fmtI64_eq, e, List.append_nil]
      have hc : c' = 45 ∨ isDigit c' = true := by
        rw [render, ← fmtI64_eq] at hct
        unfold fmtI64 at hct
        by_cases h : i < 0
        · rw [if_pos h] at hct
          exact .inl (List.cons.inj hct).1.symm
        · rw [if_neg h] at hct
          exact .inr (digits_isDigit i.natAbs c' (by rw [hct]; simp))
      have hn : ∀ d : UInt8, isDigit d = false → d ≠ 45 → c' ≠ d := by
        intro d h1 h3
        rcases hc with rfl | hc
        · exact Ne.symm h3
        · exact isDigit_ne hc h1
      simp only [if_neg (hn 34 (by decide) (by decide)), if_neg (hn 91 (by decide) (by decide)),
        if_neg (hn 123 (by decide) (by decide)), if_neg (hn 110 (by decide) (by decide)),
        if_neg (hn 116 (by decide) (by decide)), if_neg (hn 102 (by decide) (by decide))] at hv
      exact readNum_cut (.inl rfl) h2 hv
    | dec neg n g fs =>
      refine ⟨trivial, ?_⟩
      have h2 : (c' :: p) ++ q = (if neg then [45] else []) ++ digits n ++
          46 :: (g :: fs).map digitChar := by rw [h, dec_text]
      have hc : c' = 45 ∨ isDigit c' = true := by
        rw [dec_text] at hct
        cases neg with
        | true => exact .inl (List.cons.inj hct).1.symm
        | false =>
          obtain ⟨c1, t', h1, h2⟩ := digits_cons n
          rw [h1] at hct
          rw [← (List.cons.inj hct).1]
          exact .inr h2
      have hn : ∀ d : UInt8, isDigit d = false → d ≠ 45 → c' ≠ d := by
        intro d h1 h3
        rcases hc with rfl | hc
        · exact Ne.symm h3
        · exact isDigit_ne hc h1
      simp only [if_neg (hn 34 (by decide) (by decide)), if_neg (hn 91 (by decide) (by decide)),
        if_neg (hn 123 (by decide) (by decide)), if_neg (hn 110 (by decide) (by decide)),
        if_neg (hn 116 (by decide) (by decide)), if_neg (hn 102 (by decide) (by decide))] at hv
      refine readNum_cut (.inr ⟨_, rfl, ?_⟩) h2 hv
      intro c hc
      obtain ⟨d, _, rfl⟩ := List.mem_map.mp hc
      exact digitChar_isDigit d
    | str s =>
      exfalso
      rw [render, quote] at h
      simp only [List.cons_append, List.cons.injEq] at h
      obtain ⟨rfl, h⟩ := h
      simp only [if_true, readChars_cut s h hq] at hv
      cases hv
    | arr l =>
      exfalso
      rw [render] at h hf
      simp only [List.cons_append, List.cons.injEq] at h
      obtain ⟨rfl, h⟩ := h
      simp only [List.length_cons, List.length_append, List.length_nil] at hf
      simp only [if_neg (by decide : ¬ (91 : UInt8) = 34), if_true] at hv
      cases l with
      | nil =>
        simp only [renderItems, List.nil_append] at h
        cases p with
        | nil =>
          rw [if_neg (by simp [ws])] at hv
          cases f with
          | zero => simp [readItems] at hv
          | succ f => simp [readItems, ws_nil_doc] at hv
        | cons a p => simp at h; exact absurd h.2.2 hq
      | cons y l =>
        have h1 := readItems_cut y l (fuel := f) (by omega) h hq
        obtain ⟨c, t, h2, h3⟩ := render_start y
        have h4 : (ws p).head? ≠ some 93 := by
          cases p with
          | nil => simp [ws]
          | cons a p =>
            rw [renderItems] at h
            simp only [if_true, List.nil_append, h2, List.cons_append, List.cons.injEq] at h
            rw [h.1, ws_cons (start_ws h3)]
            intro e; exact start_ne93 h3 (Option.some.inj e)
        rw [if_neg h4, h1] at hv
        cases hv
    | obj l =>
      exfalso
      rw [render] at h hf
      simp only [List.cons_append, List.cons.injEq] at h
      obtain ⟨rfl, h⟩ := h
      simp only [List.length_cons, List.length_append, List.length_nil] at hf
      simp only [if_neg (by decide : ¬ (123 : UInt8) = 34), if_neg (by decide : ¬ (123 : UInt8) = 91),
        if_true] at hv
      cases l with
      | nil =>
        simp only [renderMembers, List.nil_append] at h
        cases p with
        | nil =>
          rw [if_neg (by simp [ws])] at hv
          cases f with
          | zero => simp [readMembers] at hv
          | succ f => simp [readMembers, readChar, ws] at hv
        | cons a p => simp at h; exact absurd h.2.2 hq
      | cons y l =>
        obtain ⟨k, y⟩ := y
        have h1 := readMembers_cut k y l (fuel := f) (by omega) h hq
        have h4 : (ws p).head? ≠ some 125 := by
          cases p with
          | nil => simp [ws]
          | cons a p =>
            rw [renderMembers] at h
            simp only [if_true, List.nil_append, quote, List.cons_append, List.cons.injEq] at h
            rw [h.1, ws_cons (by decide)]
            simp
        rw [if_neg h4, h1] at hv
        cases hv
termination_by fuel

theorem readItems_cut (x : Doc) (l : List Doc) {fuel : Nat}
    (hf : (renderItems true (x :: l)).length + 1 < fuel) {p q : List UInt8}
    (h : p ++ q = renderItems true (x :: l) ++ [93]) (hq : q ≠ []) : readItems fuel p = none := by
  obtain ⟨f, rfl⟩ : ∃ f, fuel = f + 1 := ⟨fuel - 1, by omega⟩
  rw [renderItems] at hf h
  simp only [if_true, List.nil_append, List.length_append] at hf h
  rw [readItems]
  rw [List.append_assoc] at h
  rcases cut_cases h with ⟨c, hc, h1⟩ | ⟨c, h1, h2⟩
  · -- within the first item
    cases hr : readDoc f p with
    | none => rfl
    | some v =>
      obtain ⟨_, hv⟩ := readDoc_cut x (by omega) h1 hc hr
      obtain ⟨y, r⟩ := v
      dsimp only at hv
      subst hv
      rfl
  · -- after it
    have hpos : 0 < (render x).length := by
      obtain ⟨c, t, h, _⟩ := render_start x; rw [h]; simp
    cases l with
    | nil =>
      simp only [renderItems, List.nil_append] at h2
      have hc : c = [] := by
        cases c with
        | nil => rfl
        | cons a c => simp at h2; exact absurd h2.2.2 hq
      subst hc
      rw [h1, readDoc_render x (by omega) (by intro c hc; simp at hc)]
      rfl
    | cons y l =>
      have e : renderItems false (y :: l) = 44 :: renderItems true (y :: l) := by
        simp [renderItems]
      rw [e] at hf h2
      simp only [List.length_cons] at hf
      cases c with
      | nil =>
        rw [h1, readDoc_render x (by omega) (by intro c hc; simp at hc)]
        rfl
      | cons a c =>
        simp only [List.cons_append, List.cons.injEq] at h2
        obtain ⟨rfl, h2⟩ := h2
        rw [h1, readDoc_render x (by omega) (stop_cons (by decide) _)]
        simp only [Option.bind_eq_bind, Option.bind_some, ws_cons (c := 44) (by decide),
          if_neg (by decide : ¬ (44 : UInt8) = 93), if_true]
        rw [readItems_cut y l (by omega) h2 hq]
        rfl
termination_by fuel

theorem readMembers_cut (k : List UInt8) (x : Doc) (l : List (List UInt8 × Doc)) {fuel : Nat}
    (hf : (renderMembers true ((k, x) :: l)).length + 1 < fuel) {p q : List UInt8}
    (h : p ++ q = renderMembers true ((k, x) :: l) ++ [125]) (hq : q ≠ []) :
    readMembers fuel p = none := by
  obtain ⟨f, rfl⟩ : ∃ f, fuel = f + 1 := ⟨fuel - 1, by omega⟩
  rw [renderMembers] at hf h
  simp only [if_true, List.nil_append, List.length_append, quote, List.length_cons,
    List.length_nil] at hf
  rw [readMembers]
  have c34 : ∀ t, readChar 34 (34 :: t) = some t := by
    intro t; simp [readChar, ws_cons (c := 34) (by decide) t]
  have c58 : ∀ t, readChar 58 (58 :: t) = some t := by
    intro t; simp [readChar, ws_cons (c := 58) (by decide) t]
  cases p with
  | nil => simp [readChar, ws]
  | cons a p =>
    simp only [if_true, List.nil_append, quote, List.append_assoc, List.cons_append,
      List.cons.injEq] at h
    obtain ⟨rfl, h⟩ := h
    rw [c34]
    simp only [Option.bind_eq_bind, Option.bind_some]
    have h' : p ++ q = (k.flatMap escape ++ [34]) ++
        (58 :: (render x ++ (renderMembers false l ++ [125]))) := by rw [h]; simp
    rcases cut_cases h' with ⟨c, hc, h1⟩ | ⟨c, h1, h2⟩
    · rw [readChars_cut k h1 hc]
      rfl
    · rw [h1, List.append_assoc, List.singleton_append, readChars_quote]
      simp only [Option.bind_some]
      cases c with
      | nil => simp [readChar, ws]
      | cons a c =>
        simp only [List.cons_append, List.cons.injEq] at h2
        obtain ⟨rfl, h2⟩ := h2
        rw [c58]
        simp only [Option.bind_some]
        rcases cut_cases h2 with ⟨d, hd, h3⟩ | ⟨d, h3, h4⟩
        · cases hr : readDoc f c with
          | none => rfl
          | some v =>
            obtain ⟨_, hv⟩ := readDoc_cut x (by omega) h3 hd hr
            obtain ⟨y, r⟩ := v
            dsimp only at hv
            subst hv
            rfl
        · cases l with
          | nil =>
            simp only [renderMembers, List.nil_append] at h4
            have hd : d = [] := by
              cases d with
              | nil => rfl
              | cons a d => simp at h4; exact absurd h4.2.2 hq
            subst hd
            rw [h3, readDoc_render x (by omega) (by intro c hc; simp at hc)]
            rfl
          | cons y l =>
            obtain ⟨k', y⟩ := y
            have e : renderMembers false ((k', y) :: l) = 44 :: renderMembers true ((k', y) :: l) := by
              simp [renderMembers]
            rw [e] at hf h4
            simp only [List.length_cons] at hf
            cases d with
            | nil =>
              rw [h3, readDoc_render x (by omega) (by intro c hc; simp at hc)]
              rfl
            | cons a d =>
              simp only [List.cons_append, List.cons.injEq] at h4
              obtain ⟨rfl, h4⟩ := h4
              rw [h3, readDoc_render x (by omega) (stop_cons (by decide) _)]
              simp only [Option.bind_some, ws_cons (c := 44) (by decide),
                if_neg (by decide : ¬ (44 : UInt8) = 125), if_true]
              rw [readMembers_cut k' y l (by omega) h4 hq]
              rfl
termination_by fuel
end

/-- No proper beginning of the text of a document that is not a number is well-formed. -/
theorem read_cut {x : Doc} (hx : ¬ IsNum x) {p q : List UInt8} (h : p ++ q = render x)
    (hq : q ≠ []) : Spec.read p = none := by
  have hl : p.length + 1 ≤ (render x).length + 1 := by
    have := congrArg List.length h
    rw [List.length_append] at this
    omega
  have : readDoc (p.length + 1) p = none := by
    cases hr : readDoc (p.length + 1) p with
    | none => rfl
    | some v =>
      exact absurd (readDoc_cut x (Nat.lt_succ_self _) h hq (readDoc_mono hl p v hr)).1 hx
  unfold Spec.read
  rw [this]

/-- C115.  Emit a document that is not a bare number, and let the characters passed to the writer be
cut off anywhere before the last one (a crash, a full buffer, a lost connection): the JSON reader
rejects what is there.  Together with C56: of all the texts that exist while the document is being
emitted, exactly the last one is accepted. -/
theorem C115_truncated {P : Plat} {m : Mem} (junk : Jems) (hj : junk.out = []) {levels : List Level}
    {maxLevel : Nat} {writer : Val} (arg : Nat) (hi : InitOk P levels maxLevel writer) {x : Doc}
    {cs : List Call} (h : Writes P m x cs) (hd : depth x < maxLevel) (hf : Fits P.szMod x)
    (hx : ¬ IsNum x) :
    ∃ j0 j, init junk levels maxLevel writer arg = .ok j0 ∧ calls P m j0 cs = .ok j ∧
      (∀ n < j.out.length, Spec.read ((j.out.take n).map Emit.ch) = none) ∧
      Spec.read (j.out.map Emit.ch) = some x := by
  obtain ⟨j0, j, e0, e, ho⟩ := C56_document junk arg hi h hd hf
  have hch : j.out.map Emit.ch = render x := by
    rw [ho, hj]
    simp [written, List.map_map, Function.comp_def]
  refine ⟨j0, j, e0, e, fun n hn => ?_, by rw [hch]; exact read_render x⟩
  refine read_cut (x := x) hx (q := (j.out.drop n).map Emit.ch) ?_ ?_
  · rw [← List.map_append, List.take_append_drop, hch]
  · intro hc
    have := congrArg List.length hc
    simp at this
    omega

/-- C115 for the buffer of a `mu_bvec`: a document that is not a bare number is emitted into a vector of
`cap` bytes.  The bytes the vector then holds (at most its capacity, at most its count) are accepted
by the JSON reader if and only if nothing was dropped, that is, if the count does not exceed the
capacity; and then they denote the document. -/
theorem C115_buffer {P : Plat} {ms m : Mem} (junk : Jems) (hj : junk.out = [])
    {levels : List Level} {maxLevel : Nat} {writer : Val} (arg : Nat)
    (hi : InitOk P levels maxLevel writer) {x : Doc} {cs : List Call} (h : Writes P ms x cs)
    (hd : depth x < maxLevel) (hf : Fits P.szMod x) (hx : ¬ IsNum x) (old : BVec) {b : BBuf}
    (hv : Valid m b) (hc : b.cap < P.szMod) (hlen : (render x).length < P.szMod) :
    ∃ j0 j m' v', init junk levels maxLevel writer arg = .ok j0 ∧ calls P ms j0 cs = .ok j ∧
      intoVec P m (BVec.initB old b) j.out = .ok (m', v') ∧
      Spec.read ((view m' b).take (getCount v')) =
        if getCount v' ≤ getCapacity v' then some x else none := by
  obtain ⟨j0, j, m', v', e0, e, ev, hm, hcnt, hcap⟩ :=
    C88_into_bvec junk hj arg hi h hd hf old hv hc hlen
  refine ⟨j0, j, m', v', e0, e, ev, ?_⟩
  have hl := view_length hv
  have hol : (overwritten (view m b) (render x)).length = b.cap := by
    unfold overwritten
    simp [hl]; omega
  have hview : view m' b = overwritten (view m b) (render x) := by
    rw [hm]; exact (replaced_valid hv hol).2
  rw [hview, hcnt, hcap]
  unfold overwritten
  rw [List.take_take, hl]
  split
  · rename_i hle
    rw [Nat.min_eq_left hle, List.take_left]
    exact read_render x
  · rename_i hle
    rw [Nat.min_eq_right (by omega), List.take_append_of_le_length (by omega)]
    refine read_cut hx (q := (render x).drop b.cap) (List.take_append_drop _ _) ?_
    intro hc
    have := congrArg List.length hc
    simp at this
    omega

/-- Bare numbers have to be excepted: `12` begins with `1`. -/
example : Spec.read (ascii "1") = some (.int 1) ∧ render (.int 12) = ascii "12" := by
  refine ⟨by rfl, by decide +kernel⟩

/-- The document of C56 is covered. -/
example : ¬ IsNum exDoc ∧ Writes Plat.ip16 exMem exDoc exCalls := ⟨fun h => h, exWrites⟩

end Mu.Jems
