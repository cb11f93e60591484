import Verif.Props.BBufExact

/-! # Property C110: searching and trimming with predicates that keep state -/

namespace Mu.BBuf

/-- The predicate is asked about the bytes one after the other until it says no: the number of the byte
it said no to (if any), and its state afterwards. -/
def ask {σ : Type} (pred : σ → UInt8 → Bool × σ) : σ → List UInt8 → Option Nat × σ
  | s, [] => (none, s)
  | s, x :: l =>
    if (pred s x).1 then
      match ask pred (pred s x).2 l with
      | (some i, s) => (some (i + 1), s)
      | (none, s) => (none, s)
    else (some 0, (pred s x).2)

theorem ask_lt {σ : Type} {pred : σ → UInt8 → Bool × σ} : ∀ {l : List UInt8} {s s' : σ} {i : Nat},
    ask pred s l = (some i, s') → i < l.length
  | [], _, _, _, h => by simp [ask] at h
  | x :: l, s, s', i, h => by
    rw [ask] at h
    split at h
    · split at h
      · rename_i j t he
        obtain ⟨h1, -⟩ := Prod.mk.inj h
        have := ask_lt he
        obtain rfl := Option.some.inj h1
        simpa using this
      · simp at h
    · obtain ⟨h1, -⟩ := Prod.mk.inj h
      obtain rfl := Option.some.inj h1
      simp

theorem findPredLoop_ok {σ : Type} {P : Plat} {m : Mem} {b : BBuf} (v : Valid m b) (f : Fits P b)
    (pred : σ → UInt8 → Bool × σ) : ∀ (n fuel k : Nat) (s : σ), k + n = b.cap → n < fuel →
    findPredLoop P m b.p b.cap pred fuel k s =
      match ask pred s ((view m b).drop k) with
      | (some i, s) => .ok (((k + i : Nat) : Int), s)
      | (none, s) => .ok (NOT_FOUND P, s) := by
  have hl := view_length v
  have hmin := P.intMin_eq
  unfold Fits at f
  intro n
  induction n with
  | zero =>
    intro fuel k s hk hf
    obtain ⟨fuel, rfl⟩ : ∃ g, fuel = g + 1 := ⟨fuel - 1, by omega⟩
    rw [findPredLoop, if_neg (by omega), List.drop_of_length_le (by omega)]
    rfl
  | succ n ih =>
    intro fuel k s hk hf
    obtain ⟨fuel, rfl⟩ : ∃ g, fuel = g + 1 := ⟨fuel - 1, by omega⟩
    have hkl : k < (view m b).length := by omega
    have hld : m.ld b.p (k : Int) = .ok (view m b)[k] := by
      obtain ⟨v1, v2⟩ := v
      unfold Mem.ld
      have e : b.p.off + (k : Int) = ((b.p.off.toNat + k : Nat) : Int) := by omega
      rw [e, ld_nat, ldN, List.getElem?_eq_getElem (by omega)]
      simp [view]
    rw [findPredLoop, if_pos (by omega), hld, C.ok_bind, List.drop_eq_getElem_cons hkl, ask]
    generalize (view m b)[k] = x
    rcases hp : pred s x with ⟨a, t⟩
    cases a with
    | false =>
      simp
    | true =>
      simp only [if_true, Bool.true_eq_false, if_false]
      rw [Plat.int_ok (by omega) (by omega), C.ok_bind]
      have hc : ((k : Int) + 1) = ((k + 1 : Nat) : Int) := by omega
      rw [hc, ih fuel (k + 1) t (by omega) (by omega)]
      rcases ask pred t ((view m b).drop (k + 1)) with ⟨_ | i, u⟩
      · rfl
      · have : k + 1 + i = k + (i + 1) := by omega
        simp only [this]

theorem rfindPredLoop_ok {σ : Type} {P : Plat} {m : Mem} {b : BBuf} (v : Valid m b) (f : Fits P b)
    (pred : σ → UInt8 → Bool × σ) : ∀ (k fuel : Nat) (s : σ), k ≤ b.cap → k < fuel →
    rfindPredLoop P m ⟨b.p.blk, b.p.off + (b.cap : Int)⟩ b.cap pred fuel k s =
      match ask pred s ((view m b).take k).reverse with
      | (some i, s) => .ok (((k - 1 - i : Nat) : Int), s)
      | (none, s) => .ok (NOT_FOUND P, s) := by
  have hl := view_length v
  have hmin := P.intMin_eq
  unfold Fits at f
  intro k
  induction k with
  | zero =>
    intro fuel s hk hf
    obtain ⟨fuel, rfl⟩ : ∃ g, fuel = g + 1 := ⟨fuel - 1, by omega⟩
    rw [rfindPredLoop, if_neg (by omega)]
    rfl
  | succ k ih =>
    intro fuel s hk hf
    obtain ⟨fuel, rfl⟩ : ∃ g, fuel = g + 1 := ⟨fuel - 1, by omega⟩
    have hkl : k < (view m b).length := by omega
    have e0 : ((k + 1 : Nat) : Int) - 1 = (k : Int) := by omega
    have hld : m.ld ⟨b.p.blk, b.p.off + (b.cap : Int)⟩ (((k + 1 : Nat) : Int) - 1 - (b.cap : Int)) =
        .ok (view m b)[k] := by
      obtain ⟨v1, v2⟩ := v
      unfold Mem.ld
      have e : b.p.off + (b.cap : Int) + (((k + 1 : Nat) : Int) - 1 - (b.cap : Int)) =
          ((b.p.off.toNat + k : Nat) : Int) := by omega
      simp only [e]
      rw [ld_nat, ldN, List.getElem?_eq_getElem (by omega)]
      simp [view]
    rw [rfindPredLoop, if_pos (by omega), hld, C.ok_bind, List.take_succ_eq_append_getElem hkl,
      List.reverse_append, List.reverse_singleton, List.singleton_append, ask, e0]
    generalize (view m b)[k] = x
    rcases hp : pred s x with ⟨a, t⟩
    cases a with
    | false =>
      simp
    | true =>
      simp only [if_true, Bool.true_eq_false, if_false]
      rw [Plat.int_ok (by omega) (by omega), C.ok_bind, ih fuel t (by omega) (by omega)]
      rcases ask pred t ((view m b).take k).reverse with ⟨_ | i, u⟩
      · rfl
      · have : k - 1 - i = k + 1 - 1 - (i + 1) := by omega
        simp only [this]

/-- What `mu_bbuf_find_predicate` returns for the answer of `ask`. -/
def foundAt (P : Plat) : Option Nat → Int
  | some i => i
  | none => NOT_FOUND P

/-- **C110a.**  `mu_bbuf_find_predicate` with a predicate that keeps state in its argument: the
predicate is asked about the bytes from the first on, once each, until it says no; the result is the
position of that byte, MU_BBUF_NOT_FOUND if there is none.  `mu_bbuf_rfind_predicate` asks from the last
byte on. -/
theorem C110_find {σ : Type} {P : Plat} {m : Mem} {b : BBuf} (v : Valid m b) (f : Fits P b)
    (pred : σ → UInt8 → Bool × σ) (s : σ) :
    findPredicateS P m b pred s =
      .ok (foundAt P (ask pred s (view m b)).1, (ask pred s (view m b)).2) ∧
    rfindPredicateS P m b pred s =
      .ok (foundAt P ((ask pred s (view m b).reverse).1.map (fun i => b.cap - 1 - i)),
        (ask pred s (view m b).reverse).2) := by
  have hl := view_length v
  have f' : (b.cap : Int) ≤ P.intMax := f
  constructor
  · have h := findPredLoop_ok v f pred b.cap (b.cap + 1) 0 s (by omega) (by omega)
    rw [findPredicateS, Plat.toInt_of_le f', Int.toNat_natCast]
    rw [List.drop_zero] at h
    refine Eq.trans h ?_
    rcases ask pred s (view m b) with ⟨_ | i, u⟩ <;> simp [foundAt]
  · have h := rfindPredLoop_ok v f pred b.cap (b.cap + 1) s (by omega) (by omega)
    have ha : m.add b.p (b.cap : Int) = .ok ⟨b.p.blk, b.p.off + (b.cap : Int)⟩ := by
      unfold Mem.add
      rw [if_pos]
      have := v.1; have := v.2; omega
    rw [rfindPredicateS, Plat.toInt_of_le f', ha, C.ok_bind, Int.toNat_natCast, h,
      List.take_of_length_le (by omega)]
    rcases ask pred s (view m b).reverse with ⟨_ | i, u⟩ <;> rfl

/-- A predicate together with a record of the bytes it has been asked about. -/
def recorded {σ : Type} (pred : σ → UInt8 → Bool × σ) : σ × List UInt8 → UInt8 → Bool × (σ × List UInt8)
  | (s, l), x => ((pred s x).1, ((pred s x).2, l ++ [x]))

theorem ask_recorded {σ : Type} (pred : σ → UInt8 → Bool × σ) : ∀ (l : List UInt8) (s : σ)
    (r : List UInt8), ask (recorded pred) (s, r) l = ((ask pred s l).1, ((ask pred s l).2,
      r ++ (match (ask pred s l).1 with
        | some i => l.take (i + 1)
        | none => l)))
  | [], s, r => by simp [ask]
  | x :: l, s, r => by
    have hr : recorded pred (s, r) x = ((pred s x).1, ((pred s x).2, r ++ [x])) := rfl
    rw [ask, ask, hr]
    by_cases h : (pred s x).1 = true
    · rw [if_pos h, if_pos h, ask_recorded pred l]
      rcases ask pred (pred s x).2 l with ⟨_ | i, u⟩ <;> simp
    · rw [if_neg h, if_neg h]
      simp

/-- **C110b.**  The calls of the predicate: `mu_bbuf_find_predicate` asks about exactly the bytes up to
and including the one it returns, in this order (all of them if it finds none);
`mu_bbuf_rfind_predicate` about exactly the bytes from the last down to the one it returns. -/
theorem C110_calls {σ : Type} {P : Plat} {m : Mem} {b : BBuf} (v : Valid m b) (f : Fits P b)
    (pred : σ → UInt8 → Bool × σ) (s : σ) :
    (∃ (r : Int) (s' : σ), findPredicateS P m b (recorded pred) (s, []) =
        .ok (r, (s', if r = NOT_FOUND P then view m b else (view m b).take (r.toNat + 1))) ∧
      findPredicateS P m b pred s = .ok (r, s')) ∧
    (∃ (r : Int) (s' : σ), rfindPredicateS P m b (recorded pred) (s, []) =
        .ok (r, (s', if r = NOT_FOUND P then (view m b).reverse
          else ((view m b).drop r.toNat).reverse)) ∧
      rfindPredicateS P m b pred s = .ok (r, s')) := by
  have hl := view_length v
  have f' : (b.cap : Int) ≤ P.intMax := f
  constructor
  · refine ⟨_, _, ?_, (C110_find v f pred s).1⟩
    rw [(C110_find v f (recorded pred) (s, [])).1, ask_recorded]
    rcases hA : ask pred s (view m b) with ⟨_ | i, u⟩
    · simp [foundAt]
    · have := ask_lt hA
      have hne : ((i : Nat) : Int) ≠ NOT_FOUND P := by unfold NOT_FOUND; omega
      simp [foundAt, hne]
  · refine ⟨_, _, ?_, (C110_find v f pred s).2⟩
    rw [(C110_find v f (recorded pred) (s, [])).2, ask_recorded]
    rcases hA : ask pred s (view m b).reverse with ⟨_ | i, u⟩
    · simp [foundAt]
    · have := ask_lt hA
      rw [List.length_reverse] at this
      have hne : ((b.cap - 1 - i : Nat) : Int) ≠ NOT_FOUND P := by unfold NOT_FOUND; omega
      have e : (view m b).length - (i + 1) = b.cap - 1 - i := by omega
      simp [foundAt, hne, List.take_reverse, e]

/-- What is left of a buffer's bytes by `mu_bbuf_ltrim`, given the answer of the search. -/
def ltrimmed (l : List UInt8) : Option Nat → List UInt8
  | some i => l.drop i
  | none => l

/-- What is left of a buffer's bytes by `mu_bbuf_rtrim`: also the byte that the predicate said no to
is dropped. -/
def rtrimmed (l : List UInt8) : Option Nat → List UInt8
  | some i => l.take (l.length - 1 - i)
  | none => l

/-- **C110c.**  Trimming with such a predicate. -/
theorem C110_ltrim {σ : Type} {P : Plat} {m : Mem} {O : Objs} {dst src : Val}
    (pred : σ → UInt8 → Bool × σ) (s : σ) (hv : Valid m (O src)) (hf : Fits P (O src)) :
    ∃ O', ltrimS P m O dst src pred s = .ok (O', (ask pred s (view m (O src))).2) ∧
      Within (O' dst) (O src) ∧ Valid m (O' dst) ∧
      view m (O' dst) = ltrimmed (view m (O src)) (ask pred s (view m (O src))).1 ∧
      ∀ x, x ≠ dst → O' x = O x := by
  have hl := view_length hv
  have hmin := P.intMin_eq
  have hmax := P.intMax_ge
  have f' : ((O src).cap : Int) ≤ P.intMax := hf
  rw [ltrimS, (C110_find hv hf pred s).1, C.ok_bind]
  rcases hA : ask pred s (view m (O src)) with ⟨_ | i, u⟩
  · simp only [foundAt, if_true]
    refine ⟨_, rfl, ?_, ?_, ?_, ?_⟩
    · simp [copy, set, Within]
    · simpa [copy, set] using hv
    · simp [copy, set, ltrimmed]
    · intro x hx; simp [copy, set, hx]
  · have hi := ask_lt hA
    have ef : foundAt P (some i, u).1 = (i : Int) := rfl
    rw [ef]
    dsimp only
    rw [if_neg (by unfold NOT_FOUND; omega)]
    obtain ⟨O', h1, h2, h3, h4, h5⟩ := C69_slice (P := P) (m := m) (O := O) (dst := dst) (src := src)
      (start := (i : Int)) (stop := END P) hv hf (by omega) (by omega) (by unfold END; omega)
      (by unfold END; omega)
    rw [h1, C.ok_bind]
    refine ⟨O', rfl, h2, h3, ?_, h5⟩
    rw [h4, ltrimmed]
    have e1 : position (O src).cap (i : Int) = i := by unfold position; rw [if_neg (by omega)]; omega
    have e2 : position (O src).cap (END P) = (O src).cap := by
      unfold position END; rw [if_neg (by omega)]; omega
    rw [e1, e2, List.take_of_length_le (by omega)]

/-- **C110c.**  Trimming at the end. -/
theorem C110_rtrim {σ : Type} {P : Plat} {m : Mem} {O : Objs} {dst src : Val}
    (pred : σ → UInt8 → Bool × σ) (s : σ) (hv : Valid m (O src)) (hf : Fits P (O src)) :
    ∃ O', rtrimS P m O dst src pred s = .ok (O', (ask pred s (view m (O src)).reverse).2) ∧
      Within (O' dst) (O src) ∧ Valid m (O' dst) ∧
      view m (O' dst) = rtrimmed (view m (O src)) (ask pred s (view m (O src)).reverse).1 ∧
      ∀ x, x ≠ dst → O' x = O x := by
  have hl := view_length hv
  have hmin := P.intMin_eq
  have hmax := P.intMax_ge
  have f' : ((O src).cap : Int) ≤ P.intMax := hf
  rw [rtrimS, (C110_find hv hf pred s).2, C.ok_bind]
  rcases hA : ask pred s (view m (O src)).reverse with ⟨_ | i, u⟩
  · simp only [foundAt, Option.map_none, if_true]
    refine ⟨_, rfl, ?_, ?_, ?_, ?_⟩
    · simp [copy, set, Within]
    · simpa [copy, set] using hv
    · simp [copy, set, rtrimmed]
    · intro x hx; simp [copy, set, hx]
  · have hi := ask_lt hA
    rw [List.length_reverse] at hi
    have ef : foundAt P ((some i, u).1.map (fun i => (O src).cap - 1 - i)) =
        (((O src).cap - 1 - i : Nat) : Int) := rfl
    rw [ef]
    dsimp only
    rw [if_neg (by unfold NOT_FOUND; omega)]
    obtain ⟨O', h1, h2, h3, h4, h5⟩ := C69_slice (P := P) (m := m) (O := O) (dst := dst) (src := src)
      (start := 0) (stop := (((O src).cap - 1 - i : Nat) : Int)) hv hf (by omega) (by omega) (by omega)
      (by omega)
    rw [h1, C.ok_bind]
    refine ⟨O', rfl, h2, h3, ?_, h5⟩
    rw [h4, rtrimmed]
    have e1 : position (O src).cap 0 = 0 := by unfold position; simp
    have e2 : position (O src).cap (((O src).cap - 1 - i : Nat) : Int) = (O src).cap - 1 - i := by
      unfold position; rw [if_neg (by omega)]; omega
    rw [e1, e2, List.drop_zero, hl, Nat.zero_max]

/-- **C110c.**  Trimming at both ends: the state the predicate has after the first bytes is the one it
begins with at the end. -/
theorem C110_trim {σ : Type} {P : Plat} {m : Mem} {O : Objs} {dst src : Val}
    (pred : σ → UInt8 → Bool × σ) (s : σ) (hv : Valid m (O src)) (hf : Fits P (O src)) :
    let front := ask pred s (view m (O src))
    let rest := ltrimmed (view m (O src)) front.1
    let back := ask pred front.2 rest.reverse
    ∃ O', trimS P m O dst src pred s = .ok (O', back.2) ∧
      Within (O' dst) (O src) ∧ Valid m (O' dst) ∧ view m (O' dst) = rtrimmed rest back.1 ∧
      ∀ x, x ≠ dst → O' x = O x := by
  obtain ⟨O1, h1, h2, h3, h4, h5⟩ := C110_ltrim (P := P) (dst := dst) pred s hv hf
  have hf1 : Fits P (O1 dst) := by
    unfold Fits at hf ⊢; unfold Within at h2; omega
  obtain ⟨O2, k1, k2, k3, k4, k5⟩ := C110_rtrim (P := P) (O := O1) (dst := dst) (src := dst) pred
    (ask pred s (view m (O src))).2 h3 hf1
  rw [h4] at k1 k4
  refine ⟨O2, ?_, ?_, k3, k4, ?_⟩
  · rw [trimS, h1, C.ok_bind]
    exact k1
  · unfold Within at h2 k2 ⊢; omega
  · intro x hx; rw [k5 x hx, h5 x hx]

/-- **C110d.**  For a predicate without state these functions are the ones of C43, C71 and C72. -/
theorem C110_stateless {σ : Type} (P : Plat) (m : Mem) (b : BBuf) (pred : UInt8 → Bool) (s : σ) :
    findPredicateS P m b (fun s x => (pred x, s)) s = (do
      let r ← findPredicate P m b pred
      .ok (r, s)) ∧
    rfindPredicateS P m b (fun s x => (pred x, s)) s = (do
      let r ← rfindPredicate P m b pred
      .ok (r, s)) := by
  constructor
  · rw [findPredicateS, findPredicate]
    generalize (P.toInt b.cap).toNat + 1 = fuel
    generalize (0 : Int) = i
    generalize P.toInt b.cap = cap
    induction fuel generalizing i with
    | zero => rfl
    | succ fuel ih =>
      simp only [findPredLoop, forLoop, decide_eq_true_eq]
      by_cases hi : i < cap
      · rw [if_pos hi, if_pos hi]
        cases m.ld b.p i with
        | error e => rfl
        | ok x =>
          simp only [C.ok_bind]
          by_cases hp : pred x = false
          · rw [if_pos hp, if_pos hp]; rfl
          · rw [if_neg hp, if_neg hp, C.ok_bind]
            simp only
            cases P.int (i + 1) with
            | error e => rfl
            | ok j =>
              simp only [C.ok_bind]
              exact ih j
      · rw [if_neg hi, if_neg hi]; rfl
  · rw [rfindPredicateS, rfindPredicate]
    cases m.add b.p (P.toInt b.cap) with
    | error e => rfl
    | ok p =>
      simp only [C.ok_bind]
      generalize (P.toInt b.cap).toNat + 1 = fuel
      generalize hi0 : P.toInt b.cap = i
      have : ∀ (fuel : Nat) (cap i : Int), rfindPredLoop P m p cap (fun s x => (pred x, s)) fuel i s =
          (do
            let r ← (do
              let (r, _) ← forLoop P (fun i => decide (i > 0)) (-1)
                (fun i => do
                  let x ← m.ld p (i - 1 - cap)
                  if pred x = false then .ok (some (i - 1)) else .ok none) fuel i
              match r with
              | some i => .ok i
              | none => .ok (NOT_FOUND P))
            .ok (r, s)) := by
        intro fuel cap
        induction fuel with
        | zero => intro i; rfl
        | succ fuel ih =>
          intro i
          simp only [rfindPredLoop, forLoop, decide_eq_true_eq]
          by_cases hi : i > 0
          · rw [if_pos hi, if_pos hi]
            cases m.ld p (i - 1 - cap) with
            | error e => rfl
            | ok x =>
              simp only [C.ok_bind]
              by_cases hp : pred x = false
              · rw [if_pos hp, if_pos hp]; rfl
              · rw [if_neg hp, if_neg hp, C.ok_bind]
                simp only [Int.sub_eq_add_neg]
                cases P.int (i + -1) with
                | error e => rfl
                | ok j =>
                  simp only [C.ok_bind]
                  exact ih j
          · rw [if_neg hi, if_neg hi]; rfl
      exact this fuel i i

/-- A predicate that says yes twice, whatever the bytes: trimming two bytes in front and, the state
being used up, the last byte. -/
example : trimS Plat.lp64 exMem (fun _ => exHay) 1 2 (fun s _ => (decide (0 < s), s - 1)) (2 : Nat) =
      .ok (set (set (fun _ => exHay) 1 ⟨⟨1, 2⟩, 3⟩) 1 ⟨⟨1, 2⟩, 2⟩, 0) ∧
    ask (fun s _ => (decide (0 < s), s - 1)) (2 : Nat) (view exMem exHay) = (some 2, 0) :=
  ⟨rfl, by decide⟩

end Mu.BBuf
