import Verif.Lemmas.SrcMem
import Verif.Model.BBuf

/-! # Reading bytes and counting loops of the parsed source, as in the models -/

namespace Mu.CS

variable {A : Arch}

@[csrc] theorem int_small {P : Plat} {n : Int} (h1 : -32768 ≤ n) (h2 : n ≤ 32767) :
    P.int n = .ok n := by
  have := P.intMax_ge
  have := P.intMin_eq
  exact Plat.int_ok (by omega) (by omega)

/-! ## Memory for reading: the objects may overlap -/

/-- Memory `h` holds the bytes of `m`. -/
def MB (β : Place) (h : Heap) (m : Mem) : Prop := ∀ k, h.Bytes (β k).1 (β k).2 (m k)

/-- `p + i`. -/
def plus (p : Ptr) (i : Int) : Ptr := ⟨p.blk, p.off + i⟩

@[csrc] theorem plus_zero (p : Ptr) : plus p 0 = p := by simp [plus]
theorem plus_plus (p : Ptr) (i j : Int) : plus (plus p i) j = plus p (i + j) := by
  simp [plus, Int.add_assoc]

theorem MB.padd {β : Place} {h : Heap} {m : Mem} (r : MB β h m) {p q : Ptr} {i : Int}
    (e : m.add p i = .ok q) : h.padd 1 (pv β p) i = .ok (pv β q) := by
  unfold Mem.add at e
  split at e
  · rename_i hc
    cases e
    have hb := r p.blk
    have := hb.1
    have := hb.2.1
    unfold pv
    rw [Heap.padd_one (by omega) (by omega)]
    simp [Int.add_assoc]
  · cases e

theorem ld_add {m : Mem} {p : Ptr} {i : Int} {c : UInt8} (e : m.ld p i = .ok c) :
    m.add p i = .ok (plus p i) := by
  obtain ⟨h0, e⟩ := Mem.ld_ok e
  have := (List.getElem?_eq_some_iff.mp e).1
  unfold Mem.add
  rw [if_pos ⟨h0, by omega⟩]; rfl

theorem ld_add_succ {m : Mem} {p : Ptr} {i : Int} {c : UInt8} (e : m.ld p i = .ok c) :
    m.add (plus p i) 1 = .ok (plus p (i + 1)) := by
  obtain ⟨h0, e⟩ := Mem.ld_ok e
  have := (List.getElem?_eq_some_iff.mp e).1
  unfold Mem.add plus
  dsimp only
  rw [if_pos ⟨by omega, by omega⟩]
  rw [show p.off + i + 1 = p.off + (i + 1) by omega]

theorem MB.padd_ld {β : Place} {h : Heap} {m : Mem} (r : MB β h m) {p : Ptr} {i : Int} {c : UInt8}
    (e : m.ld p i = .ok c) : h.padd 1 (pv β p) i = .ok (pv β (plus p i)) := r.padd (ld_add e)

theorem MB.padd_succ {β : Place} {h : Heap} {m : Mem} (r : MB β h m) {p : Ptr} {i : Int} {c : UInt8}
    (e : m.ld p i = .ok c) : h.padd 1 (pv β (plus p i)) 1 = .ok (pv β (plus p (i + 1))) :=
  r.padd (ld_add_succ e)

theorem MB.load {β : Place} {h : Heap} {m : Mem} (r : MB β h m) {p : Ptr} {i : Int} {c : UInt8}
    (e : m.ld p i = .ok c) : h.load (pv β (plus p i)) = .ok (.int c.toNat) := by
  obtain ⟨h0, e⟩ := Mem.ld_ok e
  have := (r p.blk).2.2 _ _ e
  rw [show (((p.off + i).toNat : Nat) : Int) = p.off + i by omega] at this
  unfold pv plus
  rw [Heap.load_ptr, this]; rfl

theorem MRep.mb {β : Place} {h : Heap} {m : Mem} (r : MRep β h m) : MB β h m := r.bytes

/-! ## Loops with a counter -/

/-- The loop statement ends normally after a `break`. -/
def Flow.out : Flow → Flow
  | .brk => .next
  | f => f

/-- A `for` loop of the models and one of the source. -/
theorem rounds_forLoop {α : Type} {K : Calls} {N : Nat} {l : Stmt} {cond : Int → Bool} {d : Int}
    {body : Int → C (Option α)} (R : Int → St → Prop) (Q : α → Int → Flow → St → Prop)
    (hcond : ∀ i s, R i s → evalCond A K l.cond s = .ok (cond i, s))
    (hsome : ∀ i s x, R i s → cond i = true → body i = .ok (some x) →
      ∃ f s', exec A K N l.body s = .ok (f, s') ∧ f ≠ .next ∧ Q x i f.out s')
    (hnone : ∀ i s, R i s → cond i = true → body i = .ok none → A.int (i + d) = .ok (i + d) →
      ∃ s1 s2, exec A K N l.body s = .ok (.next, s1) ∧ evalStep A K l.step s1 = .ok s2 ∧
        R (i + d) s2) :
    ∀ (fuel : Nat) (n : Nat) (i i' : Int) (s : St) (r : Option α), fuel ≤ n → R i s →
      forLoop A.toPlat cond d body fuel i = .ok (r, i') →
      ∃ f s', l.rounds A K N n s = .ok (f, s') ∧
        match r with
        | none => f = .next ∧ R i' s' ∧ cond i' = false
        | some x => Q x i' f s' := by
  intro fuel
  induction fuel with
  | zero => intro n i i' s r _ _ e; cases e
  | succ fuel ih =>
    intro n i i' s r hn hR e
    obtain ⟨n, rfl⟩ : ∃ n', n = n' + 1 := ⟨n - 1, by omega⟩
    have hc := hcond i s hR
    unfold forLoop at e
    split at e
    · rename_i hci
      rw [hci] at hc
      obtain ⟨rb, eb, e⟩ := C.bind_eq_ok e
      cases rb with
      | some x =>
        cases e
        obtain ⟨f, s', h1, h2, h3⟩ := hsome i s x hR hci eb
        refine ⟨f.out, s', ?_, h3⟩
        cases f with
        | next => exact absurd rfl h2
        | brk => exact Stmt.rounds_brk hc h1
        | ret v => exact Stmt.rounds_ret hc h1
      | none =>
        obtain ⟨j, ej, e⟩ := C.bind_eq_ok e
        obtain ⟨rfl, -⟩ := int_eq_ok ej
        obtain ⟨s1, s2, h1, h2, h3⟩ := hnone i s hR hci eb ej
        rw [Stmt.rounds_next hc h1 h2]
        exact ih n (i + d) i' s2 r (by omega) h3 e
    · rename_i hci
      cases e
      have hcf : cond i = false := by simpa using hci
      rw [hcf] at hc
      exact ⟨.next, s, Stmt.rounds_exit hc, rfl, hR, hcf⟩

/-! ## strlen -/

theorem strlenAux_bytes : ∀ (l : List UInt8) (n : Nat) (cs : List CVal),
    (∀ (i : Nat) (c : UInt8), l[i]? = some c → cs[i]? = some (.int c.toNat)) →
    ∀ k, l[k]? = some 0 → (∀ (i : Nat) (c : UInt8), i < k → l[i]? = some c → c ≠ 0) →
    Lib.strlenAux cs n = .ok (n + k) := by
  intro l
  induction l with
  | nil => intro n cs _ k hk; simp at hk
  | cons c l ih =>
    intro n cs hcs k hk hne
    cases cs with
    | nil => have := hcs 0 c rfl; simp at this
    | cons d cs =>
      have h0 := hcs 0 c rfl
      simp only [List.getElem?_cons_zero, Option.some.injEq] at h0
      subst h0
      cases k with
      | zero =>
        simp only [List.getElem?_cons_zero, Option.some.injEq] at hk
        subst hk; rfl
      | succ k =>
        have hc0 := hne 0 c (by omega) rfl
        have : (c.toNat : Int) ≠ 0 := by rw [ne_eq, byte_eq_0]; exact hc0
        have hs : Lib.strlenAux (.int c.toNat :: cs) n = Lib.strlenAux cs (n + 1) := by
          rw [Lib.strlenAux.eq_3]
          intro h; exact this h
        rw [hs, ih (n + 1) cs (fun i c e => by simpa using hcs (i + 1) c (by simpa using e)) k
          (by simpa using hk) (fun i c hi e => hne (i + 1) c (by omega) (by simpa using e))]
        rw [Nat.add_right_comm, Nat.add_assoc]

theorem Mem.strlenAux_ok {m : Mem} {p : Ptr} : ∀ (fuel i n : Nat), m.strlenAux p fuel i = .ok n →
    i ≤ n ∧ m.ld p n = .ok 0 ∧ ∀ (j : Nat), i ≤ j → j < n → ∃ c, m.ld p j = .ok c ∧ c ≠ 0 := by
  intro fuel
  induction fuel with
  | zero => intro i n e; cases e
  | succ fuel ih =>
    intro i n e
    unfold Mem.strlenAux at e
    obtain ⟨c, ec, e⟩ := C.bind_eq_ok e
    split at e
    · rename_i h0
      cases e
      subst h0
      exact ⟨Nat.le_refl _, ec, fun j h1 h2 => by omega⟩
    · rename_i h0
      obtain ⟨h1, h2, h3⟩ := ih _ _ e
      refine ⟨by omega, h2, fun j hj hj' => ?_⟩
      by_cases hji : j = i
      · subst hji; exact ⟨c, ec, h0⟩
      · exact h3 j (by omega) hj'

theorem MB.strlen {β : Place} {h : Heap} {m : Mem} (r : MB β h m) {p : Ptr} {n : Nat}
    (e : m.strlen p = .ok n) : Lib.strlen h [pv β p] = .ok (.int n, h) := by
  obtain ⟨-, h1, h2⟩ := Mem.strlenAux_ok _ _ _ e
  have hld : ∀ (i : Nat) c, m.ld p i = .ok c → 0 ≤ p.off + i ∧
      (m p.blk)[(p.off + i).toNat]? = some c := fun i c e => Mem.ld_ok e
  have hoff : 0 ≤ p.off := by
    by_cases h0 : n = 0
    · subst h0; have := (hld 0 0 h1).1; omega
    · obtain ⟨c, hc, -⟩ := h2 0 (by omega) (by omega)
      have := (hld 0 c hc).1; omega
  have hb := r p.blk
  have hb0 := hb.1
  have key : Lib.strlenAux ((h.cells (β p.blk).1).drop ((β p.blk).2 + p.off).toNat) 0 = .ok n := by
    have := strlenAux_bytes ((m p.blk).drop p.off.toNat) 0
      ((h.cells (β p.blk).1).drop ((β p.blk).2 + p.off).toNat) ?_ n ?_ ?_
    · simpa using this
    · intro i c hc
      rw [List.getElem?_drop] at hc
      have := hb.2.2 _ _ hc
      unfold Heap.at at this
      rw [if_pos (by omega)] at this
      rw [List.getElem?_drop, ← this]
      congr 1
      omega
    · have := (hld n 0 h1).2
      rw [List.getElem?_drop, ← this]; congr 1; omega
    · intro i c hi hc
      obtain ⟨c', hc', hne⟩ := h2 i (by omega) hi
      have := (hld i c' hc').2
      rw [List.getElem?_drop, show p.off.toNat + i = (p.off + (i : Int)).toNat by omega, this] at hc
      cases hc; exact hne
  unfold pv Lib.strlen
  simp only
  rw [if_pos (by omega), key]; rfl

theorem sem_strlen {X : Ext} (n : Nat) : sem A X prog (n + 1) .strlen = Lib.strlen := rfl

end Mu.CS
