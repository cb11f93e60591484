import Verif.C.Basic

/-!
# Byte memory and counting loops

This file models no mulib code.  Memory is a family of byte objects (arrays), identified by
numbers; a pointer is an object and an offset.  Every access outside its object is a fault, and so is
computing a pointer outside `[0, length]` (C11 6.5.6p8).
-/

namespace Mu

structure Ptr where
  blk : Nat
  off : Int
  deriving DecidableEq

/-- The contents of every object. -/
abbrev Mem := Nat → List UInt8

/-- Replace the contents of object `k`. -/
def Mem.set (m : Mem) (k : Nat) (l : List UInt8) : Mem := fun j => if j = k then l else m j

/-- `p[i]`. -/
def Mem.ld (m : Mem) (p : Ptr) (i : Int) : C UInt8 := Mu.ld (m p.blk) (p.off + i)

/-- `p[i] = v`. -/
def Mem.st (m : Mem) (p : Ptr) (i : Int) (v : UInt8) : C Mem := do
  let l ← Mu.st (m p.blk) (p.off + i) v
  .ok (m.set p.blk l)

/-- `&p[i]`. -/
def Mem.add (m : Mem) (p : Ptr) (i : Int) : C Ptr :=
  if 0 ≤ p.off + i ∧ p.off + i ≤ (m p.blk).length then .ok ⟨p.blk, p.off + i⟩ else .error .ptr

/-- The `n` bytes at `p`. -/
def Mem.readN (m : Mem) (p : Ptr) (n : Nat) : C (List UInt8) :=
  if 0 ≤ p.off ∧ p.off + n ≤ (m p.blk).length then .ok (((m p.blk).drop p.off.toNat).take n)
  else .error .oob

/-- Overwrite the bytes at `p` by `bs`. -/
def Mem.writeN (m : Mem) (p : Ptr) (bs : List UInt8) : C Mem :=
  if 0 ≤ p.off ∧ p.off + bs.length ≤ (m p.blk).length then
    .ok (m.set p.blk ((m p.blk).take p.off.toNat ++ bs ++ (m p.blk).drop (p.off.toNat + bs.length)))
  else .error .oob

/-- `memmove(dst, src, n)`. -/
def Mem.memmove (m : Mem) (dst src : Ptr) (n : Nat) : C Mem := do
  let bs ← m.readN src n
  m.writeN dst bs

/-- `memset(p, v, n)`. -/
def Mem.memset (m : Mem) (p : Ptr) (v : UInt8) (n : Nat) : C Mem := m.writeN p (List.replicate n v)

/-- `strlen(p)`; `fuel` only needs to exceed the length of the string. -/
def Mem.strlenAux (m : Mem) (p : Ptr) : Nat → Nat → C Nat
  | 0, _ => .error .diverge
  | fuel + 1, i => do
    let b ← m.ld p i
    if b = 0 then .ok i else Mem.strlenAux m p fuel (i + 1)

/-- `strlen(p)`. -/
def Mem.strlen (m : Mem) (p : Ptr) : C Nat := m.strlenAux p ((m p.blk).length + 1) 0

/-- `for (; cond(i); i += d) body(i)` with an `int` counter starting at `i`, left early if the body
returns or breaks with a value.  Result: that value if any, and the final counter. -/
def forLoop {α : Type} (P : Plat) (cond : Int → Bool) (d : Int) (body : Int → C (Option α)) :
    Nat → Int → C (Option α × Int)
  | 0, _ => .error .diverge
  | fuel + 1, i =>
    if cond i then do
      let r ← body i
      match r with
      | some a => .ok (some a, i)
      | none => do
        let j ← P.int (i + d)
        forLoop P cond d body fuel j
    else .ok (none, i)

/-! ## Facts about loops -/

/-- A loop whose body never leaves early runs to its end. -/
theorem forLoop_none {α : Type} {P : Plat} {cond : Int → Bool} {d : Int}
    {body : Int → C (Option α)} : ∀ (n fuel : Nat) (a : Int), n < fuel →
    (∀ j : Nat, j < n → cond (a + d * j) = true) → cond (a + d * n) = false →
    (∀ j : Nat, j < n → body (a + d * j) = .ok none) →
    (∀ j : Nat, j < n → P.intMin ≤ a + d * (j + 1) ∧ a + d * (j + 1) ≤ P.intMax) →
    forLoop P cond d body fuel a = .ok (none, a + d * n) := by
  intro n
  induction n with
  | zero =>
    intro fuel a hf _ hc _ _
    obtain ⟨f, rfl⟩ : ∃ f, fuel = f + 1 := ⟨fuel - 1, by omega⟩
    simp only [Int.natCast_zero, Int.mul_zero, Int.add_zero] at hc ⊢
    simp [forLoop, hc]
  | succ n ih =>
    intro fuel a hf ht hc hb hr
    obtain ⟨f, rfl⟩ : ∃ f, fuel = f + 1 := ⟨fuel - 1, by omega⟩
    have shift : ∀ j : Nat, a + d + d * j = a + d * ((j + 1 : Nat) : Int) := by
      intro j; rw [Int.natCast_add, Int.mul_add]; simp; omega
    have h0 := ht 0 (by omega)
    have b0 := hb 0 (by omega)
    have r0 := hr 0 (by omega)
    simp only [Int.natCast_zero, Int.mul_zero, Int.add_zero, Int.zero_add, Int.mul_one] at h0 b0 r0
    simp only [forLoop, h0, if_true, b0, C.ok_bind, Plat.int_ok r0.1 r0.2]
    rw [ih f (a + d) (by omega) (fun j hj => by rw [shift]; exact ht _ (by omega))
      (by rw [shift]; exact hc) (fun j hj => by rw [shift]; exact hb _ (by omega)), shift]
    intro j hj
    have e : a + d + d * ((j : Int) + 1) = a + d * (((j + 1 : Nat) : Int) + 1) := by
      rw [Int.mul_add, Int.mul_add, Int.natCast_add, Int.mul_add]; simp; omega
    rw [e]
    exact hr (j + 1) (by omega)

/-- A loop whose body leaves early for the first time in round `n`. -/
theorem forLoop_some {α : Type} {P : Plat} {cond : Int → Bool} {d : Int}
    {body : Int → C (Option α)} {x : α} : ∀ (n fuel : Nat) (a : Int), n < fuel →
    (∀ j : Nat, j ≤ n → cond (a + d * j) = true) →
    (∀ j : Nat, j < n → body (a + d * j) = .ok none) → body (a + d * n) = .ok (some x) →
    (∀ j : Nat, j < n → P.intMin ≤ a + d * (j + 1) ∧ a + d * (j + 1) ≤ P.intMax) →
    forLoop P cond d body fuel a = .ok (some x, a + d * n) := by
  intro n
  induction n with
  | zero =>
    intro fuel a hf ht _ hb _
    obtain ⟨f, rfl⟩ : ∃ f, fuel = f + 1 := ⟨fuel - 1, by omega⟩
    have hc := ht 0 (by omega)
    simp only [Int.natCast_zero, Int.mul_zero, Int.add_zero] at hc hb ⊢
    simp [forLoop, hc, hb]
  | succ n ih =>
    intro fuel a hf ht hb hx hr
    obtain ⟨f, rfl⟩ : ∃ f, fuel = f + 1 := ⟨fuel - 1, by omega⟩
    have shift : ∀ j : Nat, a + d + d * j = a + d * ((j + 1 : Nat) : Int) := by
      intro j; rw [Int.natCast_add, Int.mul_add]; simp; omega
    have h0 := ht 0 (by omega)
    have b0 := hb 0 (by omega)
    have r0 := hr 0 (by omega)
    simp only [Int.natCast_zero, Int.mul_zero, Int.add_zero, Int.zero_add, Int.mul_one] at h0 b0 r0
    simp only [forLoop, h0, if_true, b0, C.ok_bind, Plat.int_ok r0.1 r0.2]
    rw [ih f (a + d) (by omega) (fun j hj => by rw [shift]; exact ht _ (by omega))
      (fun j hj => by rw [shift]; exact hb _ (by omega)) (by rw [shift]; exact hx), shift]
    intro j hj
    have e : a + d + d * ((j : Int) + 1) = a + d * (((j + 1 : Nat) : Int) + 1) := by
      rw [Int.mul_add, Int.mul_add, Int.natCast_add, Int.mul_add]; simp; omega
    rw [e]
    exact hr (j + 1) (by omega)

/-- Either no round leaves early, or there is a first one that does. -/
theorem first_or_none {α : Type} (f : Nat → Option α) (n : Nat) :
    (∀ j, j < n → f j = none) ∨
      ∃ j x, j < n ∧ f j = some x ∧ ∀ i, i < j → f i = none := by
  induction n with
  | zero => left; intro j hj; omega
  | succ n ih =>
    rcases ih with h | ⟨j, x, h1, h2, h3⟩
    · cases hf : f n with
      | none =>
        left; intro j hj
        by_cases e : j = n
        · rw [e]; exact hf
        · exact h j (by omega)
      | some x => right; exact ⟨n, x, by omega, hf, h⟩
    · right; exact ⟨j, x, by omega, h2, h3⟩

end Mu
