/-!
# The fragment of C used by mulib

This file models no mulib code.  It fixes the small C semantics in which every function of
`/repo/mulib/*.c` is transcribed: platform widths, undefined behaviour as a distinct outcome,
checked `int` arithmetic, wrapping `size_t` arithmetic, bounds-checked storage.
-/

namespace Mu

/-- Implementation-defined widths: `ib` bits in `int` (at least 16, C11 5.2.4.2.1) and `sb` bits
in `size_t`.  mulib targets have `size_t` at least as wide as `int`; this is an assumption. -/
structure Plat where
  ib : Nat
  sb : Nat
  hib : 16 ≤ ib
  hsb : ib ≤ sb

/-- The usual 64 bit platform (LP64): 32 bit `int`, 64 bit `size_t`. -/
def Plat.lp64 : Plat := ⟨32, 64, by decide, by decide⟩
/-- A 32 bit micro-controller: 32 bit `int`, 32 bit `size_t`. -/
def Plat.ilp32 : Plat := ⟨32, 32, by decide, by decide⟩
/-- A 16 bit micro-controller. -/
def Plat.ip16 : Plat := ⟨16, 16, by decide, by decide⟩

/-- `INT_MAX`. -/
def Plat.intMax (P : Plat) : Int := 2 ^ (P.ib - 1) - 1
/-- `INT_MIN`. -/
def Plat.intMin (P : Plat) : Int := -(2 ^ (P.ib - 1))
/-- One more than `SIZE_MAX`. -/
def Plat.szMod (P : Plat) : Nat := 2 ^ P.sb

/-- The ways in which a C execution can leave the defined behaviour of the language. -/
inductive Fault where
  /-- load or store outside an object -/
  | oob
  /-- pointer arithmetic that leaves an object -/
  | ptr
  /-- signed integer overflow -/
  | overflow
  /-- use of an uninitialised automatic variable -/
  | uninit
  /-- dereference or call of a null pointer -/
  | null
  /-- division by zero -/
  | divZero
  /-- the fuel given to a loop was used up -/
  | diverge
  deriving DecidableEq, Repr

/-- Outcome of a C computation: a value, or a fault. -/
abbrev C (α : Type) := Except Fault α

instance {α : Type} [DecidableEq α] : DecidableEq (C α)
  | .ok a, .ok b => if h : a = b then isTrue (by rw [h]) else isFalse (fun e => h (Except.ok.inj e))
  | .error a, .error b =>
      if h : a = b then isTrue (by rw [h]) else isFalse (fun e => h (Except.error.inj e))
  | .ok _, .error _ => isFalse (fun e => nomatch e)
  | .error _, .ok _ => isFalse (fun e => nomatch e)

@[simp] theorem C.ok_bind {α β : Type} (a : α) (f : α → C β) :
    ((Except.ok a : C α) >>= f) = f a := rfl
@[simp] theorem C.error_bind {α β : Type} (e : Fault) (f : α → C β) :
    ((Except.error e : C α) >>= f) = Except.error e := rfl
@[simp] theorem C.pure_eq {α : Type} (a : α) : (pure a : C α) = Except.ok a := rfl
@[simp] theorem C.map_ok {α β : Type} (a : α) (f : α → β) :
    (f <$> (Except.ok a : C α)) = Except.ok (f a) := rfl
@[simp] theorem C.throw_eq {α : Type} (e : Fault) : (throw e : C α) = Except.error e := rfl

theorem C.bind_eq_ok {α β : Type} {c : C α} {f : α → C β} {b : β} (h : (c >>= f) = .ok b) :
    ∃ a, c = .ok a ∧ f a = .ok b := by
  cases c with
  | error e => cases h
  | ok a => exact ⟨a, rfl, h⟩

/-- The computation has a defined outcome. -/
def C.Safe {α : Type} (c : C α) : Prop := ∃ a, c = .ok a

/-- Result of a signed `int` operation: the mathematical value if representable, else
undefined behaviour (C11 6.5p5). -/
def Plat.int (P : Plat) (x : Int) : C Int :=
  if P.intMin ≤ x ∧ x ≤ P.intMax then .ok x else .error .overflow

/-- Conversion of a `size_t` (or any unsigned) value to `int`.  Implementation-defined when out of
range; modelled as reduction modulo 2^ib as gcc, clang and every mulib target do. -/
def Plat.toInt (P : Plat) (n : Nat) : Int := Int.bmod n (2 ^ P.ib)

/-- Conversion of an `int` to `size_t` (C11 6.3.1.3p2): reduction modulo 2^sb. -/
def Plat.toSz (P : Plat) (i : Int) : Nat := (i % (P.szMod : Int)).toNat

/-- Reduction of a `size_t` result modulo 2^sb. -/
def Plat.sz (P : Plat) (n : Nat) : Nat := n % P.szMod

/-- `size_t` subtraction `a - b` (wraps). -/
def Plat.szSub (P : Plat) (a b : Nat) : Nat := P.toSz ((a : Int) - (b : Int))

/-- Load `l[i]`, `i` a signed index. -/
def ld {α : Type} (l : List α) (i : Int) : C α :=
  if 0 ≤ i then
    match l[i.toNat]? with
    | some a => .ok a
    | none => .error .oob
  else .error .oob

/-- Store `l[i] = a`, `i` a signed index. -/
def st {α : Type} (l : List α) (i : Int) (a : α) : C (List α) :=
  if 0 ≤ i ∧ i.toNat < l.length then .ok (l.set i.toNat a) else .error .oob

/-- Load `l[i]`, `i` unsigned. -/
def ldN {α : Type} (l : List α) (i : Nat) : C α :=
  match l[i]? with
  | some a => .ok a
  | none => .error .oob

/-- Store `l[i] = a`, `i` unsigned. -/
def stN {α : Type} (l : List α) (i : Nat) (a : α) : C (List α) :=
  if i < l.length then .ok (l.set i a) else .error .oob

/-- `memmove(&l[dst], &l[src], n * sizeof(l[0]))`: source and destination ranges must lie inside
the object. -/
def memmove {α : Type} (l : List α) (dst src n : Nat) : C (List α) :=
  if src + n ≤ l.length ∧ dst + n ≤ l.length then
    .ok (l.take dst ++ (l.drop src).take n ++ l.drop (dst + n))
  else .error .oob

/-! ## Elementary facts -/

theorem Plat.two_pow_pos (n : Nat) : (0 : Int) < 2 ^ n := Int.pow_pos (by decide)

theorem Plat.pow_split (P : Plat) : (2 : Int) ^ P.ib = 2 * 2 ^ (P.ib - 1) := by
  have h := P.hib
  obtain ⟨k, hk⟩ : ∃ k, P.ib = k + 1 := ⟨P.ib - 1, by omega⟩
  rw [hk]; simp [Int.pow_succ]; omega

theorem Plat.intMax_ge (P : Plat) : 32767 ≤ P.intMax := by
  unfold Plat.intMax
  have h := P.hib
  have : (2 : Nat) ^ 15 ≤ 2 ^ (P.ib - 1) := Nat.pow_le_pow_right (by decide) (by omega)
  have h1 : 32768 ≤ 2 ^ (P.ib - 1) := this
  have h2 : ((32768 : Nat) : Int) ≤ ((2 ^ (P.ib - 1) : Nat) : Int) := Int.ofNat_le.mpr h1
  rw [Int.natCast_pow] at h2
  have h3 : ((2 : Nat) : Int) ^ (P.ib - 1) = (2 : Int) ^ (P.ib - 1) := rfl
  omega

theorem Plat.intMin_eq (P : Plat) : P.intMin = -P.intMax - 1 := by
  unfold Plat.intMax Plat.intMin; omega

theorem Plat.intMax_lt_szMod (P : Plat) : 2 * P.intMax + 2 ≤ P.szMod := by
  unfold Plat.intMax Plat.szMod
  have h1 := P.pow_split
  have h2 : (2 : Nat) ^ P.ib ≤ 2 ^ P.sb := Nat.pow_le_pow_right (by decide) P.hsb
  have h3 : ((2 ^ P.ib : Nat) : Int) ≤ ((2 ^ P.sb : Nat) : Int) := by exact_mod_cast h2
  push_cast at h3
  push_cast
  omega

theorem Plat.szMod_pos (P : Plat) : 0 < P.szMod := Nat.pow_pos (by decide)

theorem Plat.int_ok {P : Plat} {x : Int} (h1 : P.intMin ≤ x) (h2 : x ≤ P.intMax) :
    P.int x = .ok x := by simp [Plat.int, h1, h2]

/-- Non-negative `int` results only need the upper bound. -/
theorem Plat.int_ok_nonneg {P : Plat} {x : Int} (h1 : 0 ≤ x) (h2 : x ≤ P.intMax) :
    P.int x = .ok x := by
  apply Plat.int_ok _ h2
  have := P.intMin_eq
  have := P.intMax_ge
  omega

theorem Plat.toInt_of_le {P : Plat} {n : Nat} (h : (n : Int) ≤ P.intMax) : P.toInt n = n := by
  unfold Plat.toInt
  have h1 := P.pow_split
  unfold Plat.intMax at h
  rw [Int.bmod_eq_of_le_mul_two] <;> push_cast <;> omega

theorem Plat.toInt_le (P : Plat) (n : Nat) : P.toInt n ≤ n := by
  unfold Plat.toInt
  have h0 := Plat.two_pow_pos P.ib
  have : (0:Int) < ((2 ^ P.ib : Nat):Int) := by push_cast; exact h0
  rw [Int.bmod_def]
  have h1 : (n : Int) % ((2 ^ P.ib : Nat) : Int) ≤ n := by
    have := Int.emod_add_mul_ediv (n : Int) ((2 ^ P.ib : Nat) : Int)
    have h4 : 0 ≤ (n : Int) / ((2 ^ P.ib : Nat) : Int) := Int.ediv_nonneg (by omega) (by omega)
    have h5 := Int.mul_nonneg (Int.le_of_lt ‹(0:Int) < ((2 ^ P.ib : Nat):Int)›) h4
    omega
  split <;> omega

theorem Plat.toInt_le_max (P : Plat) (n : Nat) : P.toInt n ≤ P.intMax := by
  unfold Plat.toInt Plat.intMax
  have h1 := P.pow_split
  have := @Int.bmod_lt n (2 ^ P.ib) (Nat.pow_pos (by decide))
  push_cast at this
  push_cast
  omega

theorem Plat.toSz_of_lt {P : Plat} {i : Int} (h0 : 0 ≤ i) (h : i < P.szMod) :
    P.toSz i = i.toNat := by
  unfold Plat.toSz
  rw [Int.emod_eq_of_lt h0 h]

theorem Plat.toSz_int {P : Plat} {i : Int} (h0 : 0 ≤ i) (h : i ≤ P.intMax) :
    P.toSz i = i.toNat := by
  apply Plat.toSz_of_lt h0
  have := P.intMax_lt_szMod
  have := P.intMax_ge
  omega

theorem Plat.sz_of_lt {P : Plat} {n : Nat} (h : n < P.szMod) : P.sz n = n :=
  Nat.mod_eq_of_lt h

theorem Plat.szSub_of_le {P : Plat} {a b : Nat} (h : b ≤ a) (ha : a < P.szMod) :
    P.szSub a b = a - b := by
  unfold Plat.szSub
  rw [Plat.toSz_of_lt (by omega) (by omega)]; omega

theorem ldN_ok {α : Type} {l : List α} {i : Nat} (h : i < l.length) : ldN l i = .ok l[i] := by
  simp [ldN, h]

theorem ldN_some {α : Type} {l : List α} {i : Nat} {a : α} (h : l[i]? = some a) :
    ldN l i = .ok a := by simp [ldN, h]

theorem stN_ok {α : Type} {l : List α} {i : Nat} {a : α} (h : i < l.length) :
    stN l i a = .ok (l.set i a) := by simp [stN, h]

theorem ld_nat {α : Type} (l : List α) (i : Nat) : ld l (i : Int) = ldN l i := by
  simp [ld, ldN]

theorem st_nat {α : Type} (l : List α) (i : Nat) (a : α) : st l (i : Int) a = stN l i a := by
  simp [st, stN]

theorem memmove_ok {α : Type} {l : List α} {d s n : Nat} (h1 : s + n ≤ l.length)
    (h2 : d + n ≤ l.length) :
    memmove l d s n = .ok (l.take d ++ (l.drop s).take n ++ l.drop (d + n)) := by
  simp [memmove, h1, h2]

end Mu
