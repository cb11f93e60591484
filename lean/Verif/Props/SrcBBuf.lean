import Verif.Lemmas.SrcBBufFind
import Verif.Lemmas.SrcBBufParse
import Verif.Spec.SrcBBuf
import Verif.Props.SrcBisync
import Verif.Props.BBufExact
import Verif.Props.BBufState

/-! # Property C120: the parsed source of mu_bbuf.c, the functions that only read

The statements are about the syntax trees read off /repo/mulib/mu_bbuf.c.  `h.BBuf b o bb ob l` says
that memory `h` holds a `mu_bbuf_t` with the bytes `l` (Spec/SrcBBuf.lean); buffers may overlap.  The
rest is about lists: the lexicographic order, `<+:` (prefix), `<:+` (suffix) and the definitions of
Spec/BBuf.lean.  All these functions leave memory as it is. -/

namespace Mu.CS

open BBuf

variable {A : Arch} {X : Ext}

/-- The capacity fits an `int` (all functions convert it to one). -/
abbrev Short (A : Arch) (l : List UInt8) : Prop := (l.length : Int) ≤ A.intMax

section
variable {h : Heap} {b bb b2 bb2 : Base} {o ob o2 ob2 : Int} {l l2 s : List UInt8}

theorem MB.two (h1 : h.Bytes bb ob l) (h2 : h.Bytes bb2 ob2 l2) :
    MB (twoPl bb ob bb2 ob2) h (two l l2) := by
  intro k
  by_cases h0 : k = 0
  · simpa [twoPl, CS.two, h0] using h1
  · by_cases hk : k = 1
    · simpa [twoPl, CS.two, hk] using h2
    · simp only [twoPl, CS.two, h0, hk, if_false]
      exact ⟨h2.1, by have := h2.2.1; simp; omega, by intro i c e; simp at e⟩

/-- The model's view of two buffers. -/
abbrev buf0 (l : List UInt8) : BBuf := ⟨⟨0, 0⟩, l.length⟩
abbrev buf1 (l : List UInt8) : BBuf := ⟨⟨1, 0⟩, l.length⟩

theorem Heap.BBuf.rep0 (hb : h.BBuf b o bb ob l) (hl : Short A l) :
    BRep A (twoPl bb ob bb2 ob2) h b o (buf0 l) :=
  ⟨by simpa [pv, twoPl] using hb.ptr, hb.cap, le_szMod_of_intMax hl⟩

theorem Heap.BBuf.rep1 (hb : h.BBuf b2 o2 bb2 ob2 l2) (hl : Short A l2) :
    BRep A (twoPl bb ob bb2 ob2) h b2 o2 (buf1 l2) :=
  ⟨by simpa [pv, twoPl] using hb.ptr, hb.cap, le_szMod_of_intMax hl⟩

theorem valid0 : Valid (two l l2) (buf0 l) := by simp [Valid, two]
theorem valid1 : Valid (two l l2) (buf1 l2) := by simp [Valid, two]
theorem view0 : view (two l l2) (buf0 l) = l := by simp [view, two]
theorem view1 : view (two l l2) (buf1 l2) = l2 := by simp [view, two]
theorem cstr1 (hs : 0 ∉ s) : IsCstr (two l (s ++ [0])) ⟨1, 0⟩ s := ⟨by simp, hs, [], by simp [two]⟩
theorem toInt_short (hl : Short A l) : A.toInt l.length = l.length := Plat.toInt_of_le hl
theorem fuel_short {k n : Nat} (hl : Short A l) (hn : l.length + k ≤ n) :
    (A.toInt l.length).toNat + k ≤ n := by rw [toInt_short hl]; simpa using hn

end

section
variable (A : Arch) (X : Ext) (n : Nat) (h : Heap) (b bb b2 bb2 : Base) (o ob o2 ob2 : Int)
  (l l2 s : List UInt8)

/-- **C120, comparison.**  `mu_bbuf_compare` is negative, zero or positive as the bytes of the first
buffer come before, are, or come after those of the second; `mu_bbuf_matches` says whether they are
the same. -/
theorem C120_compare (h1 : h.BBuf b o bb ob l) (h2 : h.BBuf b2 o2 bb2 ob2 l2) (s1 : Short A l)
    (s2 : Short A l2) (hn : l.length + 3 ≤ n) :
    (∃ d, sem A X prog n .mu_bbuf_compare h [.ptr b o, .ptr b2 o2] = .ok (.int d, h) ∧
      (d < 0 ↔ l < l2) ∧ (d = 0 ↔ l = l2) ∧ (0 < d ↔ l2 < l)) ∧
    sem A X prog n .mu_bbuf_matches h [.ptr b o, .ptr b2 o2] =
      .ok (.ofBool (decide (l = l2)), h) := by
  obtain ⟨n, rfl⟩ : ∃ k, n = k + 1 := ⟨n - 1, by omega⟩
  obtain ⟨d, e, c⟩ := C38_compare (P := A.toPlat) (valid0 (l := l) (l2 := l2)) valid1 s1 s2
  have e' := C38_matches (P := A.toPlat) (valid0 (l := l) (l2 := l2)) valid1 s1 s2
  rw [view0, view1] at c e'
  exact ⟨⟨d, src_compare n (MB.two h1.bytes h2.bytes) (h1.rep0 s1) (h2.rep1 s2)
    (fuel_short s1 (by omega)) e, c⟩, src_matches n (MB.two h1.bytes h2.bytes) (h1.rep0 s1)
    (h2.rep1 s2) (fuel_short s1 (by omega)) e'⟩

/-- **C120, comparison with a C string.** -/
theorem C120_compare_cstr (h1 : h.BBuf b o bb ob l) (h2 : h.Cstr b2 o2 s) (s1 : Short A l)
    (s2 : Short A s) (hn : l.length + 3 ≤ n) :
    (∃ d, sem A X prog n .mu_bbuf_compare_cstr h [.ptr b o, .ptr b2 o2] = .ok (.int d, h) ∧
      (d < 0 ↔ l < s) ∧ (d = 0 ↔ l = s) ∧ (0 < d ↔ s < l)) ∧
    sem A X prog n .mu_bbuf_matches_cstr h [.ptr b o, .ptr b2 o2] =
      .ok (.ofBool (decide (l = s)), h) := by
  obtain ⟨n, rfl⟩ : ∃ k, n = k + 1 := ⟨n - 1, by omega⟩
  obtain ⟨⟨d, e, c⟩, e'⟩ := C38_cstr (P := A.toPlat) (valid0 (l := l)) (cstr1 h2.1) s1 s2
  rw [view0] at c e'
  exact ⟨⟨d, by simpa [pv, twoPl] using src_compare_cstr (A := A) (X := X) n
                    (MB.two h1.bytes h2.2) (h1.rep0 s1) (fuel_short s1 (by omega)) e, c⟩,
    by simpa [pv, twoPl] using src_matches_cstr (A := A) (X := X) n
                    (MB.two h1.bytes h2.2) (h1.rep0 s1) (fuel_short s1 (by omega)) e'⟩

/-- **C120, prefix and suffix.** -/
theorem C120_prefix_suffix (h1 : h.BBuf b o bb ob l) (h2 : h.BBuf b2 o2 bb2 ob2 l2) (s1 : Short A l)
    (s2 : Short A l2) (hn : l.length + 3 ≤ n) :
    sem A X prog n .mu_bbuf_has_prefix h [.ptr b o, .ptr b2 o2] =
      .ok (.ofBool (decide (l2 <+: l)), h) ∧
    sem A X prog n .mu_bbuf_has_suffix h [.ptr b o, .ptr b2 o2] =
      .ok (.ofBool (decide (l2 <:+ l)), h) := by
  obtain ⟨n, rfl⟩ : ∃ k, n = k + 1 := ⟨n - 1, by omega⟩
  obtain ⟨e, e'⟩ := C41_prefix_suffix (P := A.toPlat) (valid0 (l := l) (l2 := l2)) valid1 s1 s2
  rw [view0, view1] at e e'
  exact ⟨src_has_prefix n (MB.two h1.bytes h2.bytes) (h1.rep0 s1) (h2.rep1 s2)
    (fuel_short s1 (by omega)) e, src_has_suffix n (MB.two h1.bytes h2.bytes) (h1.rep0 s1)
    (h2.rep1 s2) (fuel_short s1 (by omega)) e'⟩

/-- **C120, prefix and suffix, C strings.** -/
theorem C120_prefix_suffix_cstr (h1 : h.BBuf b o bb ob l) (h2 : h.Cstr b2 o2 s) (s1 : Short A l)
    (s2 : Short A s) (hn : l.length + 3 ≤ n) :
    sem A X prog n .mu_bbuf_has_prefix_cstr h [.ptr b o, .ptr b2 o2] =
      .ok (.ofBool (decide (s <+: l)), h) ∧
    sem A X prog n .mu_bbuf_has_suffix_cstr h [.ptr b o, .ptr b2 o2] =
      .ok (.ofBool (decide (s <:+ l)), h) := by
  obtain ⟨n, rfl⟩ : ∃ k, n = k + 1 := ⟨n - 1, by omega⟩
  obtain ⟨e, e'⟩ := C41_cstr (P := A.toPlat) (valid0 (l := l)) (cstr1 h2.1) s1 s2
  rw [view0] at e e'
  exact ⟨by simpa [pv, twoPl] using src_has_prefix_cstr (A := A) (X := X) n
                    (MB.two h1.bytes h2.2) (h1.rep0 s1) (fuel_short s1 (by omega)) e,
    by simpa [pv, twoPl] using src_has_suffix_cstr (A := A) (X := X) n
                    (MB.two h1.bytes h2.2) (h1.rep0 s1) (fuel_short s1 (by omega)) e'⟩

/-- **C120, substrings.**  The offset of the first (last) occurrence of the second buffer's bytes in the
first buffer, plus their number if `skip` is set; `MU_BBUF_NOT_FOUND` if they do not occur. -/
theorem C120_find_substr (skip : Bool) (h1 : h.BBuf b o bb ob l) (h2 : h.BBuf b2 o2 bb2 ob2 l2)
    (s1 : Short A l) (s2 : Short A l2) (hn : l.length + 4 ≤ n) (hn2 : l2.length + 2 ≤ n) :
    (∃ r, sem A X prog n .mu_bbuf_find_substr h [.ptr b o, .ptr b2 o2, .ofBool skip] =
      .ok (.int r, h) ∧ FirstOccurrence A.toPlat l2 l skip r) ∧
    (∃ r, sem A X prog n .mu_bbuf_rfind_substr h [.ptr b o, .ptr b2 o2, .ofBool skip] =
      .ok (.int r, h) ∧ LastOccurrence A.toPlat l2 l skip r) := by
  obtain ⟨n, rfl⟩ : ∃ k, n = k + 1 := ⟨n - 1, by omega⟩
  obtain ⟨⟨r, e, c⟩, r', e', c'⟩ :=
    C42_find_substr (P := A.toPlat) (valid0 (l := l) (l2 := l2)) valid1 s1 s2 skip
  rw [view0, view1] at c c'
  have hp : 0 ≤ A.toInt l2.length := by rw [toInt_short s2]; omega
  exact ⟨⟨r, src_find_substr n (MB.two h1.bytes h2.bytes) (h1.rep0 s1) (h2.rep1 s2) hp
      (fuel_short s1 (by omega)) (fuel_short s2 (by omega)) e, c⟩,
    r', src_rfind_substr n (MB.two h1.bytes h2.bytes) (h1.rep0 s1) (h2.rep1 s2) hp
      (fuel_short s1 (by omega)) (fuel_short s2 (by omega)) e', c'⟩

/-- **C120, substrings, C strings.** -/
theorem C120_find_subcstr (skip : Bool) (h1 : h.BBuf b o bb ob l) (h2 : h.Cstr b2 o2 s)
    (s1 : Short A l) (s2 : Short A s) (hn : l.length + 4 ≤ n) (hn2 : s.length + 2 ≤ n) :
    (∃ r, sem A X prog n .mu_bbuf_find_subcstr h [.ptr b o, .ptr b2 o2, .ofBool skip] =
      .ok (.int r, h) ∧ FirstOccurrence A.toPlat s l skip r) ∧
    (∃ r, sem A X prog n .mu_bbuf_rfind_subcstr h [.ptr b o, .ptr b2 o2, .ofBool skip] =
      .ok (.int r, h) ∧ LastOccurrence A.toPlat s l skip r) := by
  obtain ⟨n, rfl⟩ : ∃ k, n = k + 1 := ⟨n - 1, by omega⟩
  obtain ⟨⟨r, e, c⟩, r', e', c'⟩ :=
    C42_find_subcstr (P := A.toPlat) (valid0 (l := l)) (cstr1 h2.1) s1 s2 skip
  rw [view0] at c c'
  have hp : 0 ≤ A.toInt s.length := by rw [toInt_short s2]; omega
  have ek : (two l (s ++ [0])).strlen ⟨1, 0⟩ = .ok s.length := strlen_ok (cstr1 h2.1)
  exact ⟨⟨r, by simpa [pv, twoPl] using src_find_subcstr (A := A) (X := X) n
                    (MB.two h1.bytes h2.2) (h1.rep0 s1) ek hp
                    (fuel_short s1 (by omega)) (fuel_short s2 (by omega)) e, c⟩,
    r', by simpa [pv, twoPl] using src_rfind_subcstr (A := A) (X := X) n
                    (MB.two h1.bytes h2.2) (h1.rep0 s1) ek hp
                    (fuel_short s1 (by omega)) (fuel_short s2 (by omega)) e', c'⟩

/-- **C120, bytes.**  The position of the first (last) byte `x`, `MU_BBUF_NOT_FOUND` if there is none. -/
theorem C120_find_byte (x : UInt8) (h1 : h.BBuf b o bb ob l) (s1 : Short A l) (hn : l.length + 2 ≤ n) :
    (∃ r, sem A X prog n .mu_bbuf_find_byte h [.ptr b o, .int x.toNat] = .ok (.int r, h) ∧
      (r = NOT_FOUND A.toPlat ↔ x ∉ l) ∧
      (r ≠ NOT_FOUND A.toPlat → ∃ i : Nat, r = i ∧ l[i]? = some x ∧
        ∀ j, j < i → l[j]? ≠ some x)) ∧
    (∃ r, sem A X prog n .mu_bbuf_rfind_byte h [.ptr b o, .int x.toNat] = .ok (.int r, h) ∧
      (r = NOT_FOUND A.toPlat ↔ x ∉ l) ∧
      (r ≠ NOT_FOUND A.toPlat → ∃ i : Nat, r = i ∧ l[i]? = some x ∧
        ∀ j, i < j → l[j]? ≠ some x)) := by
  obtain ⟨n, rfl⟩ : ∃ k, n = k + 1 := ⟨n - 1, by omega⟩
  obtain ⟨⟨r, e, c⟩, r', e', c'⟩ := C43_byte (P := A.toPlat) (valid0 (l := l) (l2 := l)) s1 x
  rw [view0] at c c'
  exact ⟨⟨r, src_find_byte n (MB.two h1.bytes h1.bytes) (h1.rep0 s1) (by simp; omega) e, c⟩,
    r', src_rfind_byte n (MB.two h1.bytes h1.bytes) (h1.rep0 s1) (by simp; omega) e', c'⟩

/-- **C120, predicates.**  Let the user's function `f`, called with a byte and `arg`, answer as `pred`
says, where `pred` has a state that memory keeps (`S`), without touching the buffer's bytes.  Then
`mu_bbuf_find_predicate` asks about the bytes from the first on, once each, until the answer is no,
and returns the position of that byte; `mu_bbuf_rfind_predicate` from the last on. -/
theorem C120_find_predicate {σ : Type} (f : Nat) (arg : CVal) (S : σ → Heap → Prop)
    (pred : σ → UInt8 → Bool × σ) (s0 : σ) (h1 : h.BBuf b o bb ob l) (s1 : Short A l)
    (ha : arg ≠ .undef) (hS : S s0 h) (hk : ∀ s h, S s h → h.Bytes bb ob l)
    (hf : Answers (X.cb (sem A X prog n) f) arg S pred) (hn : l.length + 1 ≤ n) :
    (∃ h', sem A X prog (n + 1) .mu_bbuf_find_predicate h [.ptr b o, .fn f, arg] =
      .ok (.int (foundAt A.toPlat (ask pred s0 l).1), h') ∧ S (ask pred s0 l).2 h') ∧
    (∃ h', sem A X prog (n + 1) .mu_bbuf_rfind_predicate h [.ptr b o, .fn f, arg] =
      .ok (.int (foundAt A.toPlat ((ask pred s0 l.reverse).1.map (fun i => l.length - 1 - i))), h') ∧
      S (ask pred s0 l.reverse).2 h') := by
  obtain ⟨e, e'⟩ := C110_find (P := A.toPlat) (valid0 (l := l) (l2 := l)) s1 pred s0
  rw [view0] at e e'
  have hm : ∀ s h, S s h → MB (twoPl bb ob bb ob) h (two l l) :=
    fun s h hs => MB.two (hk s h hs) (hk s h hs)
  exact ⟨src_find_predicate n (h1.rep0 s1) ha hS hm hf (fuel_short s1 hn) e,
    src_rfind_predicate n (h1.rep0 s1) ha hS hm hf (fuel_short s1 hn) e'⟩

/-- **C120, unsigned parsers.**  The value of the decimal digits at the beginning, modulo two to the
width; nothing else of the buffer matters. -/
theorem C120_parse_unsigned (h1 : h.BBuf b o bb ob l) (s1 : Short A l) (hn : l.length + 2 ≤ n) :
    (Regular A.toPlat 8 → sem A X prog n .mu_bbuf_parse_uint8 h [.ptr b o] =
      .ok (.int (leadingNat l % 2 ^ 8 : Nat), h)) ∧
    (Regular A.toPlat 16 → sem A X prog n .mu_bbuf_parse_uint16 h [.ptr b o] =
      .ok (.int (leadingNat l % 2 ^ 16 : Nat), h)) ∧
    (Regular A.toPlat 32 → sem A X prog n .mu_bbuf_parse_uint32 h [.ptr b o] =
      .ok (.int (leadingNat l % 2 ^ 32 : Nat), h)) ∧
    (Regular A.toPlat 64 → sem A X prog n .mu_bbuf_parse_uint64 h [.ptr b o] =
      .ok (.int (leadingNat l % 2 ^ 64 : Nat), h)) ∧
    sem A X prog n .mu_bbuf_parse_unsigned_int h [.ptr b o] =
      .ok (.int (leadingNat l % 2 ^ A.ib : Nat), h) ∧
    sem A X prog n .mu_bbuf_parse_hex h [.ptr b o] =
      .ok (.int (leadingHex l % 2 ^ A.ib : Nat), h) := by
  obtain ⟨n, rfl⟩ : ∃ k, n = k + 1 := ⟨n - 1, by omega⟩
  have r := MB.two h1.bytes h1.bytes
  have rb : BRep A (twoPl bb ob bb ob) h b o (buf0 l) := h1.rep0 s1
  have hn' : (A.toInt (buf0 l).cap).toNat + 1 ≤ n := fuel_short s1 (by omega)
  have key : ∀ N, Regular A.toPlat N → parseUint A.toPlat N (two l l) (buf0 l) =
      .ok (leadingNat l % 2 ^ N) := by
    intro N hN
    rw [C46_parse_uint hN valid0 s1, view0]
  refine ⟨fun g => src_parse_uint8 n r rb hn' (key 8 g), fun g => src_parse_uint16 n r rb hn' (key 16 g),
    fun g => src_parse_uint32 n r rb hn' (key 32 g), fun g => src_parse_uint64 n r rb hn' (key 64 g),
    src_parse_unsigned_int n r rb hn' (key A.ib (.inl (Nat.le_refl _))), ?_⟩
  refine src_parse_hex n r rb hn' ?_
  rw [C48_parse_hex valid0 s1, view0]

/-- The value a signed parser of width `N` returns for the number `v`: two's complement for types
narrower than `int`; the number itself otherwise. -/
def wrapTo (A : Arch) (N : Nat) (v : Int) : Int := if N < A.ib then Int.bmod v (2 ^ N) else v

/-- The numbers a signed parser of width `N` is defined on (finding C47: for types at least as wide
as `int` the least number of the type is not among them). -/
def ParsesTo (A : Arch) (N : Nat) (v : Int) : Prop :=
  Regular A.toPlat N ∧ (A.ib ≤ N → -(2 ^ (N - 1) - 1) ≤ v ∧ v ≤ 2 ^ (N - 1) - 1)

/-- **C120, signed parsers.** -/
theorem C120_parse_signed (h1 : h.BBuf b o bb ob l) (s1 : Short A l) (hn : l.length + 2 ≤ n) :
    (ParsesTo A 8 (leadingInt l) → sem A X prog n .mu_bbuf_parse_int8 h [.ptr b o] =
      .ok (.int (wrapTo A 8 (leadingInt l)), h)) ∧
    (ParsesTo A 16 (leadingInt l) → sem A X prog n .mu_bbuf_parse_int16 h [.ptr b o] =
      .ok (.int (wrapTo A 16 (leadingInt l)), h)) ∧
    (ParsesTo A 32 (leadingInt l) → sem A X prog n .mu_bbuf_parse_int32 h [.ptr b o] =
      .ok (.int (wrapTo A 32 (leadingInt l)), h)) ∧
    (ParsesTo A 64 (leadingInt l) → sem A X prog n .mu_bbuf_parse_int64 h [.ptr b o] =
      .ok (.int (wrapTo A 64 (leadingInt l)), h)) ∧
    (ParsesTo A A.ib (leadingInt l) → sem A X prog n .mu_bbuf_parse_int h [.ptr b o] =
      .ok (.int (leadingInt l), h)) := by
  obtain ⟨n, rfl⟩ : ∃ k, n = k + 1 := ⟨n - 1, by omega⟩
  have r := MB.two h1.bytes h1.bytes
  have rb : BRep A (twoPl bb ob bb ob) h b o (buf0 l) := h1.rep0 s1
  have hn' : (A.toInt (buf0 l).cap).toNat + 1 ≤ n := fuel_short s1 (by omega)
  have key : ∀ N, ParsesTo A N (leadingInt l) → parseInt A.toPlat N (two l l) (buf0 l) =
      .ok (wrapTo A N (leadingInt l)) := by
    rintro N ⟨hN, hr⟩
    rw [C73_parse_int hN valid0 s1, view0, wrapTo]
    by_cases hlt : N < A.ib
    · rw [if_pos hlt, if_pos hlt]
    · rw [if_neg hlt, if_neg hlt, if_pos (hr (by omega))]
  have last : ParsesTo A A.ib (leadingInt l) → parseInt A.toPlat A.ib (two l l) (buf0 l) =
      .ok (leadingInt l) := by
    intro g
    rw [key _ g, wrapTo, if_neg (Nat.lt_irrefl _)]
  exact ⟨fun g => src_parse_int8 n r rb hn' (key 8 g), fun g => src_parse_int16 n r rb hn' (key 16 g),
    fun g => src_parse_int32 n r rb hn' (key 32 g), fun g => src_parse_int64 n r rb hn' (key 64 g),
    fun g => src_parse_int n r rb hn' (last g)⟩

/-- **C120, accessors.**  `mu_bbuf_ref_ro` and `mu_bbuf_ref_rw` give the address of the byte at `index`,
NULL beyond the capacity. -/
theorem C120_accessors (index : Nat) (h1 : h.BBuf b o bb ob l) (hl : l.length < A.szMod)
    (hi : index < A.szMod) :
    sem A X prog (n + 1) .mu_bbuf_bytes_ro h [.ptr b o] = .ok (.ptr bb ob, h) ∧
    sem A X prog (n + 1) .mu_bbuf_bytes_rw h [.ptr b o] = .ok (.ptr bb ob, h) ∧
    sem A X prog (n + 1) .mu_bbuf_capacity h [.ptr b o] = .ok (.int l.length, h) ∧
    sem A X prog (n + 1) .mu_bbuf_ref_ro h [.ptr b o, .int index] =
      .ok (if index < l.length then .ptr bb (ob + index) else .null, h) ∧
    sem A X prog (n + 1) .mu_bbuf_ref_rw h [.ptr b o, .int index] =
      .ok (if index < l.length then .ptr bb (ob + index) else .null, h) := by
  have hp : index < l.length → h.padd 1 (.ptr bb ob) index = .ok (.ptr bb (ob + index)) := by
    intro hlt
    obtain ⟨a, c, -⟩ := h1.bytes
    simp [Heap.padd]; omega
  refine ⟨?_, ?_, ?_, ?_, ?_⟩
  · rw [sem_succ (d := Src.mu_bbuf_bytes_ro) rfl, FunDef.run_regs rfl rfl]
    simp [csrc, Src.mu_bbuf_bytes_ro, h1.ptr]
  · rw [sem_succ (d := Src.mu_bbuf_bytes_rw) rfl, FunDef.run_regs rfl rfl]
    simp [csrc, Src.mu_bbuf_bytes_rw, h1.ptr]
  · rw [sem_succ (d := Src.mu_bbuf_capacity) rfl, FunDef.run_regs rfl rfl]
    simp [csrc, Src.mu_bbuf_capacity, h1.cap]
  · rw [sem_succ (d := Src.mu_bbuf_ref_ro) rfl, FunDef.run_regs rfl rfl]
    by_cases hlt : index < l.length
    · have := hp hlt
      simp [csrc, Src.mu_bbuf_ref_ro, h1.ptr, h1.cap, conv_size_lt hl, conv_size_lt hi, hlt, this]
    · simp [csrc, Src.mu_bbuf_ref_ro, h1.ptr, h1.cap, conv_size_lt hl, conv_size_lt hi, hlt]
  · rw [sem_succ (d := Src.mu_bbuf_ref_rw) rfl, FunDef.run_regs rfl rfl]
    by_cases hlt : index < l.length
    · have := hp hlt
      simp [csrc, Src.mu_bbuf_ref_rw, h1.ptr, h1.cap, conv_size_lt hl, conv_size_lt hi, hlt, this]
    · simp [csrc, Src.mu_bbuf_ref_rw, h1.ptr, h1.cap, conv_size_lt hl, conv_size_lt hi, hlt]

/-- **C120, `mu_bbuf_get_byte`.**  Below the capacity it returns true and stores the byte at `index` in
the variable it is given (and changes nothing else); else it returns false and changes nothing. -/
theorem C120_get_byte (index : Nat) (hw : b2.isLit = false) (hv : (h.at b2 o2).isSome = true)
    (h1 : h.BBuf b o bb ob l) (hl : l.length < A.szMod) (hi : index < A.szMod) :
    ∃ h', sem A X prog (n + 1) .mu_bbuf_get_byte h [.ptr b o, .int index, .ptr b2 o2] =
        .ok (.ofBool (decide (index < l.length)), h') ∧
      (∀ x, l[index]? = some x → h'.at b2 o2 = some (.int x.toNat) ∧ Heap.Only (span b2 o2 1) h h') ∧
      (l[index]? = none → h' = h) := by
  rw [sem_succ (d := Src.mu_bbuf_get_byte) rfl, FunDef.run_regs rfl rfl]
  by_cases hlt : index < l.length
  · have hp : h.padd 1 (.ptr bb ob) index = .ok (.ptr bb (ob + index)) := by
      obtain ⟨a, c, -⟩ := h1.bytes
      simp [Heap.padd]; omega
    have hx := h1.bytes.2.2 index l[index] (List.getElem?_eq_getElem hlt)
    have hnle : ¬ l.length ≤ index := by omega
    refine ⟨h.upd b2 o2 (.int l[index].toNat), ?_, ?_, ?_⟩
    · simp [csrc, Src.mu_bbuf_get_byte, h1.ptr, h1.cap, conv_size_lt hl, conv_size_lt hi, hlt, hp, hx,
        hw, hv, hnle]
    · intro x hx'
      rw [List.getElem?_eq_getElem hlt] at hx'
      cases hx'
      exact ⟨by simp [csrc, hw, hv], (Heap.Only.refl _ _).upd ⟨rfl, by simp, by simp; omega⟩⟩
    · intro hnone
      rw [List.getElem?_eq_getElem hlt] at hnone
      cases hnone
  · have hle : l.length ≤ index := by omega
    refine ⟨h, ?_, ?_, fun _ => rfl⟩
    · simp [csrc, Src.mu_bbuf_get_byte, h1.cap, conv_size_lt hl, conv_size_lt hi, hlt, hle]
    · intro x hx'
      rw [List.getElem?_eq_none hle] at hx'
      cases hx'

end

/-! ## An example -/

/-- The buffers "abcab" and "ab" (objects 2 and 3; their bytes are objects 0 and 1, the latter a C
string) and a variable (object 4). -/
def bbDemo : Heap where
  mem
    | .obj 0 => [.int 97, .int 98, .int 99, .int 97, .int 98]
    | .obj 1 => [.int 97, .int 98, .int 0]
    | .obj 2 => [.ptr (.obj 0) 0, .int 5]
    | .obj 3 => [.ptr (.obj 1) 0, .int 2]
    | .obj 4 => [.undef]
    | _ => []
  next := 5

/-- `Heap.Bytes`, decidably. -/
theorem Heap.Bytes.of_all {h : Heap} {b : Base} {o : Int} {l : List UInt8} (h0 : 0 ≤ o)
    (h1 : o + l.length ≤ (h.cells b).length)
    (h2 : ∀ i : Fin l.length, h.at b (o + i.val) = some (.int (l.get i).toNat)) : h.Bytes b o l := by
  refine ⟨h0, h1, ?_⟩
  intro i c e
  obtain ⟨hi, rfl⟩ := List.getElem?_eq_some_iff.mp e
  exact h2 ⟨i, hi⟩

theorem bbDemo_bufs : bbDemo.BBuf (.obj 2) 0 (.obj 0) 0 [97, 98, 99, 97, 98] ∧
    bbDemo.BBuf (.obj 3) 0 (.obj 1) 0 [97, 98] ∧ bbDemo.Cstr (.obj 1) 0 [97, 98] :=
  ⟨⟨rfl, rfl, .of_all (by decide) (by decide) (by decide)⟩,
    ⟨rfl, rfl, .of_all (by decide) (by decide) (by decide)⟩,
    by decide, .of_all (by decide) (by decide) (by decide)⟩

example (X : Ext) : ∃ d, sem .lp64 X prog 9 .mu_bbuf_compare bbDemo [.ptr (.obj 2) 0, .ptr (.obj 3) 0] =
    .ok (.int d, bbDemo) ∧ 0 < d := by
  obtain ⟨⟨d, e, -, -, c⟩, -⟩ := C120_compare .lp64 X 9 bbDemo (.obj 2) (.obj 0) (.obj 3) (.obj 1) 0 0 0 0
    _ _ bbDemo_bufs.1 bbDemo_bufs.2.1 (by decide) (by decide) (by decide)
  exact ⟨d, e, c.mpr (by decide)⟩

example (X : Ext) : sem .lp64 X prog 9 .mu_bbuf_has_suffix_cstr bbDemo
    [.ptr (.obj 2) 0, .ptr (.obj 1) 0] = .ok (.int 1, bbDemo) :=
  (C120_prefix_suffix_cstr .lp64 X 9 bbDemo (.obj 2) (.obj 0) (.obj 1) 0 0 0
    _ _ bbDemo_bufs.1 bbDemo_bufs.2.2 (by decide) (by decide) (by decide)).2

example (X : Ext) : ∃ h', sem .lp64 X prog 1 .mu_bbuf_get_byte bbDemo
    [.ptr (.obj 2) 0, .int 2, .ptr (.obj 4) 0] = .ok (.int 1, h') ∧ h'.at (.obj 4) 0 = some (.int 99) := by
  obtain ⟨h', e, c, -⟩ := C120_get_byte .lp64 X 0 bbDemo (.obj 2) (.obj 0) (.obj 4) 0 0 0
    _ 2 rfl rfl bbDemo_bufs.1 (by decide) (by decide)
  exact ⟨h', e, (c _ rfl).1⟩

/-- A user's function that answers yes to `a` and `b`. -/
def abPred : Ext where
  fn _ _ _ := .error .ptr
  cb _ _ h args := match args with
    | .int c :: _ => .ok (.ofBool (c = 97 || c = 98), h)
    | _ => .error .ptr

example : ∃ h', sem .lp64 abPred prog 9 .mu_bbuf_find_predicate bbDemo [.ptr (.obj 2) 0, .fn 0, .null] =
    .ok (.int 2, h') := by
  obtain ⟨⟨h', e, -⟩, -⟩ := C120_find_predicate .lp64 abPred 8 bbDemo (.obj 2) (.obj 0) 0 0
    [97, 98, 99, 97, 98] (σ := Unit) 0 .null (fun _ h => h = bbDemo)
    (fun _ c => (c = 97 || c = 98, ())) () bbDemo_bufs.1 (by decide) (by simp) rfl
    (by rintro s h rfl; exact bbDemo_bufs.1.bytes)
    (by
      rintro s h c rfl
      refine ⟨bbDemo, ?_, rfl⟩
      have e1 : ((c.toNat : Int) = 97) = (c = 97) := byte_eq c 97
      have e2 : ((c.toNat : Int) = 98) = (c = 98) := byte_eq c 98
      simp [abPred, e1, e2])
    (by decide)
  exact ⟨h', e⟩

end Mu.CS
