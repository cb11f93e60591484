import Verif.Lemmas.SrcSpscHist

/-! # Property C118: the parsed source of mu_spsc.c, called sequentially, is a bounded queue

As in Props/SrcQueue.lean, the statements are about the syntax trees read off /repo and the
specification `Verif/Spec/SrcSpsc.lean` only. -/

namespace Mu.CS

/-- **C118.**  Let a `mu_spsc_t` and `N` slots of storage be given, anywhere in memory, not
overlapping, with any content, and let `N` be a power of two, at least 2.  Then `mu_spsc_init`
answers `MU_SPSC_ERR_NONE`, after which every history of calls returns and delivers what the
first-in first-out list bounded by `N - 1` does, runs without a fault, and changes no memory except
the struct, the `N` slots and the variables given to get. -/
theorem C118_spsc_source_is_bounded_fifo (A : Arch) (X : Ext) (n N : Nat) (h : Heap)
    (b sb : Base) (o so : Int) (hb : b.isLit = false) (hsb : sb.isLit = false)
    (hN : N < 65536) (hpow : ∃ k, N = 2 ^ k) (htwo : 2 ≤ N)
    (hstruct : ∀ k : Nat, k < 4 → (h.at b (o + k)).isSome = true)
    (hstore : ∀ i : Nat, i < N → (h.at sb (so + i)).isSome = true)
    (hsep : ∀ i : Nat, i < N → ∀ k : Nat, k < 4 → ¬(b = sb ∧ o + k = so + i))
    (cs : List SCall) (hl : ∀ c ∈ cs, c.Legal (spscCells b o sb so N) h) :
    ∃ h1 h2, sem A X prog (n + 2) .mu_spsc_init h [.ptr b o, .ptr sb so, .int N] =
        .ok (.int 0, h1) ∧
      SCall.runAll (sem A X prog (n + 2)) b o h1 cs = .ok ((SCall.specAll N [] cs).1, h2) ∧
      Heap.Only (fun b' o' => spscCells b o sb so N b' o' ∨ ∃ c ∈ cs, c.writes b' o') h h2 := by
  obtain ⟨h1, m, e1, q, r, hlen, only1, -⟩ :=
    src_spsc_init (A := A) (X := X) n N hN hb hsb hstruct hstore hsep ⟨hpow, htwo⟩
  obtain ⟨h2, e2, only2⟩ := src_spsc_calls (A := A) (X := X) (n + 1) cs q r hlen (by simp)
    (fun c hc => (hl c hc).only only1)
  refine ⟨h1, h2, e1, e2, (only1.mono ?_).trans only2⟩
  intro b' o' hx
  exact Or.inl (Or.inl hx)

/-- **C118, refused sizes.**  For every other value of the `uint16_t` `store_size`, and whatever
the pointers are, `mu_spsc_init` answers `MU_SPSC_ERR_SIZE` and no memory changes. -/
theorem C118_spsc_source_refuses (A : Arch) (X : Ext) (n N : Nat) (h : Heap) (p s : CVal)
    (hN : N < 65536) (hbad : ¬ ((∃ k, N = 2 ^ k) ∧ 2 ≤ N)) :
    sem A X prog (n + 2) .mu_spsc_init h [p, s, .int N] = .ok (.int 3, h) := by
  refine src_spsc_init_bad n N hN ?_
  by_cases h2 : N < 2
  · exact Or.inl h2
  · right
    cases hc : Spsc.isPowerOfTwo N with
    | false => rfl
    | true =>
      exfalso
      apply hbad
      refine ⟨?_, by omega⟩
      have := (Nat.and_sub_one_eq_zero_iff_isPowerOfTwo (n := N) (by omega)).mp
        (by simpa [Spsc.isPowerOfTwo] using hc)
      exact this

/-- A 16-bit platform with unsigned `char`. -/
def Arch.w16 : Arch :=
  { ib := 16, sb := 16, hib := by decide, hsb := by decide, charSigned := false, enumSigned := true }

/-- Memory for the example: a struct in object 0, four slots in object 1, a variable. -/
def sDemo : Heap where
  mem
    | .obj 0 => List.replicate 4 .undef
    | .obj 1 => List.replicate 4 .undef
    | .obj 2 => [.int 77]
    | _ => []
  next := 3

/-- The calls of the example. -/
def sDemoCalls : List SCall :=
  [.put (.int 5), .put (.int 6), .put (.int 7), .put (.int 8), .get (.obj 2) 0, .put (.int 9),
   .get (.obj 2) 0, .get (.obj 2) 0, .get (.obj 2) 0, .get (.obj 2) 0, .capacity]

example : (SCall.specAll 4 [] sDemoCalls).1 =
    [⟨.int 0, none⟩, ⟨.int 0, none⟩, ⟨.int 0, none⟩, ⟨.int 2, none⟩, ⟨.int 0, some (.int 5)⟩,
     ⟨.int 0, none⟩, ⟨.int 0, some (.int 6)⟩, ⟨.int 0, some (.int 7)⟩, ⟨.int 0, some (.int 9)⟩,
     ⟨.int 1, some .null⟩, ⟨.int 3, none⟩] := by decide

/-- Non-vacuity, on a platform where the arithmetic is done in `unsigned int`. -/
example (X : Ext) : ∃ h1 h2,
    sem .w16 X prog 2 .mu_spsc_init sDemo [.ptr (.obj 0) 0, .ptr (.obj 1) 0, .int (4 : Nat)] =
      .ok (.int 0, h1) ∧
    SCall.runAll (sem .w16 X prog 2) (.obj 0) 0 h1 sDemoCalls =
      .ok ((SCall.specAll 4 [] sDemoCalls).1, h2) := by
  obtain ⟨h1, h2, e1, e2, -⟩ := C118_spsc_source_is_bounded_fifo .w16 X 0 4 sDemo (.obj 0) (.obj 1)
    0 0 rfl rfl (by decide) ⟨2, rfl⟩ (by decide) (by decide) (by decide)
    (by intro i _ k _ e; cases e.1) sDemoCalls (by
      intro c hc
      simp only [sDemoCalls, List.mem_cons, List.not_mem_nil, or_false] at hc
      rcases hc with rfl | rfl | rfl | rfl | rfl | rfl | rfl | rfl | rfl | rfl | rfl <;>
        simp [SCall.Legal, spscCells, Base.isLit, Heap.at, Heap.cells, sDemo])
  exact ⟨h1, h2, e1, e2⟩

example (X : Ext) : sem .w16 X prog 2 .mu_spsc_init sDemo
    [.ptr (.obj 0) 0, .ptr (.obj 1) 0, .int (12 : Nat)] = .ok (.int 3, sDemo) :=
  C118_spsc_source_refuses .w16 X 0 12 sDemo _ _ (by decide)
    (by
      rintro ⟨⟨k, hk⟩, -⟩
      have : k < 4 := by
        by_contra hc
        have : (2 : Nat) ^ 4 ≤ 2 ^ k := Nat.pow_le_pow_right (by decide) (by omega)
        omega
      have : k = 0 ∨ k = 1 ∨ k = 2 ∨ k = 3 := by omega
      rcases this with rfl | rfl | rfl | rfl <;> simp at hk)

end Mu.CS
