import Verif.Lemmas.SrcSpsc
import Verif.Spec.SrcSpsc

/-! # Histories of calls of the parsed mu_spsc.c -/

namespace Mu.CS

variable {A : Arch} {X : Ext}

theorem SCall.Legal.only {own S : Base → Int → Prop} {h h' : Heap} (e : Heap.Only S h h')
    {c : SCall} (hl : c.Legal own h) : c.Legal own h' := by
  cases c <;> simp only [SCall.Legal] at hl ⊢
  · exact hl
  · exact ⟨hl.1, (e.isSome _ _).mpr hl.2.1, hl.2.2⟩

/-- `mu_spsc_init` refuses a size that is no power of two. -/
theorem src_spsc_init_bad {h : Heap} {p q : CVal} (n N : Nat) (hN : N < 65536)
    (hbad : N < 2 ∨ Spsc.isPowerOfTwo N = false) :
    sem A X prog (n + 2) .mu_spsc_init h [p, q, .int N] = .ok (.int 3, h) := by
  have one : IT.conv (A.it (.common .u16 .int)) 1 = 1 := conv_u16c (A := A) (n := 1) (by decide)
  have two : IT.conv (A.it (.common .u16 .int)) 2 = 2 := conv_u16c (A := A) (n := 2) (by decide)
  have zero : IT.conv (A.it (.common .u16 .int)) 0 = 0 := conv_u16c (A := A) (n := 0) (by decide)
  rw [sem_succ (d := Src.mu_spsc_init) rfl, FunDef.run_regs rfl rfl]
  by_cases h2 : N < 2
  · have h2' : (N : Int) < 2 := by omega
    simp [csrc, Src.mu_spsc_init, conv_u16c hN, one, two, h2']
  · have hp : Spsc.isPowerOfTwo N = false := by simpa [h2] using hbad
    have h2' : ¬ (N : Int) < 2 := by omega
    have hs := sub_u16 (A := A) hN (by omega)
    have hc := conv_u16c (A := A) (n := N - 1) (by omega)
    generalize hM : N - 1 = M at *
    have hand : N &&& M < 65536 := Nat.lt_of_le_of_lt Nat.and_le_left hN
    have hne : ¬ (N &&& M = 0) := by
      intro e
      simp [Spsc.isPowerOfTwo, hM, e] at hp
    simp [csrc, Src.mu_spsc_init, conv_u16c hN, one, two, h2', zero, hs, hc, band_u16,
      conv_u16c hand, hne]

/-- `mu_spsc_init` makes an empty queue of whatever is in the struct. -/
theorem src_spsc_init {h : Heap} {b o sb so} (n N : Nat) (hN : N < 65536) (hb : b.isLit = false)
    (hsb : sb.isLit = false) (hq : ∀ k : Nat, k < 4 → (h.at b (o + k)).isSome = true)
    (hst : ∀ i : Nat, i < N → (h.at sb (so + i)).isSome = true)
    (hsep : ∀ i : Nat, i < N → ∀ k : Nat, k < 4 → ¬(b = sb ∧ o + k = so + i))
    (hok : (∃ k, N = 2 ^ k) ∧ 2 ≤ N) :
    ∃ h' m', sem A X prog (n + 2) .mu_spsc_init h [.ptr b o, .ptr sb so, .int N] =
        .ok (.int 0, h') ∧ SRep h' b o sb so m' ∧ Spsc.Rep m' N 0 [] ∧
      m'.store.length = N ∧ Heap.Only (fun b' o' => b' = b ∧ o ≤ o' ∧ o' < o + 4) h h' ∧
      m' = ⟨N - 1, 0, 0, (List.range N).map (fun i : Nat => enc ((h.at sb (so + i)).getD .null))⟩ := by
  have one : IT.conv (A.it (.common .u16 .int)) 1 = 1 := conv_u16c (A := A) (n := 1) (by decide)
  have two : IT.conv (A.it (.common .u16 .int)) 2 = 2 := conv_u16c (A := A) (n := 2) (by decide)
  have zero : IT.conv (A.it (.common .u16 .int)) 0 = 0 := conv_u16c (A := A) (n := 0) (by decide)
  have h0 : (h.at b o).isSome = true := by simpa using hq 0 (by omega)
  have h1 : (h.at b (o + 1)).isSome = true := hq 1 (by omega)
  have h2 : (h.at b (o + 2)).isSome = true := hq 2 (by omega)
  have h3 : (h.at b (o + 3)).isSome = true := hq 3 (by omega)
  obtain ⟨⟨k, hk⟩, hN2⟩ := hok
  have hN' : N ≤ 32768 := by
    have : k < 16 := by
      by_contra hc
      have : (2 : Nat) ^ 16 ≤ 2 ^ k := Nat.pow_le_pow_right (by decide) (by omega)
      omega
    have : (2 : Nat) ^ k ≤ 2 ^ 15 := Nat.pow_le_pow_right (by decide) (by omega)
    omega
  have hand : N &&& (N - 1) = 0 := by
    rw [hk, Nat.and_two_pow_sub_one_eq_mod, Nat.mod_self]
  have h2' : ¬ (N : Int) < 2 := by omega
  have hs := sub_u16 (A := A) hN (by omega)
  have hc := conv_u16c (A := A) (n := N - 1) (by omega)
  have hc' := conv_u16 (A := A) (n := N - 1) (by omega)
  refine ⟨(((h.upd b (o + 3) (.ptr sb so)).upd b o (.int (N - 1 : Nat))).upd b (o + 1) (.int 0)).upd
    b (o + 2) (.int 0),
    ⟨N - 1, 0, 0, (List.range N).map (fun i : Nat => enc ((h.at sb (so + i)).getD .null))⟩,
    ?_, ?_, ⟨⟨hN2, ⟨k, hk⟩, rfl, by simp⟩, by simp, by simp, by simp, by simp⟩, by simp, ?_, rfl⟩
  · have e : sem A X prog (n + 1) .mu_spsc_reset
        ((h.upd b (o + 3) (.ptr sb so)).upd b o (.int (N - 1 : Nat))) [.ptr b o] =
        .ok (.int 0, (((h.upd b (o + 3) (.ptr sb so)).upd b o (.int (N - 1 : Nat))).upd b (o + 1)
          (.int 0)).upd b (o + 2) (.int 0)) := by
      rw [sem_succ (d := Src.mu_spsc_reset) rfl, FunDef.run_regs rfl rfl]
      simp [csrc, Src.mu_spsc_reset, h1, h2, hb]
    rw [sem_succ (d := Src.mu_spsc_init) rfl, FunDef.run_regs rfl rfl]
    generalize N - 1 = M at *
    simp [csrc, Src.mu_spsc_init, h0, h3, hb, e, conv_u16c hN, one, two, h2', zero, hs, hc, hc',
      band_u16, hand]
  · refine ⟨hb, hsb, ?_, ?_, ?_, ?_, ?_, ?_, by simp; omega, by simp, by simp⟩
    · generalize N - 1 = M at *
      simp [csrc, h0, hb]
    · simp [csrc, h1, hb]
    · simp [csrc, h2, hb]
    · simp [csrc, h3, hb]
    · intro i v hv
      simp only [List.getElem?_map] at hv
      have hi : i < N := by
        by_contra hi
        rw [List.getElem?_eq_none (by simp; omega)] at hv
        cases hv
      rw [List.getElem?_range hi] at hv
      obtain rfl := Option.some.inj hv
      have s0 : ¬(b = sb ∧ o = so + i) := by simpa using hsep i hi 0 (by omega)
      have s1 : ¬(b = sb ∧ o + 1 = so + i) := hsep i hi 1 (by omega)
      have s2 : ¬(b = sb ∧ o + 2 = so + i) := hsep i hi 2 (by omega)
      have s3 : ¬(b = sb ∧ o + 3 = so + i) := hsep i hi 3 (by omega)
      rw [Heap.at_upd_sep s2, Heap.at_upd_sep s1, Heap.at_upd_sep s0, Heap.at_upd_sep s3, code_enc]
      obtain ⟨w, hw⟩ := Option.isSome_iff_exists.mp (hst i hi)
      rw [hw]; rfl
    · intro i hi k hk
      exact hsep i (by simpa using hi) k hk
  · exact ((((Heap.Only.refl _ _).upd ⟨rfl, by omega, by omega⟩).upd ⟨rfl, by omega, by omega⟩).upd
      ⟨rfl, by omega, by omega⟩).upd ⟨rfl, by omega, by omega⟩

/-- One call. -/
theorem src_spsc_call {h : Heap} {b o sb so m} {l : List Nat} {N d : Nat} (n : Nat)
    (q : SRep h b o sb so m) (hr : Spsc.Rep m N d l) (hlen : m.store.length = N)
    (hu : ∀ x ∈ l, code x ≠ .undef) (c : SCall) (hl : c.Legal (spscCells b o sb so N) h) :
    ∃ h' m' d' l', SCall.run (sem A X prog (n + 1)) b o h c =
        .ok ((SCall.spec N (l.map code) c).1, h') ∧
      SRep h' b o sb so m' ∧ Spsc.Rep m' N d' l' ∧
      l'.map code = (SCall.spec N (l.map code) c).2 ∧
      m'.store.length = N ∧ (∀ x ∈ l', code x ≠ .undef) ∧
      Heap.Only (fun b' o' => spscCells b o sb so N b' o' ∨ c.writes b' o') h h' := by
  have hcells : ∀ b' o', SCells b o sb so m.store.length b' o' →
      spscCells b o sb so N b' o' := by
    intro b' o' hc; rw [hlen] at hc; exact hc
  have hcells' : ∀ b' o', ¬ spscCells b o sb so N b' o' →
      ¬ SCells b o sb so m.store.length b' o' := fun b' o' hn hc => hn (hcells b' o' hc)
  cases c with
  | put v =>
    have hp := Spsc.put_rep hr (enc v)
    by_cases hf : l.length < N - 1
    · obtain ⟨m', p1, p2⟩ := hp.1 hf
      obtain ⟨h', e1, e2, e3⟩ := src_spsc_put (A := A) (X := X) n q
        (by simpa [SCall.Legal] using hl) p1
      refine ⟨h', m', d, l ++ [enc v], ?_, e2, p2, ?_, ?_, ?_, ?_⟩
      · rw [code_enc] at e1
        simp [SCall.run, e1, SCall.spec, hf, spscErr]
      · simp [SCall.spec, hf]
      · unfold Spsc.put at p1
        simp only at p1
        split at p1
        · cases p1
        · obtain ⟨st, hst, p1⟩ := C.bind_eq_ok p1
          unfold stN at hst
          split at hst
          · injection hst with hst; subst hst
            injection p1 with p1; injection p1 with _ p1; subst p1
            simpa using hlen
          · cases hst
      · intro x hx
        rcases List.mem_append.mp hx with hx | hx
        · exact hu x hx
        · obtain rfl := List.mem_singleton.mp hx
          simpa [SCall.Legal] using hl
      · exact e3.mono (fun b' o' hc => Or.inl (hcells b' o' hc))
    · obtain ⟨h', e1, e2, e3⟩ := src_spsc_put (A := A) (X := X) n q (x := enc v)
        (by simpa [SCall.Legal] using hl) (hp.2 hf)
      refine ⟨h', m, d, l, ?_, e2, hr, ?_, hlen, hu, ?_⟩
      · rw [code_enc] at e1
        simp [SCall.run, e1, SCall.spec, hf, spscErr]
      · simp [SCall.spec, hf]
      · exact e3.mono (fun b' o' hc => Or.inl (hcells b' o' hc))
  | get eb eo =>
    obtain ⟨l1, l2, l3⟩ := hl
    have he := hr.empty_iff
    cases l with
    | nil =>
      have hh : m.head = m.tail := he.2 rfl
      obtain ⟨h', e1, e2, e3, e4⟩ := src_spsc_get (A := A) (X := X) n q l1 l2 (hcells' _ _ l3)
        (r := .empty) (v := NULL) (m' := m) (by simp [Spsc.get, hh]) (by simp [NULL])
      refine ⟨h', m, d, [], ?_, e2, hr, ?_, hlen, hu, ?_⟩
      · simp [SCall.run, e1, e3, SCall.spec, spscErr, NULL]
      · simp [SCall.spec]
      · exact e4.mono (fun b' o' hc => hc.elim (fun hc => Or.inl (hcells b' o' hc)) Or.inr)
    | cons x t =>
      have hh : ¬ m.head = m.tail := by rw [he]; simp
      obtain ⟨h', e1, e2, e3, e4⟩ := src_spsc_get (A := A) (X := X) n q l1 l2 (hcells' _ _ l3)
        (r := .none) (v := x) (m' := _) (by simp [Spsc.get, hh, ldN_some hr.front]; rfl)
        (hu x (by simp))
      refine ⟨h', _, d + 1, t, ?_, e2, hr.pop, ?_, hlen,
        fun y hy => hu y (List.mem_cons_of_mem _ hy), ?_⟩
      · simp [SCall.run, e1, e3, SCall.spec, spscErr]
      · simp [SCall.spec]
      · exact e4.mono (fun b' o' hc => hc.elim (fun hc => Or.inl (hcells b' o' hc)) Or.inr)
  | reset =>
    obtain ⟨h', e1, e2, e3⟩ := src_spsc_reset (A := A) (X := X) n q
    refine ⟨h', _, 0, [], ?_, e2, ⟨⟨hr.wf.two, hr.wf.pow, hr.wf.mask, hr.wf.alloc⟩, ?_, ?_, ?_, ?_⟩,
      ?_, hlen, by simp, ?_⟩
    · simp [SCall.run, e1, SCall.spec, Spsc.reset, spscErr]
    · simp [Spsc.reset]
    · simp [Spsc.reset]
    · simp
    · simp
    · simp [SCall.spec]
    · exact e3.mono (fun b' o' hc => Or.inl (hcells b' o' hc))
  | capacity =>
    refine ⟨h, m, d, l, ?_, q, hr, by simp [SCall.spec], hlen, hu, Heap.Only.refl _ _⟩
    simp [SCall.run, src_spsc_capacity (A := A) (X := X) n q, SCall.spec, Spsc.capacity, hr.wf.mask]

/-- A history of calls. -/
theorem src_spsc_calls {b o sb so} {N : Nat} (n : Nat) (cs : List SCall) :
    ∀ {h : Heap} {m} {l : List Nat} {d : Nat},
    SRep h b o sb so m → Spsc.Rep m N d l → m.store.length = N →
    (∀ x ∈ l, code x ≠ .undef) → (∀ c ∈ cs, c.Legal (spscCells b o sb so N) h) →
    ∃ h', SCall.runAll (sem A X prog (n + 1)) b o h cs =
        .ok ((SCall.specAll N (l.map code) cs).1, h') ∧
      Heap.Only (fun b' o' => spscCells b o sb so N b' o' ∨ ∃ c ∈ cs, c.writes b' o')
        h h' := by
  induction cs with
  | nil => intro h m l d _ _ _ _ _; exact ⟨h, rfl, Heap.Only.refl _ _⟩
  | cons c cs ih =>
    intro h m l d q hr hlen hu hl
    obtain ⟨h1, m1, d1, l1, e1, q1, r1, hl1, hlen1, hu1, only1⟩ :=
      src_spsc_call (A := A) (X := X) n q hr hlen hu c (hl c (by simp))
    obtain ⟨h2, e2, only2⟩ := ih q1 r1 hlen1 hu1
      (fun c' hc' => (hl c' (List.mem_cons_of_mem _ hc')).only only1)
    rw [hl1] at e2
    refine ⟨h2, ?_, ?_⟩
    · simp [SCall.runAll, e1, e2, SCall.specAll]
    · refine (only1.mono ?_).trans (only2.mono ?_)
      · rintro b' o' (hx | hx)
        · exact Or.inl hx
        · exact Or.inr ⟨c, by simp, hx⟩
      · rintro b' o' (hx | ⟨c', hc', hx⟩)
        · exact Or.inl hx
        · exact Or.inr ⟨c', List.mem_cons_of_mem _ hc', hx⟩

end Mu.CS
