import Verif.Lemmas.SrcJems

/-! # The parsed source of mu_jems.c: escaped characters, strings, bytes -/

namespace Mu.CS

open Mu.Jems (Jems Level Emit WF sep bump)
open Mu.Jems.Spec

variable {A : Arch} {X : Ext} {E : Emitter} {h h' : Heap} {j j' : Jems}

theorem escape_small (b : UInt8) : (b < 0x20 ∨ b ≥ 127) → (escape b).length = 6 ∧ ∀ c ∈ escape b, c.toNat < 128 := by
  refine Mu.Jems.byte_all (p := fun b => (b < 0x20 ∨ b ≥ 127) → (escape b).length = 6 ∧ ∀ c ∈ escape b, c.toNat < 128) ?_ b
  decide +kernel

theorem conv_char_byte (c : UInt8) : (A.it .char).conv (c.toNat : Int) = chr A c := rfl

set_option maxHeartbeats 1000000 in
theorem src_emit_quoted_byte {n n0 : Nat} (hw : E.Writes A X n0) (hn : n0 + 8 ≤ n) (r : E.Rep A h j) (c : UInt8) :
    ∃ h', sem A X prog (n + 1) .emit_quoted_byte__jems h [.ptr E.b E.o, .int c.toNat] = .ok (.ptr E.b E.o, h') ∧
      E.Rep A h' (say j (escape c)) ∧ Heap.Only E.cells h h' := by
  obtain ⟨n, rfl⟩ : ∃ k, n = k + 1 := ⟨n - 1, by omega⟩
  have hc := c.toNat_lt
  have p := r.placed
  have wk := hw n0 (Nat.le_refl _)
  have ra := r.alloc wk 7
  have ci : ∀ k : Nat, k < 256 → (A.it .int).conv (k : Int) = k := fun k hk => conv_int_small (by omega) (by omega)
  have c0 := ci c.toNat hc
  have c32 : (A.it .int).conv 32 = 32 := ci 32 (by omega)
  have c127 : (A.it .int).conv 127 = 127 := ci 127 (by omega)
  have c92 : (A.it .int).conv 92 = 92 := ci 92 (by omega)
  have c34 : (A.it .int).conv 34 = 34 := ci 34 (by omega)
  by_cases hx : c < 0x20 ∨ c ≥ 127
  · obtain ⟨e1, e2⟩ := Mu.Jems.sprintfU_eq c hx
    obtain ⟨e3, e4⟩ := escape_small c hx
    obtain ⟨g, g1, g2, g3⟩ := Emitter.StrAt.buffer (E := E) (A := A) (n := 7) p (t := escape c) (by omega) e4 e2
    have rb := Emitter.Rep.buffer (n := 7) wk p ra g3
    obtain ⟨h1, s1, r1, o1⟩ := src_emit_string hw (n := n) (by omega) rb g2
    refine ⟨h1.release h.next, ?_, r1.release wk p, Heap.Only.back p.fresh g3 o1⟩
    have hf : Lib.sprintf (h.alloc 7) [.ptr (.obj h.next) 0, .ptr (.lit [92, 117, 37, 48, 52, 120]) 0, .int c.toNat] =
        .ok (.int 6, g) := by
      simp [Lib.sprintf, Lib.format, e1, g1, e3, hc]
    have hx' : c.toNat < 32 ∨ 127 ≤ c.toNat := by
      simpa [UInt8.lt_iff_toNat_lt, UInt8.le_iff_toNat_le] using hx
    rw [sem_succ (d := Src.emit_quoted_byte__jems) rfl, FunDef.run_mem1 rfl rfl]
    have hf' := (congrFun (congrFun (sem_sprintf (A := A) (X := X) n) (h.alloc 7)) _).trans hf
    generalize sem A X prog (n + 1) = S at *
    rcases hx' with hx' | hx'
    · simp [csrc, Src.emit_quoted_byte__jems, c0, c32, c127, COp.run, CVal.ofBool, hx', hf', s1]
    · have : ¬ c.toNat < 32 := by omega
      simp [csrc, Src.emit_quoted_byte__jems, c0, c32, c127, COp.run, CVal.ofBool, hx', hf', s1, this]
  · have hx' : ¬ c.toNat < 32 ∧ ¬ 127 ≤ c.toNat := by
      simpa [UInt8.lt_iff_toNat_lt, UInt8.le_iff_toNat_le, not_or] using hx
    rw [Mu.Jems.escape_plain c hx]
    have cc : chr A 92 = 92 := chr_small (by decide)
    have cc' := conv_char_byte (A := A) c
    by_cases hy : c = 92 ∨ c = 34
    · rw [if_pos hy]
      obtain ⟨h1, s1, r1, o1⟩ := src_emit_char hw (n := n) (by omega) ra 92
      obtain ⟨h2, s2, r2, o2⟩ := src_emit_char hw (n := n) (by omega) r1 c
      rw [Mu.Jems.say_say] at r2
      refine ⟨h2.release h.next, ?_, r2.release wk p,
        Heap.Only.back (m := 0) p.fresh (Heap.Only.refl _ _) (o1.trans o2)⟩
      have hy' : c.toNat = 92 ∨ c.toNat = 34 := by
        rcases hy with rfl | rfl
        · exact Or.inl rfl
        · exact Or.inr rfl
      rw [sem_succ (d := Src.emit_quoted_byte__jems) rfl, FunDef.run_mem1 rfl rfl]
      rw [cc] at s1
      generalize chr A c = ch at *
      generalize sem A X prog (n + 1) = S at *
      generalize c.toNat = k at *
      rcases hy' with rfl | rfl
      · simp [csrc, Src.emit_quoted_byte__jems, c0, c32, c127, c92, c34, COp.run, CVal.ofBool, s1, s2, cc'] at *
      · simp [csrc, Src.emit_quoted_byte__jems, c0, c32, c127, c92, c34, COp.run, CVal.ofBool, s1, s2, cc'] at *
    · rw [if_neg hy]
      obtain ⟨h2, s2, r2, o2⟩ := src_emit_char hw (n := n) (by omega) ra c
      refine ⟨h2.release h.next, ?_, r2.release wk p, Heap.Only.back (m := 0) p.fresh (Heap.Only.refl _ _) o2⟩
      have hy' : ¬ c.toNat = 92 ∧ ¬ c.toNat = 34 := by
        refine ⟨fun e => hy (Or.inl (UInt8.toNat_inj.mp (by simpa using e))),
          fun e => hy (Or.inr (UInt8.toNat_inj.mp (by simpa using e)))⟩
      have k92 : ¬ ((c.toNat : Int) = 92) := by omega
      have k34 : ¬ ((c.toNat : Int) = 34) := by omega
      rw [sem_succ (d := Src.emit_quoted_byte__jems) rfl, FunDef.run_mem1 rfl rfl]
      generalize chr A c = ch at *
      generalize sem A X prog (n + 1) = S at *
      simp [csrc, Src.emit_quoted_byte__jems, c0, c32, c127, c92, c34, COp.run, CVal.ofBool, s2, cc', hx', k92, k34]

/-! ## Texts of the caller -/

/-- Characters of the caller's at `(sb, so)`, outside the memory of the writer. -/
def Emitter.RawAt (E : Emitter) (h : Heap) (sb : Base) (so : Int) (t : List UInt8) : Prop :=
  ∀ i c, t[i]? = some c → ¬ E.cells sb (so + (i : Nat)) ∧ ∃ v, h.at sb (so + i) = some (.int v) ∧ CharCell v c

theorem Emitter.RawAt.only {sb : Base} {so : Int} {t : List UInt8} (q : E.RawAt h sb so t) (e : Heap.Only E.cells h h') :
    E.RawAt h' sb so t := by
  intro i c hc
  obtain ⟨h1, v, h2, h3⟩ := q i c hc
  exact ⟨h1, v, (e.cell _ _ h1).trans h2, h3⟩

theorem Emitter.RawAt.tail {sb : Base} {so : Int} {c : UInt8} {t : List UInt8} (q : E.RawAt h sb so (c :: t)) :
    E.RawAt h sb (so + 1) t := by
  intro i d hd
  have := q (i + 1) d (by simpa using hd)
  rwa [show so + ((i + 1 : Nat) : Int) = so + 1 + i by omega] at this

theorem CharCell.u8 {v : Int} {c : UInt8} (q : CharCell v c) : (A.it .u8).conv v = c.toNat := by
  have := c.toNat_lt
  show IT.conv ⟨8, false⟩ v = _
  rw [IT.conv_unsigned]
  unfold CharCell at q
  omega

theorem CharCell.zero {v : Int} {c : UInt8} (q : CharCell v c) : v = 0 ↔ c = 0 := by
  have := c.toNat_lt
  have e : c = 0 ↔ c.toNat = 0 := by
    constructor
    · rintro rfl; rfl
    · intro e; exact UInt8.toNat_inj.mp (by simpa using e)
  rw [e]
  unfold CharCell at q
  omega

theorem padd_one {sb : Base} {so : Int} {w : CVal} (e : h.at sb so = some w) :
    h.padd 1 (.ptr sb so) 1 = .ok (.ptr sb (so + 1)) := by
  have hs : (h.at sb so).isSome = true := by rw [e]; rfl
  rw [Heap.isSome_at] at hs
  have h1 := hs.1
  have h2 := hs.2
  unfold Heap.padd
  dsimp only
  rw [if_pos (by omega)]
  simp

theorem src_emit_quoted_string_loop {n n0 N : Nat} (hw : E.Writes A X n0) (hn : n0 + 8 ≤ n) :
    ∀ (s : List UInt8) (h : Heap) (j : Jems) (sb : Base) (so : Int) (fuel : Nat), s.length < fuel → 0 ∉ s →
      E.Rep A h j → E.RawAt h sb so (s ++ [0]) →
      ∃ h', Src.emit_quoted_string__jems_loop1.rounds A ⟨sem A X prog (n + 1), X.cb (sem A X prog (n + 1))⟩ N fuel
          ⟨[.ptr E.b E.o, .ptr sb so], h⟩ = .ok (.next, ⟨[.ptr E.b E.o, .ptr sb (so + s.length)], h'⟩) ∧
        E.Rep A h' (say j (s.flatMap escape)) ∧ Heap.Only E.cells h h' := by
  intro s
  induction s with
  | nil =>
    intro h j sb so fuel hf _ r q
    obtain ⟨fuel, rfl⟩ : ∃ k, fuel = k + 1 := ⟨fuel - 1, by omega⟩
    obtain ⟨_, v, h0, hv⟩ := q 0 0 rfl
    have hv := hv.zero.mpr rfl
    subst hv
    simp only [List.length_nil, Int.natCast_zero, Int.add_zero] at h0 ⊢
    refine ⟨h, Stmt.rounds_exit ?_, by rw [List.flatMap_nil, say_nil]; exact r, Heap.Only.refl _ _⟩
    simp [csrc, Src.emit_quoted_string__jems_loop1, Stmt.cond, h0]
  | cons c s ih =>
    intro h j sb so fuel hf hz r q
    obtain ⟨fuel, rfl⟩ : ∃ k, fuel = k + 1 := ⟨fuel - 1, by omega⟩
    obtain ⟨_, v, h0, hv⟩ := q 0 c rfl
    have hc : v ≠ 0 := fun e => hz (by simp [hv.zero.mp e])
    rw [Int.natCast_zero, Int.add_zero] at h0
    obtain ⟨h1, e1, r1, o1⟩ := src_emit_quoted_byte hw hn r c
    obtain ⟨h2, e2, r2, o2⟩ := ih h1 _ sb (so + 1) fuel (by simp at hf; omega) (fun hx => hz (by simp [hx])) r1
      (Emitter.RawAt.only (Emitter.RawAt.tail q) o1)
    have pd := padd_one h0
    have cu := hv.u8 (A := A)
    refine ⟨h2, ?_, ?_, o1.trans o2⟩
    · have hcond : evalCond A ⟨sem A X prog (n + 1), X.cb (sem A X prog (n + 1))⟩ Src.emit_quoted_string__jems_loop1.cond
          ⟨[.ptr E.b E.o, .ptr sb so], h⟩ = .ok (true, ⟨[.ptr E.b E.o, .ptr sb so], h⟩) := by
        simp [csrc, Src.emit_quoted_string__jems_loop1, Stmt.cond, h0, hc]
      have hb : exec A ⟨sem A X prog (n + 1), X.cb (sem A X prog (n + 1))⟩ N Src.emit_quoted_string__jems_loop1.body
          ⟨[.ptr E.b E.o, .ptr sb so], h⟩ = .ok (.next, ⟨[.ptr E.b E.o, .ptr sb (so + 1)], h1⟩) := by
        generalize sem A X prog (n + 1) = S at *
        simp [csrc, Src.emit_quoted_string__jems_loop1, Stmt.body, h0, pd, e1, cu]
      rw [Stmt.rounds_next hcond hb (t := ⟨[.ptr E.b E.o, .ptr sb (so + 1)], h1⟩) rfl, e2]
      rw [show so + 1 + (s.length : Int) = so + ((c :: s).length : Nat) by simp; omega]
    · rw [Mu.Jems.say_say] at r2
      exact r2

theorem src_emit_quoted_string {n n0 : Nat} (hw : E.Writes A X n0) {s : List UInt8} (hn : n0 + s.length + 9 ≤ n)
    (hz : 0 ∉ s) (r : E.Rep A h j) {sb : Base} {so : Int} (q : E.RawAt h sb so (s ++ [0])) :
    ∃ h', sem A X prog (n + 1) .emit_quoted_string__jems h [.ptr E.b E.o, .ptr sb so] = .ok (.ptr E.b E.o, h') ∧
      E.Rep A h' (say j (s.flatMap escape)) ∧ Heap.Only E.cells h h' := by
  obtain ⟨n, rfl⟩ : ∃ k, n = k + 1 := ⟨n - 1, by omega⟩
  obtain ⟨h', e, r', o'⟩ := src_emit_quoted_string_loop (N := n + 1) hw (n := n) (by omega) s h j sb so (n + 1) (by omega) hz r q
  refine ⟨h', ?_, r', o'⟩
  rw [sem_succ (d := Src.emit_quoted_string__jems) rfl, FunDef.run_regs rfl rfl]
  generalize sem A X prog (n + 1) = S at *
  have e' : exec A ⟨S, X.cb S⟩ (n + 1) Src.emit_quoted_string__jems_loop1 ⟨[.ptr E.b E.o, .ptr sb so], h⟩ = _ := e
  simp [csrc, Src.emit_quoted_string__jems, e']

/-- The values of bytes that are `uint8_t`. -/
def UnsignedAt (h : Heap) (sb : Base) (so : Int) (n : Nat) : Prop :=
  ∀ (i : Nat) v, i < n → h.at sb (so + i) = some (.int v) → 0 ≤ v

theorem src_emit_quoted_bytes_loop {n n0 N : Nat} (hw : E.Writes A X n0) (hn : n0 + 8 ≤ n) {sb : Base} {so : Int} {len : Nat}
    (hlen : (len : Int) ≤ A.intMax) :
    ∀ (s : List UInt8) (h : Heap) (j : Jems) (i : Nat) (v4 : CVal) (fuel : Nat), s.length < fuel → i + s.length = len →
      E.Rep A h j → E.RawAt h sb (so + i) s → (∀ (k : Nat) v, i ≤ k → k < len → h.at sb (so + k) = some (.int v) → 0 ≤ v) →
      ∃ h' v', Src.emit_quoted_bytes__jems_loop1.rounds A ⟨sem A X prog (n + 1), X.cb (sem A X prog (n + 1))⟩ N fuel
          ⟨[.ptr E.b E.o, .ptr sb so, .int len, .int i, v4], h⟩ =
          .ok (.next, ⟨[.ptr E.b E.o, .ptr sb so, .int len, .int len, v'], h'⟩) ∧
        E.Rep A h' (say j (s.flatMap escape)) ∧ Heap.Only E.cells h h' := by
  have hm := A.intMax_lt_szMod
  intro s
  induction s with
  | nil =>
    intro h j i v4 fuel hf hi r q u
    obtain ⟨fuel, rfl⟩ : ∃ k, fuel = k + 1 := ⟨fuel - 1, by omega⟩
    simp only [List.length_nil, Nat.add_zero] at hi
    subst hi
    refine ⟨h, v4, Stmt.rounds_exit ?_, by rw [List.flatMap_nil, say_nil]; exact r, Heap.Only.refl _ _⟩
    have c1 := conv_size_lt (A := A) (n := i) (by omega)
    simp [csrc, Src.emit_quoted_bytes__jems_loop1, Stmt.cond, c1, COp.run]
  | cons c s ih =>
    intro h j i v4 fuel hf hi r q u
    obtain ⟨fuel, rfl⟩ : ∃ k, fuel = k + 1 := ⟨fuel - 1, by omega⟩
    simp only [List.length_cons] at hi
    obtain ⟨hcell, v, h0, hv⟩ := q 0 c rfl
    rw [Int.natCast_zero, Int.add_zero] at h0
    have hvc : v = c.toNat := by
      have := u i v (Nat.le_refl _) (by omega) h0
      have := c.toNat_lt
      unfold CharCell at hv
      omega
    subst hvc
    obtain ⟨h1, e1, r1, o1⟩ := src_emit_quoted_byte hw hn r c
    have q1 : E.RawAt h1 sb (so + ((i + 1 : Nat) : Int)) s := by
      have := Emitter.RawAt.only (Emitter.RawAt.tail q) o1
      rwa [show so + (i : Int) + 1 = so + ((i + 1 : Nat) : Int) by omega] at this
    have u1 : ∀ (k : Nat) v, i + 1 ≤ k → k < len → h1.at sb (so + k) = some (.int v) → 0 ≤ v := by
      intro k v hk hk2 hv
      refine u k v (by omega) hk2 ?_
      have := (q1 (k - (i + 1)) (s[k - (i + 1)]'(by omega)) (List.getElem?_eq_getElem _)).1
      rw [show so + ((i + 1 : Nat) : Int) + ((k - (i + 1) : Nat) : Int) = so + k by omega] at this
      rw [← o1.cell _ _ this]
      exact hv
    obtain ⟨h2, v', e2, r2, o2⟩ := ih h1 _ (i + 1) (.int c.toNat) fuel (by simp at hf; omega) (by omega) r1 q1 u1
    have c1 := conv_size_lt (A := A) (n := i) (by omega)
    have c2 := conv_size_lt (A := A) (n := len) (by omega)
    have lt : (i : Int) < len := by omega
    have ii : A.InInt i := by have := A.intMax_ge; have := A.intMin_eq; exact ⟨by omega, by omega⟩
    have ii' : A.InInt ((i : Int) + 1) := by have := A.intMax_ge; have := A.intMin_eq; exact ⟨by omega, by omega⟩
    have k1 := conv_int ii
    have k2 := conv_int ii'
    have ki : A.int ((i : Int) + 1) = .ok ((i : Int) + 1) := Plat.int_ok ii'.1 ii'.2
    have k3 : IT.conv ⟨A.ib, true⟩ 1 = 1 := conv_int_small (by omega) (by omega)
    refine ⟨h2, v', ?_, ?_, o1.trans o2⟩
    · have hcond : evalCond A ⟨sem A X prog (n + 1), X.cb (sem A X prog (n + 1))⟩ Src.emit_quoted_bytes__jems_loop1.cond
          ⟨[.ptr E.b E.o, .ptr sb so, .int len, .int i, v4], h⟩ =
          .ok (true, ⟨[.ptr E.b E.o, .ptr sb so, .int len, .int i, v4], h⟩) := by
        simp [csrc, Src.emit_quoted_bytes__jems_loop1, Stmt.cond, c1, c2, COp.run, lt]
      have hb : exec A ⟨sem A X prog (n + 1), X.cb (sem A X prog (n + 1))⟩ N Src.emit_quoted_bytes__jems_loop1.body
          ⟨[.ptr E.b E.o, .ptr sb so, .int len, .int i, v4], h⟩ =
          .ok (.next, ⟨[.ptr E.b E.o, .ptr sb so, .int len, .int i, .int c.toNat], h1⟩) := by
        generalize sem A X prog (n + 1) = S at *
        simp [csrc, Src.emit_quoted_bytes__jems_loop1, Stmt.body, h0, e1]
      have hst : evalStep A ⟨sem A X prog (n + 1), X.cb (sem A X prog (n + 1))⟩ Src.emit_quoted_bytes__jems_loop1.step
          ⟨[.ptr E.b E.o, .ptr sb so, .int len, .int i, .int c.toNat], h1⟩ =
          .ok ⟨[.ptr E.b E.o, .ptr sb so, .int len, .int ((i + 1 : Nat) : Int), .int c.toNat], h1⟩ := by
        simp [csrc, Src.emit_quoted_bytes__jems_loop1, Stmt.step, k1, k2, k3, ki, Except.bind]
      rw [Stmt.rounds_next hcond hb hst, e2]
    · rw [Mu.Jems.say_say] at r2
      exact r2

theorem src_emit_quoted_bytes {n n0 : Nat} (hw : E.Writes A X n0) {s : List UInt8} (hn : n0 + s.length + 9 ≤ n)
    (hlen : (s.length : Int) ≤ A.intMax) (r : E.Rep A h j) {sb : Base} {so : Int} (q : E.RawAt h sb so s)
    (u : UnsignedAt h sb so s.length) :
    ∃ h', sem A X prog (n + 1) .emit_quoted_bytes__jems h [.ptr E.b E.o, .ptr sb so, .int s.length] =
        .ok (.ptr E.b E.o, h') ∧ E.Rep A h' (say j (s.flatMap escape)) ∧ Heap.Only E.cells h h' := by
  obtain ⟨n, rfl⟩ : ∃ k, n = k + 1 := ⟨n - 1, by omega⟩
  obtain ⟨h', v', e, r', o'⟩ := src_emit_quoted_bytes_loop (N := n + 1) hw (n := n) (by omega) (sb := sb) (so := so)
    hlen s h j 0 .undef (n + 1) (by omega) (by omega) r (by simpa using q) (fun k v _ hk e => u k v hk e)
  refine ⟨h', ?_, r', o'⟩
  rw [sem_succ (d := Src.emit_quoted_bytes__jems) rfl, FunDef.run_regs rfl rfl]
  generalize sem A X prog (n + 1) = S at *
  have e' : exec A ⟨S, X.cb S⟩ (n + 1) Src.emit_quoted_bytes__jems_loop1
    ⟨[.ptr E.b E.o, .ptr sb so, .int s.length, .int 0, .undef], h⟩ = _ := e
  simp [csrc, Src.emit_quoted_bytes__jems, e']

theorem src_literal_loop {n n0 N : Nat} (hw : E.Writes A X n0) (hn : n0 ≤ n) {sb : Base} {so : Int} {len : Nat}
    (hlen : (len : Int) ≤ A.intMax) :
    ∀ (s : List UInt8) (h : Heap) (j : Jems) (i : Nat) (v4 : CVal) (fuel : Nat), s.length < fuel → i + s.length = len →
      E.Rep A h j → E.RawAt h sb (so + i) s →
      ∃ h' v', Src.mu_jems_literal_loop1.rounds A ⟨sem A X prog (n + 1), X.cb (sem A X prog (n + 1))⟩ N fuel
          ⟨[.ptr E.b E.o, .ptr sb so, .int len, .int i, v4], h⟩ =
          .ok (.next, ⟨[.ptr E.b E.o, .ptr sb so, .int len, .int len, v'], h'⟩) ∧
        E.Rep A h' (say j s) ∧ Heap.Only E.cells h h' := by
  have hm := A.intMax_lt_szMod
  intro s
  induction s with
  | nil =>
    intro h j i v4 fuel hf hi r q
    obtain ⟨fuel, rfl⟩ : ∃ k, fuel = k + 1 := ⟨fuel - 1, by omega⟩
    simp only [List.length_nil, Nat.add_zero] at hi
    subst hi
    refine ⟨h, v4, Stmt.rounds_exit ?_, by rw [say_nil]; exact r, Heap.Only.refl _ _⟩
    have c1 := conv_size_lt (A := A) (n := i) (by omega)
    simp [csrc, Src.mu_jems_literal_loop1, Stmt.cond, c1, COp.run]
  | cons c s ih =>
    intro h j i v4 fuel hf hi r q
    obtain ⟨fuel, rfl⟩ : ∃ k, fuel = k + 1 := ⟨fuel - 1, by omega⟩
    simp only [List.length_cons] at hi
    obtain ⟨hcell, v, h0, hv⟩ := q 0 c rfl
    rw [Int.natCast_zero, Int.add_zero] at h0
    have cu := hv.u8 (A := A)
    have cc := conv_char_byte (A := A) c
    obtain ⟨h1, e1, r1, o1⟩ := src_emit_char hw hn r c
    have q1 : E.RawAt h1 sb (so + ((i + 1 : Nat) : Int)) s := by
      have := Emitter.RawAt.only (Emitter.RawAt.tail q) o1
      rwa [show so + (i : Int) + 1 = so + ((i + 1 : Nat) : Int) by omega] at this
    obtain ⟨h2, v', e2, r2, o2⟩ := ih h1 _ (i + 1) (.int c.toNat) fuel (by simp at hf; omega) (by omega) r1 q1
    have c1 := conv_size_lt (A := A) (n := i) (by omega)
    have c2 := conv_size_lt (A := A) (n := len) (by omega)
    have lt : (i : Int) < len := by omega
    have ii : A.InInt i := by have := A.intMax_ge; have := A.intMin_eq; exact ⟨by omega, by omega⟩
    have ii' : A.InInt ((i : Int) + 1) := by have := A.intMax_ge; have := A.intMin_eq; exact ⟨by omega, by omega⟩
    have k1 := conv_int ii
    have k2 := conv_int ii'
    have ki : A.int ((i : Int) + 1) = .ok ((i : Int) + 1) := Plat.int_ok ii'.1 ii'.2
    have k3 : IT.conv ⟨A.ib, true⟩ 1 = 1 := conv_int_small (by omega) (by omega)
    refine ⟨h2, v', ?_, ?_, o1.trans o2⟩
    · have hcond : evalCond A ⟨sem A X prog (n + 1), X.cb (sem A X prog (n + 1))⟩ Src.mu_jems_literal_loop1.cond
          ⟨[.ptr E.b E.o, .ptr sb so, .int len, .int i, v4], h⟩ =
          .ok (true, ⟨[.ptr E.b E.o, .ptr sb so, .int len, .int i, v4], h⟩) := by
        simp [csrc, Src.mu_jems_literal_loop1, Stmt.cond, c1, c2, COp.run, lt]
      have hb : exec A ⟨sem A X prog (n + 1), X.cb (sem A X prog (n + 1))⟩ N Src.mu_jems_literal_loop1.body
          ⟨[.ptr E.b E.o, .ptr sb so, .int len, .int i, v4], h⟩ =
          .ok (.next, ⟨[.ptr E.b E.o, .ptr sb so, .int len, .int i, .int c.toNat], h1⟩) := by
        generalize chr A c = ch at *
        generalize sem A X prog (n + 1) = S at *
        simp [csrc, Src.mu_jems_literal_loop1, Stmt.body, h0, e1, cu, cc]
      have hst : evalStep A ⟨sem A X prog (n + 1), X.cb (sem A X prog (n + 1))⟩ Src.mu_jems_literal_loop1.step
          ⟨[.ptr E.b E.o, .ptr sb so, .int len, .int i, .int c.toNat], h1⟩ =
          .ok ⟨[.ptr E.b E.o, .ptr sb so, .int len, .int ((i + 1 : Nat) : Int), .int c.toNat], h1⟩ := by
        simp [csrc, Src.mu_jems_literal_loop1, Stmt.step, k1, k2, k3, ki, Except.bind]
      rw [Stmt.rounds_next hcond hb hst, e2]
    · rw [Mu.Jems.say_say] at r2
      exact r2

end Mu.CS
