import Verif.Lemmas.SrcJemsLevel

/-! # The parsed source of mu_jems.c: items -/

namespace Mu.CS

open Mu.Jems (Jems Level Emit WF sep bump Item Call ItemText Dbl)
open Mu.Jems.Spec

variable {A : Arch} {X : Ext} {E : Emitter} {h h' : Heap} {j j' : Jems}

theorem Emitter.StrAt.lit (p : E.Placed A h) {t : List UInt8} (h128 : ∀ c ∈ t, c.toNat < 128) (h0 : 0 ∉ t) :
    E.StrAt A h (.lit t) 0 t := by
  have nc : ∀ o, ¬ E.cells (.lit t) o := fun o hx => by have := p.lit _ _ hx; simp [Base.isLit] at this
  refine ⟨fun i c hi => ⟨nc _, ?_⟩, ⟨nc _, ?_⟩, h0⟩
  · have hlt := (List.getElem?_eq_some_iff.mp hi).1
    have hv := (List.getElem?_eq_some_iff.mp hi).2
    rw [chr_small (h128 c (List.mem_of_getElem? hi))]
    simp [Heap.at, Heap.cells, litCells, List.getElem?_append_left, hlt, hv]
  · simp [Heap.at, Heap.cells, litCells]

theorem Emitter.StrAt.uses {sb : Base} {so : Int} {s : List UInt8} (q : E.StrAt A h sb so s) (hne : ∀ o, ¬ E.Uses sb o)
    (e : Heap.Only E.Uses h h') : E.StrAt A h' sb so s :=
  ⟨fun i c hc => ⟨(q.char i c hc).1, (e.cell _ _ (hne _)).trans (q.char i c hc).2⟩,
    ⟨q.nul.1, (e.cell _ _ (hne _)).trans q.nul.2⟩, q.nz⟩

theorem Emitter.Texts.only {β : Place} {m : Mem} (q : E.Texts β h m) (e : Heap.Only E.Uses h h') : E.Texts β h' m := by
  intro k i c hc
  obtain ⟨h1, v, h2, h3⟩ := q k i c hc
  exact ⟨h1, v, (e.cell _ _ h1).trans h2, h3⟩

/-- A part of a text of the caller's. -/
theorem Emitter.Texts.raw {β : Place} {m : Mem} (q : E.Texts β h m) {p : Ptr} (h0 : 0 ≤ p.off) {t rest : List UInt8}
    (ht : (m p.blk).drop p.off.toNat = t ++ rest) : E.RawAt h (β p.blk).1 ((β p.blk).2 + p.off) t := by
  intro i c hc
  have hlt := (List.getElem?_eq_some_iff.mp hc).1
  have : (m p.blk)[p.off.toNat + i]? = some c := by
    rw [← List.getElem?_drop, ht, List.getElem?_append_left hlt]
    exact hc
  obtain ⟨h1, v, h2, h3⟩ := q _ _ _ this
  rw [show (β p.blk).2 + ((p.off.toNat + i : Nat) : Int) = (β p.blk).2 + p.off + i by omega] at h1 h2
  exact ⟨fun hx => h1 (Or.inl hx), v, h2, h3⟩

theorem cells_uses (e : Heap.Only E.cells h h') : Heap.Only E.Uses h h' := e.mono (fun _ _ hb => Or.inl hb)
theorem own_uses (e : Heap.Only E.Own h h') : Heap.Only E.Uses h h' := e.mono (fun _ _ hb => Or.inr hb)

/-- What the call of a function that emits the text `t` as an item does. -/
def Emits (A : Arch) (E : Emitter) (f : Heap → C (CVal × Heap)) (h : Heap) (j : Jems) (l : Level) (t : List UInt8) : Prop :=
  ∃ h', f h = .ok (.ptr E.b E.o, h') ∧ E.Rep A h' (bump A.toPlat (say j (sep l ++ t)) l) ∧ Heap.Only E.Uses h h'

section
variable {n n0 : Nat} {l : Level}

/-- `commify`, then a string constant. -/
theorem src_constant (hw : E.Writes A X n0) (hn : n0 + 30 ≤ n) (r : E.Rep A h j) (hl : j.levels[j.curr]? = some l)
    {t : List UInt8} (ht : t.length ≤ 21) (h128 : ∀ c ∈ t, c.toNat < 128) (h0 : 0 ∉ t) :
    ∃ h1 h2, sem A X prog (n + 2) .commify__jems h [.ptr E.b E.o] = .ok (.ptr E.b E.o, h1) ∧
      sem A X prog (n + 2) .emit_string__jems h1 [.ptr E.b E.o, .ptr (.lit t) 0] = .ok (.ptr E.b E.o, h2) ∧
      E.Rep A h2 (bump A.toPlat (say j (sep l ++ t)) l) ∧ Heap.Only E.Uses h h2 := by
  obtain ⟨h1, s1, r1, o1⟩ := src_commify hw (n := n) (by omega) r hl
  obtain ⟨h2, s2, r2, o2⟩ := src_emit_string hw (n := n + 1) (by omega) r1 (Emitter.StrAt.lit r1.placed h128 h0)
  rw [Mu.Jems.bump_say] at r2
  exact ⟨h1, h2, s1, s2, r2, o1.trans (cells_uses o2)⟩

theorem src_null (hw : E.Writes A X n0) (hn : n0 + 30 ≤ n) (r : E.Rep A h j) (hl : j.levels[j.curr]? = some l) :
    Emits A E (fun h => sem A X prog (n + 3) .mu_jems_null h [.ptr E.b E.o]) h j l (ascii "null") := by
  obtain ⟨h1, h2, s1, s2, r2, o2⟩ := src_constant hw hn r hl (t := ascii "null") (by decide) (by decide) (by decide)
  refine ⟨h2, ?_, r2, o2⟩
  show sem A X prog (n + 3) .mu_jems_null h [.ptr E.b E.o] = _
  rw [sem_succ (d := Src.mu_jems_null) rfl, FunDef.run_regs rfl rfl]
  rw [show ascii "null" = [110, 117, 108, 108] by decide] at s2
  generalize sem A X prog (n + 2) = S at *
  simp [csrc, Src.mu_jems_null, s1, s2]

theorem src_true (hw : E.Writes A X n0) (hn : n0 + 30 ≤ n) (r : E.Rep A h j) (hl : j.levels[j.curr]? = some l) :
    Emits A E (fun h => sem A X prog (n + 3) .mu_jems_true h [.ptr E.b E.o]) h j l (ascii "true") := by
  obtain ⟨h1, h2, s1, s2, r2, o2⟩ := src_constant hw hn r hl (t := ascii "true") (by decide) (by decide) (by decide)
  refine ⟨h2, ?_, r2, o2⟩
  show sem A X prog (n + 3) .mu_jems_true h [.ptr E.b E.o] = _
  rw [sem_succ (d := Src.mu_jems_true) rfl, FunDef.run_regs rfl rfl]
  rw [show ascii "true" = [116, 114, 117, 101] by decide] at s2
  generalize sem A X prog (n + 2) = S at *
  simp [csrc, Src.mu_jems_true, s1, s2]

theorem src_false (hw : E.Writes A X n0) (hn : n0 + 30 ≤ n) (r : E.Rep A h j) (hl : j.levels[j.curr]? = some l) :
    Emits A E (fun h => sem A X prog (n + 3) .mu_jems_false h [.ptr E.b E.o]) h j l (ascii "false") := by
  obtain ⟨h1, h2, s1, s2, r2, o2⟩ := src_constant hw hn r hl (t := ascii "false") (by decide) (by decide) (by decide)
  refine ⟨h2, ?_, r2, o2⟩
  show sem A X prog (n + 3) .mu_jems_false h [.ptr E.b E.o] = _
  rw [sem_succ (d := Src.mu_jems_false) rfl, FunDef.run_regs rfl rfl]
  rw [show ascii "false" = [102, 97, 108, 115, 101] by decide] at s2
  generalize sem A X prog (n + 2) = S at *
  simp [csrc, Src.mu_jems_false, s1, s2]

theorem src_bool (hw : E.Writes A X n0) (hn : n0 + 30 ≤ n) (r : E.Rep A h j) (hl : j.levels[j.curr]? = some l) (b : Bool) :
    Emits A E (fun h => sem A X prog (n + 3) .mu_jems_bool h [.ptr E.b E.o, .ofBool b]) h j l
      (ascii (if b then "true" else "false")) := by
  obtain ⟨h1, h2, s1, s2, r2, o2⟩ := src_constant hw hn r hl (t := ascii (if b then "true" else "false"))
    (by cases b <;> decide) (by cases b <;> decide) (by cases b <;> decide)
  refine ⟨h2, ?_, r2, o2⟩
  show sem A X prog (n + 3) .mu_jems_bool h [.ptr E.b E.o, .ofBool b] = _
  rw [sem_succ (d := Src.mu_jems_bool) rfl, FunDef.run_regs rfl rfl]
  generalize sem A X prog (n + 2) = S at *
  cases b with
  | false =>
    rw [show ascii (if false = true then "true" else "false") = [102, 97, 108, 115, 101] by decide] at s2
    simp [csrc, Src.mu_jems_bool, s1, s2, CVal.ofBool]
  | true =>
    rw [show ascii (if true = true then "true" else "false") = [116, 114, 117, 101] by decide] at s2
    simp [csrc, Src.mu_jems_bool, s1, s2, CVal.ofBool]

/-- `commify`, `"`, characters, `"`. -/
theorem src_string (hw : E.Writes A X n0) {β : Place} {m : Mem} (q : E.Texts β h m) {p : Ptr} {s : List UInt8}
    (hs : BBuf.IsCstr m p s) (hn : n0 + s.length + 30 ≤ n) (r : E.Rep A h j) (hl : j.levels[j.curr]? = some l) :
    Emits A E (fun h => sem A X prog (n + 3) .mu_jems_string h [.ptr E.b E.o, pv β p]) h j l (quote s) := by
  obtain ⟨hp, hz, rest, hr⟩ := hs
  obtain ⟨h1, s1, r1, o1⟩ := src_commify hw (n := n) (by omega) r hl
  obtain ⟨h2, s2, r2, o2⟩ := src_emit_char hw (n := n + 1) (by omega) r1 34
  have o02 := o1.trans (cells_uses o2)
  obtain ⟨h3, s3, r3, o3⟩ := src_emit_quoted_string hw (n := n + 1) (by omega) hz r2
    ((q.only o02).raw hp (t := s ++ [0]) (rest := rest) (by rw [hr]; simp))
  obtain ⟨h4, s4, r4, o4⟩ := src_emit_char hw (n := n + 1) (by omega) r3 34
  rw [Mu.Jems.say_say, Mu.Jems.say_say, Mu.Jems.bump_say] at r4
  rw [show chr A 34 = 34 from chr_small (by decide)] at s2 s4
  refine ⟨h4, ?_, by simpa [quote] using r4, (o02.trans (cells_uses o3)).trans (cells_uses o4)⟩
  show sem A X prog (n + 3) .mu_jems_string h [.ptr E.b E.o, pv β p] = _
  rw [sem_succ (d := Src.mu_jems_string) rfl, FunDef.run_regs rfl rfl]
  generalize sem A X prog (n + 2) = S at *
  unfold pv
  simp [csrc, Src.mu_jems_string, s1, s2, s3, s4]

/-- The bytes of `IsBytes`. -/
theorem isBytes_drop {P : Plat} {m : Mem} {p : Ptr} {k : Nat} {s : List UInt8} (hs : IsBytes P m p k s) :
    (m p.blk).drop p.off.toNat = s ++ ((m p.blk).drop p.off.toNat).drop k := by
  rw [← hs.2.1, List.take_append_drop]

theorem src_bytes (hw : E.Writes A X n0) {β : Place} {m : Mem} (q : E.Texts β h m) {p : Ptr} {k : Nat} {s : List UInt8}
    (hs : IsBytes A.toPlat m p k s) (u : Unsigned β h (.bytes p k)) (hn : n0 + s.length + 30 ≤ n) (r : E.Rep A h j)
    (hl : j.levels[j.curr]? = some l) :
    Emits A E (fun h => sem A X prog (n + 3) .mu_jems_bytes h [.ptr E.b E.o, pv β p, .int k]) h j l (quote s) := by
  have hd := isBytes_drop hs
  obtain ⟨hp, -, hk, hm⟩ := hs
  subst hk
  obtain ⟨h1, s1, r1, o1⟩ := src_commify hw (n := n) (by omega) r hl
  obtain ⟨h2, s2, r2, o2⟩ := src_emit_char hw (n := n + 1) (by omega) r1 34
  have o02 := o1.trans (cells_uses o2)
  have u2 : UnsignedAt h2 (β p.blk).1 ((β p.blk).2 + p.off) s.length := by
    intro i v hi hv
    refine u i v hi ?_
    have : (m p.blk)[p.off.toNat + i]? = some s[i] := by
      rw [← List.getElem?_drop, hd, List.getElem?_append_left hi]
      exact List.getElem?_eq_getElem hi
    have h1 := (q _ _ _ this).1
    rw [show (β p.blk).2 + ((p.off.toNat + i : Nat) : Int) = (β p.blk).2 + p.off + i by omega] at h1
    rw [← o02.cell _ _ h1]
    exact hv
  obtain ⟨h3, s3, r3, o3⟩ := src_emit_quoted_bytes hw (n := n + 1) (by omega) hm r2 ((q.only o02).raw hp hd) u2
  obtain ⟨h4, s4, r4, o4⟩ := src_emit_char hw (n := n + 1) (by omega) r3 34
  rw [Mu.Jems.say_say, Mu.Jems.say_say, Mu.Jems.bump_say] at r4
  rw [show chr A 34 = 34 from chr_small (by decide)] at s2 s4
  refine ⟨h4, ?_, by simpa [quote] using r4, (o02.trans (cells_uses o3)).trans (cells_uses o4)⟩
  show sem A X prog (n + 3) .mu_jems_bytes h [.ptr E.b E.o, pv β p, .int s.length] = _
  rw [sem_succ (d := Src.mu_jems_bytes) rfl, FunDef.run_regs rfl rfl]
  generalize sem A X prog (n + 2) = S at *
  unfold pv
  simp [csrc, Src.mu_jems_bytes, s1, s2, s3, s4]

theorem src_literal (hw : E.Writes A X n0) {β : Place} {m : Mem} (q : E.Texts β h m) {p : Ptr} {k : Nat} {s : List UInt8}
    (hs : IsBytes A.toPlat m p k s) (hn : n0 + s.length + 30 ≤ n) (r : E.Rep A h j) (hl : j.levels[j.curr]? = some l) :
    Emits A E (fun h => sem A X prog (n + 3) .mu_jems_literal h [.ptr E.b E.o, pv β p, .int k]) h j l s := by
  have hd := isBytes_drop hs
  obtain ⟨hp, -, hk, hm⟩ := hs
  subst hk
  obtain ⟨h1, s1, r1, o1⟩ := src_commify hw (n := n) (by omega) r hl
  obtain ⟨h2, v', s2, r2, o2⟩ := src_literal_loop (N := n + 2) hw (n := n + 1) (by omega) hm s h1 _ 0 .undef (n + 2) (by omega)
    (by omega) r1 (by rw [Int.natCast_zero, Int.add_zero]; exact (q.only o1).raw hp hd)
  rw [Mu.Jems.bump_say] at r2
  refine ⟨h2, ?_, r2, o1.trans (cells_uses o2)⟩
  show sem A X prog (n + 3) .mu_jems_literal h [.ptr E.b E.o, pv β p, .int s.length] = _
  rw [sem_succ (d := Src.mu_jems_literal) rfl, FunDef.run_regs rfl rfl]
  have e' : exec A ⟨sem A X prog (n + 2), X.cb (sem A X prog (n + 2))⟩ (n + 2) Src.mu_jems_literal_loop1
    ⟨[.ptr E.b E.o, .ptr (β p.blk).1 ((β p.blk).2 + p.off), .int s.length, .int 0, .undef], h1⟩ = _ := s2
  generalize sem A X prog (n + 2) = S at *
  unfold pv
  simp [csrc, Src.mu_jems_literal, s1, e']

/-! ## Numbers -/

theorem digit_small {c : UInt8} (hc : isDigit c = true) : c.toNat < 128 := by
  simp only [isDigit, decide_eq_true_eq, UInt8.le_iff_toNat_le] at hc
  have : c.toNat ≤ 57 := hc.2
  omega

theorem fmtI64_small (v : Int) : ∀ c ∈ Mu.Jems.fmtI64 v, c.toNat < 128 := by
  intro c hc
  unfold Mu.Jems.fmtI64 at hc
  split at hc
  · rcases List.mem_cons.mp hc with rfl | hc
    · decide
    · exact digit_small (Mu.Jems.digits_isDigit _ c hc)
  · exact digit_small (Mu.Jems.digits_isDigit _ c hc)

theorem sixDigits_small (k : Nat) : ∀ c ∈ Mu.Jems.sixDigits k, c.toNat < 128 := by
  intro c hc
  unfold Mu.Jems.sixDigits at hc
  rw [List.mem_map] at hc
  obtain ⟨d, hd, rfl⟩ := hc
  have : d < 10 := by
    simp only [List.mem_cons, List.not_mem_nil, or_false] at hd
    omega
  rw [UInt8.toNat_ofNat']
  omega

theorem fmtLf_small (v : Dbl) : ∀ c ∈ Mu.Jems.fmtLf v, c.toNat < 128 := by
  cases v with
  | nan => decide
  | inf neg => cases neg <;> decide
  | fin neg m e =>
    intro c hc
    simp only [Mu.Jems.fmtLf] at hc
    generalize (if 0 ≤ e then m * 2 ^ e.toNat * 1000000
      else Mu.Jems.roundEven (m * 1000000) (2 ^ (-e).toNat)) = k at hc
    simp only [List.mem_append, List.mem_cons] at hc
    rcases hc with (hc | hc) | rfl | hc
    · cases neg <;> simp at hc
      subst hc
      decide
    · exact digit_small (Mu.Jems.digits_isDigit _ c hc)
    · decide
    · exact sixDigits_small _ c hc

/-- An `int64_t` passed to `printf`. -/
theorem conv_i64 {i : Int} (h1 : -(2 ^ 63) ≤ i) (h2 : i < 2 ^ 63) : (A.it (.common .i64 .int)).conv i = i := by
  rw [it_common_signed (t := .i64) (N := 64) rfl]
  have key : ∀ W : Nat, 64 ≤ W → IT.conv ⟨W, true⟩ i = i := by
    intro W hW
    rw [IT.conv_signed]
    have : (2 : Int) ^ 64 ≤ 2 ^ W := by
      have h3 : (2 : Nat) ^ 64 ≤ 2 ^ W := Nat.pow_le_pow_right (by omega) hW
      have h4 := two_pow_cast W
      have h5 := two_pow_cast 64
      omega
    have h4 := two_pow_cast W
    exact Int.bmod_eq_of_le (by omega) (by omega)
  split
  · exact key _ (by assumption)
  · exact key _ (Nat.le_refl _)

theorem dblEqual_itod {i : Int} {v : Dbl} :
    dblEqual (.fin (decide (i < 0)) (Mu.Jems.i64ToDbl i).natAbs 0) v = Mu.Jems.dblEq (Mu.Jems.i64ToDbl i) v := by
  have hs : Mu.Jems.sgn (decide (i < 0)) * ((Mu.Jems.i64ToDbl i).natAbs : Int) = Mu.Jems.i64ToDbl i := by
    unfold Mu.Jems.i64ToDbl
    dsimp only
    generalize Mu.Jems.roundEven i.natAbs (2 ^ (i.natAbs.log2 - 52)) * 2 ^ (i.natAbs.log2 - 52) = w
    rcases Int.lt_trichotomy i 0 with hi | hi | hi
    · rw [Int.sign_eq_neg_one_of_neg hi]
      simp [Mu.Jems.sgn, hi]
    · subst hi
      simp
    · rw [Int.sign_eq_one_of_pos hi]
      have : ¬ i < 0 := by omega
      simp [Mu.Jems.sgn, this]
  cases v with
  | nan => rfl
  | inf b => rfl
  | fin neg m e =>
    simp only [dblEqual, Mu.Jems.dblEq]
    by_cases he : 0 ≤ e
    · rw [if_pos he, Int.min_eq_left he]
      simp only [Int.sub_self, Int.sub_zero, Int.toNat_zero, Nat.pow_zero, Nat.mul_one, hs]
    · rw [if_neg he, Int.min_eq_right (by omega)]
      simp only [Int.sub_self, Int.toNat_zero, Nat.pow_zero, Nat.mul_one, Int.zero_sub]
      rw [Int.natCast_mul, ← Int.mul_assoc, hs]

/-- A text of at most 21 characters in a local buffer: `commify`, then the text. -/
theorem src_formatted (hw : E.Writes A X n0) (hn : n0 + 30 ≤ n) (r : E.Rep A h j) (hl : j.levels[j.curr]? = some l)
    {t : List UInt8} (ht : t.length ≤ 21) (h128 : ∀ c ∈ t, c.toNat < 128) (h0 : 0 ∉ t) :
    ∃ g h1 h2, (h.alloc 22).putN (.ptr (.obj h.next) 0) (litCells t) = .ok g ∧
      sem A X prog (n + 2) .commify__jems g [.ptr E.b E.o] = .ok (.ptr E.b E.o, h1) ∧
      sem A X prog (n + 2) .emit_string__jems h1 [.ptr E.b E.o, .ptr (.obj h.next) 0] = .ok (.ptr E.b E.o, h2) ∧
      E.Rep A (h2.release h.next) (bump A.toPlat (say j (sep l ++ t)) l) ∧ Heap.Only E.Uses h (h2.release h.next) := by
  have p := r.placed
  have wk := hw n0 (Nat.le_refl _)
  obtain ⟨g, g1, g2, g3⟩ := Emitter.StrAt.buffer (E := E) (A := A) (n := 22) p (t := t) (by omega) h128 h0
  have rb := Emitter.Rep.buffer (n := 22) wk p (r.alloc wk 22) g3
  obtain ⟨h1, s1, r1, o1⟩ := src_commify hw (n := n) (by omega) rb hl
  have nu : ∀ o, ¬ E.Uses (.obj h.next) o := fun o hx => by have := p.usesOld _ o hx _ rfl; omega
  obtain ⟨h2, s2, r2, o2⟩ := src_emit_string hw (n := n + 1) (by omega) r1 (g2.uses nu o1)
  rw [Mu.Jems.bump_say] at r2
  exact ⟨g, h1, h2, g1, s1, s2, r2.release wk p, Heap.Only.back p.fresh g3 (o1.trans (cells_uses o2))⟩

theorem src_integer (hw : E.Writes A X n0) (hn : n0 + 30 ≤ n) (r : E.Rep A h j) (hl : j.levels[j.curr]? = some l)
    {v : Int} (hv1 : -(2 ^ 63) ≤ v) (hv2 : v < 2 ^ 63) :
    Emits A E (fun h => sem A X prog (n + 3) .mu_jems_integer h [.ptr E.b E.o, .int v]) h j l (ascii (toString v)) := by
  have hlen := Mu.Jems.fmtI64_length hv1 hv2
  rw [← Mu.Jems.fmtI64_eq]
  obtain ⟨g, h1, h2, e0, s1, s2, r2, o2⟩ := src_formatted hw hn r hl (t := Mu.Jems.fmtI64 v) (by omega) (fmtI64_small v)
    (Mu.Jems.fmtI64_nz v)
  refine ⟨_, ?_, r2, o2⟩
  have hf : Lib.snprintf (h.alloc 22) [.ptr (.obj h.next) 0, .int 22, .ptr (.lit [37, 108, 108, 100]) 0, .int v] =
      .ok (.int (Mu.Jems.fmtI64 v).length, g) := by
    simp [Lib.snprintf, Lib.format, List.take_of_length_le (show (Mu.Jems.fmtI64 v).length ≤ 21 by omega), e0]
  have hf' := (congrFun (congrFun (sem_snprintf (A := A) (X := X) (n + 1)) (h.alloc 22)) _).trans hf
  have ci := conv_i64 (A := A) hv1 hv2
  show sem A X prog (n + 3) .mu_jems_integer h [.ptr E.b E.o, .int v] = _
  rw [sem_succ (d := Src.mu_jems_integer) rfl, FunDef.run_mem1 rfl rfl]
  generalize sem A X prog (n + 2) = S at *
  simp [csrc, Src.mu_jems_integer, s1, s2, hf', ci]

theorem toI64_range {v : Dbl} {i : Int} (e : Mu.Jems.toI64 v = .ok i) : -(2 ^ 63) ≤ i ∧ i < 2 ^ 63 := by
  cases v with
  | nan => cases e
  | inf b => cases e
  | fin neg m x =>
    simp only [Mu.Jems.toI64] at e
    generalize Mu.Jems.sgn neg * (if 0 ≤ x then m * 2 ^ x.toNat else m / 2 ^ (-x).toNat : Nat) = t at e
    by_cases ht : -(2 ^ 63) ≤ t ∧ t < 2 ^ 63
    · rw [if_pos ht] at e
      injection e with e
      rw [← e]
      exact ht
    · rw [if_neg ht] at e
      cases e

theorem src_number (hw : E.Writes A X n0) (hn : n0 + 30 ≤ n) (r : E.Rep A h j) (hl : j.levels[j.curr]? = some l)
    {v : Dbl} {i : Int} (hv : Mu.Jems.toI64 v = .ok i) :
    Emits A E (fun h => sem A X prog (n + 3) .mu_jems_number h [.ptr E.b E.o, .dbl v]) h j l
      ((if Mu.Jems.dblEq (Mu.Jems.i64ToDbl i) v then Mu.Jems.fmtI64 i else Mu.Jems.fmtLf v).take 21) := by
  obtain ⟨hv1, hv2⟩ := toI64_range hv
  have hd := dblEqual_itod (i := i) (v := v)
  have ci := conv_i64 (A := A) hv1 hv2
  obtain ⟨g, h1, h2, e0, s1, s2, r2, o2⟩ := src_formatted hw hn r hl
    (t := (if Mu.Jems.dblEq (Mu.Jems.i64ToDbl i) v then Mu.Jems.fmtI64 i else Mu.Jems.fmtLf v).take 21)
    (by rw [List.length_take]; omega)
    (fun c hc => by
      have hc := List.mem_of_mem_take hc
      split at hc
      · exact fmtI64_small i c hc
      · exact fmtLf_small v c hc)
    (fun hc => by
      have hc := List.mem_of_mem_take hc
      split at hc
      · exact Mu.Jems.fmtI64_nz i hc
      · exact Mu.Jems.fmtLf_nz v hc)
  refine ⟨_, ?_, r2, o2⟩
  show sem A X prog (n + 3) .mu_jems_number h [.ptr E.b E.o, .dbl v] = _
  rw [sem_succ (d := Src.mu_jems_number) rfl, FunDef.run_mem1 rfl rfl]
  by_cases hq : Mu.Jems.dblEq (Mu.Jems.i64ToDbl i) v = true
  · rw [if_pos hq] at e0
    have hf : Lib.snprintf (h.alloc 22) [.ptr (.obj h.next) 0, .int 22, .ptr (.lit [37, 108, 108, 100]) 0, .int i] =
        .ok (.int (Mu.Jems.fmtI64 i).length, g) := by
      simp [Lib.snprintf, Lib.format, e0]
    have hf' := (congrFun (congrFun (sem_snprintf (A := A) (X := X) (n + 1)) (h.alloc 22)) _).trans hf
    rw [hq] at hd
    generalize sem A X prog (n + 2) = S at *
    simp [csrc, Src.mu_jems_number, s1, s2, hf', ci, hv, Op.run, hd, CVal.ofBool]
  · rw [if_neg hq] at e0
    have hf : Lib.snprintf (h.alloc 22) [.ptr (.obj h.next) 0, .int 22, .ptr (.lit [37, 108, 102]) 0, .dbl v] =
        .ok (.int (Mu.Jems.fmtLf v).length, g) := by
      simp [Lib.snprintf, Lib.format, e0]
    have hf' := (congrFun (congrFun (sem_snprintf (A := A) (X := X) (n + 1)) (h.alloc 22)) _).trans hf
    rw [Bool.not_eq_true] at hq
    rw [hq] at hd
    generalize sem A X prog (n + 2) = S at *
    simp [csrc, Src.mu_jems_number, s1, s2, hf', hv, Op.run, hd, CVal.ofBool]

end

end Mu.CS
