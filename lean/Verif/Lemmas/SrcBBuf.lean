import Verif.Lemmas.SrcRead

/-! # The functions of mu_bbuf.c that only read: the parsed source and the model -/

namespace Mu.CS

open BBuf

variable {A : Arch} {X : Ext}

/-- The object at `(b, o)` is the `mu_bbuf_t` `B`. -/
structure BRep (A : Arch) (β : Place) (h : Heap) (b : Base) (o : Int) (B : BBuf) : Prop where
  ptr : h.at b o = some (pv β B.p)
  cap : h.at b (o + 1) = some (.int B.cap)
  lt : B.cap < A.szMod

theorem src_bytes_ro (n : Nat) {β : Place} {h : Heap} {b : Base} {o : Int} {B : BBuf}
    (r : BRep A β h b o B) : sem A X prog (n + 1) .mu_bbuf_bytes_ro h [.ptr b o] = .ok (pv β B.p, h) := by
  rw [sem_succ (d := Src.mu_bbuf_bytes_ro) rfl, FunDef.run_regs rfl rfl]
  simp [csrc, Src.mu_bbuf_bytes_ro, r.ptr]

theorem src_bytes_rw (n : Nat) {β : Place} {h : Heap} {b : Base} {o : Int} {B : BBuf}
    (r : BRep A β h b o B) : sem A X prog (n + 1) .mu_bbuf_bytes_rw h [.ptr b o] = .ok (pv β B.p, h) := by
  rw [sem_succ (d := Src.mu_bbuf_bytes_rw) rfl, FunDef.run_regs rfl rfl]
  simp [csrc, Src.mu_bbuf_bytes_rw, r.ptr]

theorem src_capacity (n : Nat) {β : Place} {h : Heap} {b : Base} {o : Int} {B : BBuf}
    (r : BRep A β h b o B) :
    sem A X prog (n + 1) .mu_bbuf_capacity h [.ptr b o] = .ok (.int B.cap, h) := by
  rw [sem_succ (d := Src.mu_bbuf_capacity) rfl, FunDef.run_regs rfl rfl]
  simp [csrc, Src.mu_bbuf_capacity, r.cap]

/-! ## Comparison -/

theorem inInt_zero : A.InInt 0 := by
  have := A.intMax_ge; have := A.intMin_eq; exact ⟨by omega, by omega⟩

theorem byte_sub (c d : UInt8) : A.int ((c.toNat : Int) - d.toNat) = .ok ((c.toNat : Int) - d.toNat) := by
  have := c.toNat_lt; have := d.toNat_lt; have := A.intMax_ge; have := A.intMin_eq
  exact Plat.int_ok (by omega) (by omega)

theorem inInt_one : A.InInt 1 := by
  have := A.intMax_ge; have := A.intMin_eq; exact ⟨by omega, by omega⟩

theorem src_str_compare (n : Nat) {β : Place} {h : Heap} {m : Mem} {b : Base} {o : Int} {B : BBuf}
    {p2 : Ptr} {len2 d : Int} (r : MB β h m) (rb : BRep A β h b o B) (hl : A.InInt len2)
    (hn : (A.toInt B.cap).toNat + 1 ≤ n)
    (e : strCompareAux A.toPlat m B p2 len2 = .ok d) :
    sem A X prog (n + 1) .str_compare_aux__bbuf h [.ptr b o, pv β p2, .int len2] = .ok (.int d, h) := by
  obtain ⟨K, rfl⟩ : ∃ K, n = K + 1 := ⟨n - 1, by omega⟩
  have s1 := src_bytes_ro (A := A) (X := X) K rb
  have s2 := src_capacity (A := A) (X := X) K rb
  have hl1 : A.InInt (A.toInt B.cap) := inInt_toInt _
  rw [sem_succ (d := Src.str_compare_aux__bbuf) rfl, FunDef.run_regs rfl rfl]
  generalize hK : (⟨sem A X prog (K + 1), X.cb (sem A X prog (K + 1))⟩ : Calls) = KK
  have s1' : KK.fn .mu_bbuf_bytes_ro h [.ptr b o] = .ok (pv β B.p, h) := by rw [← hK]; exact s1
  have s2' : KK.fn .mu_bbuf_capacity h [.ptr b o] = .ok (.int B.cap, h) := by rw [← hK]; exact s2
  unfold strCompareAux at e
  obtain ⟨⟨rr, i'⟩, el, e⟩ := C.bind_eq_ok e
  generalize hlen : (if A.toInt B.cap < len2 then A.toInt B.cap else len2) = len at *
  have hlenI : A.InInt len := by rw [← hlen]; split <;> assumption
  have hlen2 : len.toNat ≤ (A.toInt B.cap).toNat := by rw [← hlen]; split <;> omega
  have loop := rounds_forLoop (A := A) (K := KK) (N := K + 1) (l := Src.str_compare_aux__bbuf_loop1)
    (R := fun i s => A.InInt i ∧ ∃ v7, s = ⟨[.ptr b o, pv β p2, .int len2, pv β B.p,
      .int (A.toInt B.cap), .int len, .int i, v7], h⟩)
    (Q := fun x i f s => f = .ret (.int x) ∧ s.h = h) ?_ ?_ ?_ _ (K + 1) 0 i'
    ⟨[.ptr b o, pv β p2, .int len2, pv β B.p, .int (A.toInt B.cap), .int len, .int 0, .undef], h⟩ rr
    (by omega) ⟨inInt_zero, _, rfl⟩ el
  · obtain ⟨f, s', hs, hr⟩ := loop
    have hs' : exec A KK (K + 1) Src.str_compare_aux__bbuf_loop1 _ = _ := hs
    cases rr with
    | some x =>
      cases e
      obtain ⟨rfl, hh⟩ := hr
      by_cases hlt : A.toInt B.cap < len2
      · rw [if_pos hlt] at hlen
        subst hlen
        simp [csrc, Src.str_compare_aux__bbuf, s1', s2', conv_int_nat B.cap, conv_int hl, hlt, hs', hh]
      · rw [if_neg hlt] at hlen
        subst hlen
        simp [csrc, Src.str_compare_aux__bbuf, s1', s2', conv_int_nat B.cap, conv_int hl, hlt, hs', hh]
    | none =>
      obtain ⟨rfl, ⟨hi', v7, rfl⟩, -⟩ := hr
      simp only at e
      by_cases hlt : A.toInt B.cap < len2
      · rw [if_pos hlt] at hlen
        subst hlen
        simp [csrc, Src.str_compare_aux__bbuf, s1', s2', conv_int_nat B.cap, conv_int hl, hlt, hs', e]
      · rw [if_neg hlt] at hlen
        subst hlen
        simp [csrc, Src.str_compare_aux__bbuf, s1', s2', conv_int_nat B.cap, conv_int hl, hlt, hs', e]
  · rintro i s ⟨hi, v7, rfl⟩
    simp [csrc, Src.str_compare_aux__bbuf_loop1, Stmt.cond, conv_int hi, conv_int hlenI]
  · rintro i s x ⟨hi, v7, rfl⟩ hc eb
    obtain ⟨c1, e1, eb⟩ := C.bind_eq_ok eb
    obtain ⟨c2, e2, eb⟩ := C.bind_eq_ok eb
    dsimp only at eb
    have hb := byte_sub (A := A) c1 c2
    split at eb
    · rename_i hne
      cases eb
      refine ⟨.ret (.int ((c1.toNat : Int) - c2.toNat)), ⟨[.ptr b o, pv β p2, .int len2, pv β B.p,
        .int (A.toInt B.cap), .int len, .int i, .int ((c1.toNat : Int) - c2.toNat)], h⟩, ?_, by simp,
        rfl, rfl⟩
      simp [csrc, Src.str_compare_aux__bbuf_loop1, Stmt.body, r.padd_ld e1, r.padd_ld e2, r.load e1,
        r.load e2, hb, conv_int (inInt_of_int hb), hne]
    · cases eb
  · rintro i s ⟨hi, v7, rfl⟩ hc eb ej
    obtain ⟨c1, e1, eb⟩ := C.bind_eq_ok eb
    obtain ⟨c2, e2, eb⟩ := C.bind_eq_ok eb
    dsimp only at eb
    have hb := byte_sub (A := A) c1 c2
    split at eb
    · cases eb
    · rename_i hne
      refine ⟨⟨[.ptr b o, pv β p2, .int len2, pv β B.p,
        .int (A.toInt B.cap), .int len, .int i, .int ((c1.toNat : Int) - c2.toNat)], h⟩, ⟨[.ptr b o, pv β p2, .int len2, pv β B.p,
        .int (A.toInt B.cap), .int len, .int (i + 1), .int ((c1.toNat : Int) - c2.toNat)], h⟩, ?_, ?_,
        inInt_of_int ej, _, rfl⟩
      · simp [csrc, Src.str_compare_aux__bbuf_loop1, Stmt.body, r.padd_ld e1, r.padd_ld e2, r.load e1,
          r.load e2, hb, conv_int (inInt_of_int hb), Decidable.not_not.mp hne]
      · simp [csrc, Src.str_compare_aux__bbuf_loop1, Stmt.step, conv_int hi, ej, conv_int (inInt_of_int ej)]

theorem strCompareAux_inInt {m : Mem} {B : BBuf} {p2 : Ptr} {len2 d : Int}
    (e : strCompareAux A.toPlat m B p2 len2 = .ok d) : A.InInt d := by
  unfold strCompareAux at e
  obtain ⟨⟨rr, i'⟩, el, e⟩ := C.bind_eq_ok e
  cases rr with
  | none => exact inInt_of_int e
  | some x =>
    cases e
    have key : ∀ (len : Int) (fuel : Nat) (i0 : Int),
        forLoop A.toPlat (fun i => decide (i < len)) 1
          (fun i => do
            let x ← m.ld B.p i
            let y ← m.ld p2 i
            let d := (x.toNat : Int) - (y.toNat : Int)
            if d ≠ 0 then .ok (some d) else .ok none) fuel i0 = .ok (some d, i') → A.InInt d := by
      intro len fuel
      induction fuel with
      | zero => intro i0 el; cases el
      | succ fuel ih =>
        intro i0 el
        unfold forLoop at el
        split at el
        · obtain ⟨rb, eb, el⟩ := C.bind_eq_ok el
          obtain ⟨c1, -, eb⟩ := C.bind_eq_ok eb
          obtain ⟨c2, -, eb⟩ := C.bind_eq_ok eb
          dsimp only at eb
          split at eb
          · cases eb; cases el
            exact inInt_of_int (byte_sub c1 c2)
          · cases eb
            obtain ⟨j, -, el⟩ := C.bind_eq_ok el
            exact ih _ el
        · cases el
    exact key _ _ _ el

/-- `mu_bbuf_compare`, mu_bbuf.c:112-114. -/
theorem src_compare (n : Nat) {β : Place} {h : Heap} {m : Mem} {b b2 : Base} {o o2 : Int}
    {B B2 : BBuf} {d : Int} (r : MB β h m) (rb : BRep A β h b o B) (rb2 : BRep A β h b2 o2 B2)
    (hn : (A.toInt B.cap).toNat + 2 ≤ n) (e : BBuf.compare A.toPlat m B B2 = .ok d) :
    sem A X prog (n + 1) .mu_bbuf_compare h [.ptr b o, .ptr b2 o2] = .ok (.int d, h) := by
  obtain ⟨K, rfl⟩ : ∃ K, n = K + 1 := ⟨n - 1, by omega⟩
  rw [sem_succ (d := Src.mu_bbuf_compare) rfl, FunDef.run_regs rfl rfl]
  simp [csrc, Src.mu_bbuf_compare, src_bytes_ro (A := A) (X := X) K rb2,
    src_capacity (A := A) (X := X) K rb2, conv_int_nat B2.cap,
    src_str_compare (A := A) (X := X) K r rb (inInt_toInt B2.cap) (by omega) e]

/-- `mu_bbuf_compare_cstr`, mu_bbuf.c:116-118. -/
theorem src_compare_cstr (n : Nat) {β : Place} {h : Heap} {m : Mem} {b : Base} {o : Int}
    {B : BBuf} {p : Ptr} {d : Int} (r : MB β h m) (rb : BRep A β h b o B)
    (hn : (A.toInt B.cap).toNat + 2 ≤ n) (e : compareCstr A.toPlat m B p = .ok d) :
    sem A X prog (n + 1) .mu_bbuf_compare_cstr h [.ptr b o, pv β p] = .ok (.int d, h) := by
  obtain ⟨K, rfl⟩ : ∃ K, n = K + 1 := ⟨n - 1, by omega⟩
  obtain ⟨k, ek, e⟩ := C.bind_eq_ok e
  rw [sem_succ (d := Src.mu_bbuf_compare_cstr) rfl, FunDef.run_regs rfl rfl]
  simp [csrc, Src.mu_bbuf_compare_cstr, sem_strlen (A := A) (X := X) K, r.strlen ek, conv_int_nat k,
    src_str_compare (A := A) (X := X) K r rb (inInt_toInt k) (by omega) e]

/-- `mu_bbuf_matches`, mu_bbuf.c:166-168. -/
theorem src_matches (n : Nat) {β : Place} {h : Heap} {m : Mem} {b b2 : Base} {o o2 : Int}
    {B B2 : BBuf} {d : Bool} (r : MB β h m) (rb : BRep A β h b o B) (rb2 : BRep A β h b2 o2 B2)
    (hn : (A.toInt B.cap).toNat + 2 ≤ n) (e : bmatches A.toPlat m B B2 = .ok d) :
    sem A X prog (n + 1) .mu_bbuf_matches h [.ptr b o, .ptr b2 o2] = .ok (.ofBool d, h) := by
  obtain ⟨K, rfl⟩ : ∃ K, n = K + 1 := ⟨n - 1, by omega⟩
  obtain ⟨x, ex, e⟩ := C.bind_eq_ok e
  cases e
  have hx : A.InInt x := strCompareAux_inInt ex
  rw [sem_succ (d := Src.mu_bbuf_matches) rfl, FunDef.run_regs rfl rfl]
  simp [csrc, Src.mu_bbuf_matches, src_bytes_ro (A := A) (X := X) K rb2,
    src_capacity (A := A) (X := X) K rb2, conv_int_nat B2.cap, conv_int hx,
    src_str_compare (A := A) (X := X) K r rb (inInt_toInt B2.cap) (by omega) ex]

/-- `mu_bbuf_matches_cstr`, mu_bbuf.c:170-172. -/
theorem src_matches_cstr (n : Nat) {β : Place} {h : Heap} {m : Mem} {b : Base} {o : Int}
    {B : BBuf} {p : Ptr} {d : Bool} (r : MB β h m) (rb : BRep A β h b o B)
    (hn : (A.toInt B.cap).toNat + 2 ≤ n) (e : bmatchesCstr A.toPlat m B p = .ok d) :
    sem A X prog (n + 1) .mu_bbuf_matches_cstr h [.ptr b o, pv β p] = .ok (.ofBool d, h) := by
  obtain ⟨K, rfl⟩ : ∃ K, n = K + 1 := ⟨n - 1, by omega⟩
  obtain ⟨k, ek, e⟩ := C.bind_eq_ok e
  obtain ⟨x, ex, e⟩ := C.bind_eq_ok e
  cases e
  have hx : A.InInt x := strCompareAux_inInt ex
  rw [sem_succ (d := Src.mu_bbuf_matches_cstr) rfl, FunDef.run_regs rfl rfl]
  simp [csrc, Src.mu_bbuf_matches_cstr, sem_strlen (A := A) (X := X) K, r.strlen ek, conv_int_nat k,
    conv_int hx, src_str_compare (A := A) (X := X) K r rb (inInt_toInt k) (by omega) ex]

/-! ## Prefix and suffix -/

theorem byte_ne (c d : UInt8) : ((c.toNat : Int) = d.toNat) = (c = d) := byte_eq c d

theorem src_has_prefix_aux (n : Nat) {β : Place} {h : Heap} {m : Mem} {b : Base} {o : Int} {B : BBuf}
    {p2 : Ptr} {len2 : Int} {d : Bool} (r : MB β h m) (rb : BRep A β h b o B) (hl : A.InInt len2)
    (hn : (A.toInt B.cap).toNat + 1 ≤ n)
    (e : hasPrefixAux A.toPlat m B p2 len2 = .ok d) :
    sem A X prog (n + 1) .has_prefix__bbuf h [.ptr b o, pv β p2, .int len2] = .ok (.ofBool d, h) := by
  obtain ⟨K, rfl⟩ : ∃ K, n = K + 1 := ⟨n - 1, by omega⟩
  have s1 := src_bytes_ro (A := A) (X := X) K rb
  have s2 := src_capacity (A := A) (X := X) K rb
  have hl1 : A.InInt (A.toInt B.cap) := inInt_toInt _
  rw [sem_succ (d := Src.has_prefix__bbuf) rfl, FunDef.run_regs rfl rfl]
  generalize hK : (⟨sem A X prog (K + 1), X.cb (sem A X prog (K + 1))⟩ : Calls) = KK
  have s1' : KK.fn .mu_bbuf_bytes_ro h [.ptr b o] = .ok (pv β B.p, h) := by rw [← hK]; exact s1
  have s2' : KK.fn .mu_bbuf_capacity h [.ptr b o] = .ok (.int B.cap, h) := by rw [← hK]; exact s2
  unfold hasPrefixAux at e
  dsimp only at e
  split at e
  · rename_i h0
    cases e
    have h0' : (len2 = 0) = True := eq_true h0
    simp [csrc, Src.has_prefix__bbuf, s1', s2', conv_int_nat B.cap, conv_int hl, h0']
  · rename_i h0
    split at e
    · rename_i h1
      cases e
      simp [csrc, Src.has_prefix__bbuf, s1', s2', conv_int_nat B.cap, conv_int hl, h0, h1]
    · rename_i h1
      obtain ⟨⟨rr, i'⟩, el, e⟩ := C.bind_eq_ok e
      cases e
      have loop := rounds_forLoop (A := A) (K := KK) (N := K + 1) (l := Src.has_prefix__bbuf_loop1)
        (R := fun i s => A.InInt i ∧ s = ⟨[.ptr b o, pv β (plus p2 i), .int len2, pv β (plus B.p i),
          .int (A.toInt B.cap), .int i], h⟩)
        (Q := fun x i f s => A.InInt i ∧ f = .next ∧ ∃ v1 v3, s = ⟨[.ptr b o, v1, .int len2, v3,
          .int (A.toInt B.cap), .int i], h⟩) ?_ ?_ ?_ _ (K + 1) 0 i'
        ⟨[.ptr b o, pv β p2, .int len2, pv β B.p, .int (A.toInt B.cap), .int 0], h⟩ rr
        (by omega) ⟨inInt_zero, by rw [plus_zero, plus_zero]⟩ el
      · obtain ⟨f, s', hs, hr⟩ := loop
        have hs' : exec A KK (K + 1) Src.has_prefix__bbuf_loop1 _ = _ := hs
        have hr' : A.InInt i' ∧ f = .next ∧ ∃ v1 v3, s' = ⟨[.ptr b o, v1, .int len2, v3,
          .int (A.toInt B.cap), .int i'], h⟩ := by
          cases rr with
          | none => exact ⟨hr.2.1.1, hr.1, _, _, hr.2.1.2⟩
          | some x => exact hr
        obtain ⟨hi', rfl, v1, v3, rfl⟩ := hr'
        simp [csrc, Src.has_prefix__bbuf, s1', s2', conv_int_nat B.cap, conv_int hl, h0, h1, hs',
          conv_int hi']
      · rintro i s ⟨hi, rfl⟩
        by_cases hc : i < A.toInt B.cap <;>
          simp [csrc, Src.has_prefix__bbuf_loop1, Stmt.cond, conv_int hi, conv_int hl1, conv_int hl, hc]
      · rintro i s x ⟨hi, rfl⟩ hc eb
        obtain ⟨c1, e1, eb⟩ := C.bind_eq_ok eb
        obtain ⟨c2, e2, eb⟩ := C.bind_eq_ok eb
        split at eb
        · rename_i hne
          refine ⟨.brk, _, ?_, by simp, hi, rfl, pv β (plus p2 (i + 1)), pv β (plus B.p (i + 1)), rfl⟩
          simp [csrc, Src.has_prefix__bbuf_loop1, Stmt.body, r.load e1, r.load e2, r.padd_succ e1,
            r.padd_succ e2, byte_eq, hne]
        · cases eb
      · rintro i s ⟨hi, rfl⟩ hc eb ej
        obtain ⟨c1, e1, eb⟩ := C.bind_eq_ok eb
        obtain ⟨c2, e2, eb⟩ := C.bind_eq_ok eb
        split at eb
        · cases eb
        · rename_i hne
          have hne' : (c1 = c2) = True := eq_true (Decidable.not_not.mp hne)
          refine ⟨⟨[.ptr b o, pv β (plus p2 (i + 1)), .int len2, pv β (plus B.p (i + 1)),
            .int (A.toInt B.cap), .int i], h⟩, _, ?_, ?_, inInt_of_int ej, rfl⟩
          · simp [csrc, Src.has_prefix__bbuf_loop1, Stmt.body, r.load e1, r.load e2, r.padd_succ e1,
              r.padd_succ e2, byte_eq, hne']
          · simp [csrc, Src.has_prefix__bbuf_loop1, Stmt.step, conv_int hi, ej,
              conv_int (inInt_of_int ej)]

theorem MB.padd_pred {β : Place} {h : Heap} {m : Mem} (r : MB β h m) {p : Ptr} {i : Int} {c : UInt8}
    (e : m.ld p (-(i + 1)) = .ok c) :
    h.padd 1 (pv β (plus p (-i))) (-1) = .ok (pv β (plus p (-(i + 1)))) := by
  have := r.padd (p := plus p (-i)) (i := -1) (q := plus p (-(i + 1))) ?_
  · exact this
  · have := ld_add e
    unfold Mem.add plus at *
    dsimp only at *
    rw [show p.off + -i + -1 = p.off + -(i + 1) by omega]
    exact this

theorem src_has_suffix_aux (n : Nat) {β : Place} {h : Heap} {m : Mem} {b : Base} {o : Int} {B : BBuf}
    {p2 : Ptr} {len2 : Int} {d : Bool} (r : MB β h m) (rb : BRep A β h b o B) (hl : A.InInt len2)
    (hn : (A.toInt B.cap).toNat + 1 ≤ n)
    (e : hasSuffixAux A.toPlat m B p2 len2 = .ok d) :
    sem A X prog (n + 1) .has_suffix__bbuf h [.ptr b o, pv β p2, .int len2] = .ok (.ofBool d, h) := by
  obtain ⟨K, rfl⟩ : ∃ K, n = K + 1 := ⟨n - 1, by omega⟩
  have s1 := src_bytes_ro (A := A) (X := X) K rb
  have s2 := src_capacity (A := A) (X := X) K rb
  have hl1 : A.InInt (A.toInt B.cap) := inInt_toInt _
  rw [sem_succ (d := Src.has_suffix__bbuf) rfl, FunDef.run_regs rfl rfl]
  generalize hK : (⟨sem A X prog (K + 1), X.cb (sem A X prog (K + 1))⟩ : Calls) = KK
  have s1' : KK.fn .mu_bbuf_bytes_ro h [.ptr b o] = .ok (pv β B.p, h) := by rw [← hK]; exact s1
  have s2' : KK.fn .mu_bbuf_capacity h [.ptr b o] = .ok (.int B.cap, h) := by rw [← hK]; exact s2
  unfold hasSuffixAux at e
  dsimp only at e
  split at e
  · rename_i h0
    cases e
    have h0' : (len2 = 0) = True := eq_true h0
    simp [csrc, Src.has_suffix__bbuf, s1', s2', conv_int_nat B.cap, conv_int hl, h0']
  · rename_i h0
    split at e
    · rename_i h1
      cases e
      simp [csrc, Src.has_suffix__bbuf, s1', s2', conv_int_nat B.cap, conv_int hl, h0, h1]
    · rename_i h1
      obtain ⟨q1, a1, e⟩ := C.bind_eq_ok e
      obtain ⟨q2, a2, e⟩ := C.bind_eq_ok e
      obtain ⟨⟨rr, i'⟩, el, e⟩ := C.bind_eq_ok e
      cases e
      have loop := rounds_forLoop (A := A) (K := KK) (N := K + 1) (l := Src.has_suffix__bbuf_loop1)
        (R := fun i s => A.InInt i ∧ s = ⟨[.ptr b o, pv β (plus q2 (-i)), .int len2, pv β (plus q1 (-i)),
          .int (A.toInt B.cap), .int i], h⟩)
        (Q := fun x i f s => A.InInt i ∧ f = .next ∧ ∃ v1 v3, s = ⟨[.ptr b o, v1, .int len2, v3,
          .int (A.toInt B.cap), .int i], h⟩) ?_ ?_ ?_ _ (K + 1) 0 i'
        ⟨[.ptr b o, pv β q2, .int len2, pv β q1, .int (A.toInt B.cap), .int 0], h⟩ rr
        (by omega) ⟨inInt_zero, by rw [Int.neg_zero, plus_zero, plus_zero]⟩ el
      · obtain ⟨f, s', hs, hr⟩ := loop
        have hs' : exec A KK (K + 1) Src.has_suffix__bbuf_loop1 _ = _ := hs
        have hr' : A.InInt i' ∧ f = .next ∧ ∃ v1 v3, s' = ⟨[.ptr b o, v1, .int len2, v3,
          .int (A.toInt B.cap), .int i'], h⟩ := by
          cases rr with
          | none => exact ⟨hr.2.1.1, hr.1, _, _, hr.2.1.2⟩
          | some x => exact hr
        obtain ⟨hi', rfl, v1, v3, rfl⟩ := hr'
        simp [csrc, Src.has_suffix__bbuf, s1', s2', conv_int_nat B.cap, conv_int hl, h0, h1, hs',
          conv_int hi', r.padd a1, r.padd a2]
      · rintro i s ⟨hi, rfl⟩
        by_cases hc : i < A.toInt B.cap <;>
          simp [csrc, Src.has_suffix__bbuf_loop1, Stmt.cond, conv_int hi, conv_int hl1, conv_int hl, hc]
      · rintro i s x ⟨hi, rfl⟩ hc eb
        obtain ⟨c1, e1, eb⟩ := C.bind_eq_ok eb
        obtain ⟨c2, e2, eb⟩ := C.bind_eq_ok eb
        split at eb
        · rename_i hne
          refine ⟨.brk, _, ?_, by simp, hi, rfl, pv β (plus q2 (-(i + 1))), pv β (plus q1 (-(i + 1))), rfl⟩
          simp [csrc, Src.has_suffix__bbuf_loop1, Stmt.body, r.load e1, r.load e2, r.padd_pred e1,
            r.padd_pred e2, byte_eq, hne, -Int.neg_add]
        · cases eb
      · rintro i s ⟨hi, rfl⟩ hc eb ej
        obtain ⟨c1, e1, eb⟩ := C.bind_eq_ok eb
        obtain ⟨c2, e2, eb⟩ := C.bind_eq_ok eb
        split at eb
        · cases eb
        · rename_i hne
          have hne' : (c1 = c2) = True := eq_true (Decidable.not_not.mp hne)
          refine ⟨⟨[.ptr b o, pv β (plus q2 (-(i + 1))), .int len2, pv β (plus q1 (-(i + 1))),
            .int (A.toInt B.cap), .int i], h⟩, _, ?_, ?_, inInt_of_int ej, rfl⟩
          · simp [csrc, Src.has_suffix__bbuf_loop1, Stmt.body, r.load e1, r.load e2, r.padd_pred e1,
              r.padd_pred e2, byte_eq, hne', -Int.neg_add]
          · simp [csrc, Src.has_suffix__bbuf_loop1, Stmt.step, conv_int hi, ej,
              conv_int (inInt_of_int ej), -Int.neg_add]

end Mu.CS
