import Verif.Lemmas.SrcBBuf

/-! # Searching: the parsed source of mu_bbuf.c and the model -/

namespace Mu.CS

open BBuf

variable {A : Arch} {X : Ext}

theorem src_has_prefix (n : Nat) {β : Place} {h : Heap} {m : Mem} {b b2 : Base} {o o2 : Int}
    {B B2 : BBuf} {d : Bool} (r : MB β h m) (rb : BRep A β h b o B) (rb2 : BRep A β h b2 o2 B2)
    (hn : (A.toInt B.cap).toNat + 2 ≤ n) (e : hasPrefix A.toPlat m B B2 = .ok d) :
    sem A X prog (n + 1) .mu_bbuf_has_prefix h [.ptr b o, .ptr b2 o2] = .ok (.ofBool d, h) := by
  obtain ⟨K, rfl⟩ : ∃ K, n = K + 1 := ⟨n - 1, by omega⟩
  rw [sem_succ (d := Src.mu_bbuf_has_prefix) rfl, FunDef.run_regs rfl rfl]
  simp [csrc, Src.mu_bbuf_has_prefix, src_bytes_ro (A := A) (X := X) K rb2,
    src_capacity (A := A) (X := X) K rb2, conv_int_nat B2.cap,
    src_has_prefix_aux (A := A) (X := X) K r rb (inInt_toInt B2.cap) (by omega) e]

theorem src_has_prefix_cstr (n : Nat) {β : Place} {h : Heap} {m : Mem} {b : Base} {o : Int}
    {B : BBuf} {p : Ptr} {d : Bool} (r : MB β h m) (rb : BRep A β h b o B)
    (hn : (A.toInt B.cap).toNat + 2 ≤ n) (e : hasPrefixCstr A.toPlat m B p = .ok d) :
    sem A X prog (n + 1) .mu_bbuf_has_prefix_cstr h [.ptr b o, pv β p] = .ok (.ofBool d, h) := by
  obtain ⟨K, rfl⟩ : ∃ K, n = K + 1 := ⟨n - 1, by omega⟩
  obtain ⟨k, ek, e⟩ := C.bind_eq_ok e
  rw [sem_succ (d := Src.mu_bbuf_has_prefix_cstr) rfl, FunDef.run_regs rfl rfl]
  simp [csrc, Src.mu_bbuf_has_prefix_cstr, sem_strlen (A := A) (X := X) K, r.strlen ek, conv_int_nat k,
    src_has_prefix_aux (A := A) (X := X) K r rb (inInt_toInt k) (by omega) e]

theorem src_has_suffix (n : Nat) {β : Place} {h : Heap} {m : Mem} {b b2 : Base} {o o2 : Int}
    {B B2 : BBuf} {d : Bool} (r : MB β h m) (rb : BRep A β h b o B) (rb2 : BRep A β h b2 o2 B2)
    (hn : (A.toInt B.cap).toNat + 2 ≤ n) (e : hasSuffix A.toPlat m B B2 = .ok d) :
    sem A X prog (n + 1) .mu_bbuf_has_suffix h [.ptr b o, .ptr b2 o2] = .ok (.ofBool d, h) := by
  obtain ⟨K, rfl⟩ : ∃ K, n = K + 1 := ⟨n - 1, by omega⟩
  rw [sem_succ (d := Src.mu_bbuf_has_suffix) rfl, FunDef.run_regs rfl rfl]
  simp [csrc, Src.mu_bbuf_has_suffix, src_bytes_ro (A := A) (X := X) K rb2,
    src_capacity (A := A) (X := X) K rb2, conv_int_nat B2.cap,
    src_has_suffix_aux (A := A) (X := X) K r rb (inInt_toInt B2.cap) (by omega) e]

theorem src_has_suffix_cstr (n : Nat) {β : Place} {h : Heap} {m : Mem} {b : Base} {o : Int}
    {B : BBuf} {p : Ptr} {d : Bool} (r : MB β h m) (rb : BRep A β h b o B)
    (hn : (A.toInt B.cap).toNat + 2 ≤ n) (e : hasSuffixCstr A.toPlat m B p = .ok d) :
    sem A X prog (n + 1) .mu_bbuf_has_suffix_cstr h [.ptr b o, pv β p] = .ok (.ofBool d, h) := by
  obtain ⟨K, rfl⟩ : ∃ K, n = K + 1 := ⟨n - 1, by omega⟩
  obtain ⟨k, ek, e⟩ := C.bind_eq_ok e
  rw [sem_succ (d := Src.mu_bbuf_has_suffix_cstr) rfl, FunDef.run_regs rfl rfl]
  simp [csrc, Src.mu_bbuf_has_suffix_cstr, sem_strlen (A := A) (X := X) K, r.strlen ek, conv_int_nat k,
    src_has_suffix_aux (A := A) (X := X) K r rb (inInt_toInt k) (by omega) e]

/-! ## Substrings -/

/-- The locals of the two search functions. -/
abbrev findLoc (β : Place) (b : Base) (o : Int) (sub : Ptr) (len : Int) (skip : Bool) (hay : Ptr)
    (hl : Int) (v6 : CVal) (i : Int) (v8 : CVal) : List CVal :=
  [.ptr b o, pv β sub, .int len, .ofBool skip, pv β hay, .int hl, v6, .int i, v8]

/-- One round of the search, mu_bbuf.c:555-568. -/
theorem src_find_body (K : Calls) (N : Nat) {β : Place} {h : Heap} {m : Mem} {b : Base} {o : Int}
    {sub hay : Ptr} {len hl i : Int} {skip : Bool} {x : Option Int} (v6 v8 : CVal)
    (r : MB β h m) (hlen : A.InInt len) (hi : A.InInt i) (hn : len.toNat ≤ N)
    (e : findBody A.toPlat m hay sub len skip i = .ok x) :
    ∃ v6' v8', exec A K N Src.mu_bbuf_find_aux__bbuf_loop2.body
        ⟨findLoc β b o sub len skip hay hl v6 i v8, h⟩ =
      .ok (match x with | some v => .ret (.int v) | none => .next,
        ⟨findLoc β b o sub len skip hay hl v6' i v8', h⟩) := by
  unfold findBody at e
  obtain ⟨h2, a2, e⟩ := C.bind_eq_ok e
  obtain ⟨c1, e1, e⟩ := C.bind_eq_ok e
  obtain ⟨c2, e2, e⟩ := C.bind_eq_ok e
  have l1 := r.load e1
  have l2 := r.load e2
  rw [plus_zero] at l1 l2
  have p2 := r.padd a2
  split at e
  · rename_i hc
    have hc' : (c1 = c2) = True := eq_true hc
    obtain ⟨⟨rr, j'⟩, el, e⟩ := C.bind_eq_ok e
    dsimp only at e
    have loop := rounds_forLoop (A := A) (K := K) (N := N) (l := Src.mu_bbuf_find_aux__bbuf_loop1)
      (R := fun j s => A.InInt j ∧ s = ⟨findLoc β b o sub len skip hay hl (.int j) i (pv β h2), h⟩)
      (Q := fun x j f s => A.InInt j ∧ f = .next ∧
        s = ⟨findLoc β b o sub len skip hay hl (.int j) i (pv β h2), h⟩) ?_ ?_ ?_ _ N 1 j'
      ⟨findLoc β b o sub len skip hay hl (.int 1) i (pv β h2), h⟩ rr
      hn ⟨inInt_one, rfl⟩ el
    · obtain ⟨f, s', hs, hr⟩ := loop
      have hs' : exec A K N Src.mu_bbuf_find_aux__bbuf_loop1 _ = _ := hs
      have hr' : A.InInt j' ∧ f = .next ∧
          s' = ⟨findLoc β b o sub len skip hay hl (.int j') i (pv β h2), h⟩ := by
        cases rr with
        | none => exact ⟨hr.2.1.1, hr.1, hr.2.1.2⟩
        | some x => exact hr
      obtain ⟨hj', rfl, rfl⟩ := hr'
      split at e
      · rename_i hj
        have hj2 : (j' = len) = True := eq_true hj
        cases skip with
        | true =>
          simp only [if_true] at e
          obtain ⟨v, ev, e⟩ := C.bind_eq_ok e
          cases e
          refine ⟨.int j', pv β h2, ?_⟩
          simp [csrc, Src.mu_bbuf_find_aux__bbuf_loop2, Stmt.body, p2, l1, l2, byte_eq, hc', hs',
            conv_int hj', conv_int hlen, hj2, conv_int hi, ev]
        | false =>
          simp only [Bool.false_eq_true, if_false] at e
          cases e
          refine ⟨.int j', pv β h2, ?_⟩
          simp [csrc, Src.mu_bbuf_find_aux__bbuf_loop2, Stmt.body, p2, l1, l2, byte_eq, hc', hs',
            conv_int hj', conv_int hlen, hj2]
      · rename_i hj
        cases e
        refine ⟨.int j', pv β h2, ?_⟩
        simp [csrc, Src.mu_bbuf_find_aux__bbuf_loop2, Stmt.body, p2, l1, l2, byte_eq, hc', hs',
            conv_int hj', conv_int hlen, hj]
    · rintro j s ⟨hj, rfl⟩
      simp [csrc, Src.mu_bbuf_find_aux__bbuf_loop1, Stmt.cond, conv_int hj, conv_int hlen]
    · rintro j s x ⟨hj, rfl⟩ hcj eb
      obtain ⟨d1, f1, eb⟩ := C.bind_eq_ok eb
      obtain ⟨d2, f2, eb⟩ := C.bind_eq_ok eb
      split at eb
      · rename_i hne
        refine ⟨.brk, _, ?_, by simp, hj, rfl, rfl⟩
        simp [csrc, Src.mu_bbuf_find_aux__bbuf_loop1, Stmt.body, r.load f1, r.load f2, r.padd_ld f1,
          r.padd_ld f2, byte_eq, hne]
      · cases eb
    · rintro j s ⟨hj, rfl⟩ hcj eb ej
      obtain ⟨d1, f1, eb⟩ := C.bind_eq_ok eb
      obtain ⟨d2, f2, eb⟩ := C.bind_eq_ok eb
      split at eb
      · cases eb
      · rename_i hne
        have hne' : (d1 = d2) = True := eq_true (Decidable.not_not.mp hne)
        refine ⟨⟨findLoc β b o sub len skip hay hl (.int j) i (pv β h2), h⟩, _, ?_, ?_,
          inInt_of_int ej, rfl⟩
        · simp [csrc, Src.mu_bbuf_find_aux__bbuf_loop1, Stmt.body, r.load f1, r.load f2, r.padd_ld f1,
            r.padd_ld f2, byte_eq, hne']
        · simp [csrc, Src.mu_bbuf_find_aux__bbuf_loop1, Stmt.step, conv_int hj, ej,
            conv_int (inInt_of_int ej)]
  · rename_i hc
    cases e
    refine ⟨v6, pv β h2, ?_⟩
    simp [csrc, Src.mu_bbuf_find_aux__bbuf_loop2, Stmt.body, p2, l1, l2, byte_eq, hc]

theorem src_find_aux (n : Nat) {β : Place} {h : Heap} {m : Mem} {b : Base} {o : Int} {B : BBuf}
    {sub : Ptr} {len d : Int} {skip : Bool} (r : MB β h m) (rb : BRep A β h b o B) (hl : A.InInt len)
    (hlp : 0 ≤ len) (hln : len.toNat ≤ n)
    (hn : (A.toInt B.cap).toNat + 2 ≤ n)
    (e : findAux A.toPlat m B sub len skip = .ok d) :
    sem A X prog (n + 1) .mu_bbuf_find_aux__bbuf h [.ptr b o, pv β sub, .int len, .ofBool skip] =
      .ok (.int d, h) := by
  obtain ⟨K, rfl⟩ : ∃ K, n = K + 1 := ⟨n - 1, by omega⟩
  have s1 := src_bytes_ro (A := A) (X := X) K rb
  have s2 := src_capacity (A := A) (X := X) K rb
  have hl1 : A.InInt (A.toInt B.cap) := inInt_toInt _
  rw [sem_succ (d := Src.mu_bbuf_find_aux__bbuf) rfl, FunDef.run_regs rfl rfl]
  generalize hK : (⟨sem A X prog (K + 1), X.cb (sem A X prog (K + 1))⟩ : Calls) = KK
  have s1' : KK.fn .mu_bbuf_bytes_ro h [.ptr b o] = .ok (pv β B.p, h) := by rw [← hK]; exact s1
  have s2' : KK.fn .mu_bbuf_capacity h [.ptr b o] = .ok (.int B.cap, h) := by rw [← hK]; exact s2
  unfold findAux at e
  dsimp only at e
  split at e
  · rename_i h0
    cases e
    have h0' : (len = 0) = True := eq_true h0
    simp [csrc, Src.mu_bbuf_find_aux__bbuf, s1', s2', conv_int_nat B.cap, conv_int hl, h0']
  · rename_i h0
    obtain ⟨lim, elim, e⟩ := C.bind_eq_ok e
    obtain ⟨⟨rr, i'⟩, el, e⟩ := C.bind_eq_ok e
    have hlim := inInt_of_int elim
    have hlim2 : (lim + 1).toNat + 1 ≤ K + 1 := by
      obtain ⟨rfl, -⟩ := int_eq_ok elim
      omega
    have loop := rounds_forLoop (A := A) (K := KK) (N := K + 1) (l := Src.mu_bbuf_find_aux__bbuf_loop2)
      (R := fun i s => A.InInt i ∧ ∃ v6 v8, s = ⟨findLoc β b o sub len skip B.p (A.toInt B.cap) v6 i v8, h⟩)
      (Q := fun x i f s => f = .ret (.int x) ∧ s.h = h) ?_ ?_ ?_ _ (K + 1) 0 i'
      ⟨findLoc β b o sub len skip B.p (A.toInt B.cap) .undef 0 .undef, h⟩ rr
      hlim2 ⟨inInt_zero, _, _, rfl⟩ el
    · obtain ⟨f, s', hs, hr⟩ := loop
      have hs' : exec A KK (K + 1) Src.mu_bbuf_find_aux__bbuf_loop2 _ = _ := hs
      cases rr with
      | some x =>
        cases e
        obtain ⟨rfl, hh⟩ := hr
        simp [csrc, Src.mu_bbuf_find_aux__bbuf, s1', s2', conv_int_nat B.cap, conv_int hl, h0, hs', hh]
      | none =>
        cases e
        obtain ⟨rfl, ⟨hi', v6, v8, rfl⟩, -⟩ := hr
        simp [csrc, Src.mu_bbuf_find_aux__bbuf, s1', s2', conv_int_nat B.cap, conv_int hl, h0, hs',
          NOT_FOUND]
    · rintro i s ⟨hi, v6, v8, rfl⟩
      simp [csrc, Src.mu_bbuf_find_aux__bbuf_loop2, Stmt.cond, conv_int hi, conv_int hl1, conv_int hl,
        elim, conv_int hlim]
    · rintro i s x ⟨hi, v6, v8, rfl⟩ hc eb
      obtain ⟨v6', v8', hb⟩ := src_find_body (A := A) (b := b) (o := o) (hl := A.toInt B.cap) KK
        (K + 1) v6 v8 r hl hi hln eb
      exact ⟨_, _, hb, by simp, rfl, rfl⟩
    · rintro i s ⟨hi, v6, v8, rfl⟩ hc eb ej
      obtain ⟨v6', v8', hb⟩ := src_find_body (A := A) (b := b) (o := o) (hl := A.toInt B.cap) KK
        (K + 1) v6 v8 r hl hi hln eb
      refine ⟨_, ⟨findLoc β b o sub len skip B.p (A.toInt B.cap) v6' (i + 1) v8', h⟩, hb, ?_,
        inInt_of_int ej, _, _, rfl⟩
      simp [csrc, Src.mu_bbuf_find_aux__bbuf_loop2, Stmt.step, conv_int hi, ej,
            conv_int (inInt_of_int ej)]

theorem src_rfind_aux (n : Nat) {β : Place} {h : Heap} {m : Mem} {b : Base} {o : Int} {B : BBuf}
    {sub : Ptr} {len d : Int} {skip : Bool} (r : MB β h m) (rb : BRep A β h b o B) (hl : A.InInt len)
    (hlp : 0 ≤ len) (hln : len.toNat ≤ n)
    (hn : (A.toInt B.cap).toNat + 2 ≤ n)
    (e : rfindAux A.toPlat m B sub len skip = .ok d) :
    sem A X prog (n + 1) .mu_bbuf_rfind_aux__bbuf h [.ptr b o, pv β sub, .int len, .ofBool skip] =
      .ok (.int d, h) := by
  obtain ⟨K, rfl⟩ : ∃ K, n = K + 1 := ⟨n - 1, by omega⟩
  have s1 := src_bytes_ro (A := A) (X := X) K rb
  have s2 := src_capacity (A := A) (X := X) K rb
  have hl1 : A.InInt (A.toInt B.cap) := inInt_toInt _
  rw [sem_succ (d := Src.mu_bbuf_rfind_aux__bbuf) rfl, FunDef.run_regs rfl rfl]
  generalize hK : (⟨sem A X prog (K + 1), X.cb (sem A X prog (K + 1))⟩ : Calls) = KK
  have s1' : KK.fn .mu_bbuf_bytes_ro h [.ptr b o] = .ok (pv β B.p, h) := by rw [← hK]; exact s1
  have s2' : KK.fn .mu_bbuf_capacity h [.ptr b o] = .ok (.int B.cap, h) := by rw [← hK]; exact s2
  unfold rfindAux at e
  dsimp only at e
  split at e
  · rename_i h0
    cases e
    have h0' : (len = 0) = True := eq_true h0
    simp [csrc, Src.mu_bbuf_rfind_aux__bbuf, s1', s2', conv_int_nat B.cap, conv_int hl, h0']
  · rename_i h0
    obtain ⟨lim, elim, e⟩ := C.bind_eq_ok e
    obtain ⟨⟨rr, i'⟩, el, e⟩ := C.bind_eq_ok e
    have hlim := inInt_of_int elim
    have hlim2 : (lim + 1).toNat + 1 ≤ K + 1 := by
      obtain ⟨rfl, -⟩ := int_eq_ok elim
      omega
    have loop := rounds_forLoop (A := A) (K := KK) (N := K + 1) (l := Src.mu_bbuf_rfind_aux__bbuf_loop2)
      (R := fun i s => A.InInt i ∧ ∃ v6 v8, s = ⟨findLoc β b o sub len skip B.p (A.toInt B.cap) v6 i v8, h⟩)
      (Q := fun x i f s => f = .ret (.int x) ∧ s.h = h) ?_ ?_ ?_ _ (K + 1) lim i'
      ⟨findLoc β b o sub len skip B.p (A.toInt B.cap) .undef lim .undef, h⟩ rr
      hlim2 ⟨hlim, _, _, rfl⟩ el
    · obtain ⟨f, s', hs, hr⟩ := loop
      have hs' : exec A KK (K + 1) Src.mu_bbuf_rfind_aux__bbuf_loop2 _ = _ := hs
      cases rr with
      | some x =>
        cases e
        obtain ⟨rfl, hh⟩ := hr
        simp [csrc, Src.mu_bbuf_rfind_aux__bbuf, s1', s2', conv_int_nat B.cap, conv_int hl, h0, elim,
          hs', hh]
      | none =>
        cases e
        obtain ⟨rfl, ⟨hi', v6, v8, rfl⟩, -⟩ := hr
        simp [csrc, Src.mu_bbuf_rfind_aux__bbuf, s1', s2', conv_int_nat B.cap, conv_int hl, h0, elim,
          hs', NOT_FOUND]
    · rintro i s ⟨hi, v6, v8, rfl⟩
      simp [csrc, Src.mu_bbuf_rfind_aux__bbuf_loop2, Stmt.cond, conv_int hi]
    · rintro i s x ⟨hi, v6, v8, rfl⟩ hc eb
      obtain ⟨v6', v8', hb⟩ := src_find_body (A := A) (b := b) (o := o) (hl := A.toInt B.cap) KK
        (K + 1) v6 v8 r hl hi hln eb
      exact ⟨_, _, hb, by simp, rfl, rfl⟩
    · rintro i s ⟨hi, v6, v8, rfl⟩ hc eb ej
      obtain ⟨v6', v8', hb⟩ := src_find_body (A := A) (b := b) (o := o) (hl := A.toInt B.cap) KK
        (K + 1) v6 v8 r hl hi hln eb
      have ej' : A.int (i - 1) = .ok (i - 1) := ej
      refine ⟨_, ⟨findLoc β b o sub len skip B.p (A.toInt B.cap) v6' (i + -1) v8', h⟩, hb, ?_,
        inInt_of_int ej, _, _, rfl⟩
      simp [csrc, Src.mu_bbuf_rfind_aux__bbuf_loop2, Stmt.step, conv_int hi, ej',
            conv_int (inInt_of_int ej')]
      rfl

theorem src_find_substr (n : Nat) {β : Place} {h : Heap} {m : Mem} {b b2 : Base} {o o2 : Int}
    {B B2 : BBuf} {d : Int} {skip : Bool} (r : MB β h m) (rb : BRep A β h b o B)
    (rb2 : BRep A β h b2 o2 B2) (hp : 0 ≤ A.toInt B2.cap) (hn : (A.toInt B.cap).toNat + 3 ≤ n)
    (hn2 : (A.toInt B2.cap).toNat + 1 ≤ n) (e : findSubstr A.toPlat m B B2 skip = .ok d) :
    sem A X prog (n + 1) .mu_bbuf_find_substr h [.ptr b o, .ptr b2 o2, .ofBool skip] =
      .ok (.int d, h) := by
  obtain ⟨K, rfl⟩ : ∃ K, n = K + 1 := ⟨n - 1, by omega⟩
  rw [sem_succ (d := Src.mu_bbuf_find_substr) rfl, FunDef.run_regs rfl rfl]
  simp [csrc, Src.mu_bbuf_find_substr, src_bytes_ro (A := A) (X := X) K rb2,
    src_capacity (A := A) (X := X) K rb2, conv_int_nat B2.cap,
    src_find_aux (A := A) (X := X) K r rb (inInt_toInt B2.cap) hp (by omega) (by omega) e]

theorem src_find_subcstr (n : Nat) {β : Place} {h : Heap} {m : Mem} {b : Base} {o : Int}
    {B : BBuf} {p : Ptr} {k : Nat} {d : Int} {skip : Bool} (r : MB β h m) (rb : BRep A β h b o B)
    (ek : m.strlen p = .ok k) (hp : 0 ≤ A.toInt k) (hn : (A.toInt B.cap).toNat + 3 ≤ n)
    (hn2 : (A.toInt k).toNat + 1 ≤ n) (e : findSubcstr A.toPlat m B p skip = .ok d) :
    sem A X prog (n + 1) .mu_bbuf_find_subcstr h [.ptr b o, pv β p, .ofBool skip] =
      .ok (.int d, h) := by
  obtain ⟨K, rfl⟩ : ∃ K, n = K + 1 := ⟨n - 1, by omega⟩
  unfold findSubcstr at e
  rw [ek, C.ok_bind] at e
  rw [sem_succ (d := Src.mu_bbuf_find_subcstr) rfl, FunDef.run_regs rfl rfl]
  simp [csrc, Src.mu_bbuf_find_subcstr, sem_strlen (A := A) (X := X) K, r.strlen ek, conv_int_nat k,
    src_find_aux (A := A) (X := X) K r rb (inInt_toInt k) hp (by omega) (by omega) e]

theorem src_rfind_substr (n : Nat) {β : Place} {h : Heap} {m : Mem} {b b2 : Base} {o o2 : Int}
    {B B2 : BBuf} {d : Int} {skip : Bool} (r : MB β h m) (rb : BRep A β h b o B)
    (rb2 : BRep A β h b2 o2 B2) (hp : 0 ≤ A.toInt B2.cap) (hn : (A.toInt B.cap).toNat + 3 ≤ n)
    (hn2 : (A.toInt B2.cap).toNat + 1 ≤ n) (e : rfindSubstr A.toPlat m B B2 skip = .ok d) :
    sem A X prog (n + 1) .mu_bbuf_rfind_substr h [.ptr b o, .ptr b2 o2, .ofBool skip] =
      .ok (.int d, h) := by
  obtain ⟨K, rfl⟩ : ∃ K, n = K + 1 := ⟨n - 1, by omega⟩
  rw [sem_succ (d := Src.mu_bbuf_rfind_substr) rfl, FunDef.run_regs rfl rfl]
  simp [csrc, Src.mu_bbuf_rfind_substr, src_bytes_ro (A := A) (X := X) K rb2,
    src_capacity (A := A) (X := X) K rb2, conv_int_nat B2.cap,
    src_rfind_aux (A := A) (X := X) K r rb (inInt_toInt B2.cap) hp (by omega) (by omega) e]

theorem src_rfind_subcstr (n : Nat) {β : Place} {h : Heap} {m : Mem} {b : Base} {o : Int}
    {B : BBuf} {p : Ptr} {k : Nat} {d : Int} {skip : Bool} (r : MB β h m) (rb : BRep A β h b o B)
    (ek : m.strlen p = .ok k) (hp : 0 ≤ A.toInt k) (hn : (A.toInt B.cap).toNat + 3 ≤ n)
    (hn2 : (A.toInt k).toNat + 1 ≤ n) (e : rfindSubcstr A.toPlat m B p skip = .ok d) :
    sem A X prog (n + 1) .mu_bbuf_rfind_subcstr h [.ptr b o, pv β p, .ofBool skip] =
      .ok (.int d, h) := by
  obtain ⟨K, rfl⟩ : ∃ K, n = K + 1 := ⟨n - 1, by omega⟩
  unfold rfindSubcstr at e
  rw [ek, C.ok_bind] at e
  rw [sem_succ (d := Src.mu_bbuf_rfind_subcstr) rfl, FunDef.run_regs rfl rfl]
  simp [csrc, Src.mu_bbuf_rfind_subcstr, sem_strlen (A := A) (X := X) K, r.strlen ek, conv_int_nat k,
    src_rfind_aux (A := A) (X := X) K r rb (inInt_toInt k) hp (by omega) (by omega) e]

/-! ## Bytes -/

theorem src_find_byte (n : Nat) {β : Place} {h : Heap} {m : Mem} {b : Base} {o : Int} {B : BBuf}
    {c : UInt8} {d : Int} (r : MB β h m) (rb : BRep A β h b o B) (hn : B.cap + 1 ≤ n)
    (e : findByte A.toPlat m B c = .ok d) :
    sem A X prog (n + 1) .mu_bbuf_find_byte h [.ptr b o, .int c.toNat] = .ok (.int d, h) := by
  rw [sem_succ (d := Src.mu_bbuf_find_byte) rfl, FunDef.run_regs rfl rfl]
  generalize (⟨sem A X prog n, X.cb (sem A X prog n)⟩ : Calls) = KK
  unfold findByte at e
  obtain ⟨⟨rr, i'⟩, el, e⟩ := C.bind_eq_ok e
  have loop := rounds_forLoop (A := A) (K := KK) (N := n) (l := Src.mu_bbuf_find_byte_loop1)
    (R := fun i s => A.InInt i ∧ s = ⟨[.ptr b o, .int c.toNat, .int i], h⟩)
    (Q := fun x i f s => f = .ret (.int x) ∧ s.h = h) ?_ ?_ ?_ _ n 0 i'
    ⟨[.ptr b o, .int c.toNat, .int 0], h⟩ rr hn ⟨inInt_zero, rfl⟩ el
  · obtain ⟨f, s', hs, hr⟩ := loop
    have hs' : exec A KK n Src.mu_bbuf_find_byte_loop1 _ = _ := hs
    cases rr with
    | some x =>
      cases e
      obtain ⟨rfl, hh⟩ := hr
      simp [csrc, Src.mu_bbuf_find_byte, hs', hh]
    | none =>
      cases e
      obtain ⟨rfl, ⟨hi', rfl⟩, -⟩ := hr
      simp [csrc, Src.mu_bbuf_find_byte, hs', NOT_FOUND]
  · rintro i s ⟨hi, rfl⟩
    simp [csrc, Src.mu_bbuf_find_byte_loop1, Stmt.cond, rb.cap, conv_size_int i, conv_size_lt rb.lt]
  · rintro i s x ⟨hi, rfl⟩ hc eb
    obtain ⟨c1, e1, eb⟩ := C.bind_eq_ok eb
    split at eb
    · rename_i heq
      cases eb
      have heq' : (c1 = c) = True := eq_true heq
      refine ⟨.ret (.int i), ⟨[.ptr b o, .int c.toNat, .int i], h⟩, ?_, by simp, rfl, rfl⟩
      simp [csrc, Src.mu_bbuf_find_byte_loop1, Stmt.body, rb.ptr, r.padd_ld e1, r.load e1, byte_eq, heq']
    · cases eb
  · rintro i s ⟨hi, rfl⟩ hc eb ej
    obtain ⟨c1, e1, eb⟩ := C.bind_eq_ok eb
    split at eb
    · cases eb
    · rename_i hne
      refine ⟨⟨[.ptr b o, .int c.toNat, .int i], h⟩, _, ?_, ?_, inInt_of_int ej, rfl⟩
      · simp [csrc, Src.mu_bbuf_find_byte_loop1, Stmt.body, rb.ptr, r.padd_ld e1, r.load e1, byte_eq, hne]
      · simp [csrc, Src.mu_bbuf_find_byte_loop1, Stmt.step, conv_int hi, ej, conv_int (inInt_of_int ej)]

theorem src_rfind_byte (n : Nat) {β : Place} {h : Heap} {m : Mem} {b : Base} {o : Int} {B : BBuf}
    {c : UInt8} {d : Int} (r : MB β h m) (rb : BRep A β h b o B) (hn : B.cap + 1 ≤ n)
    (e : rfindByte A.toPlat m B c = .ok d) :
    sem A X prog (n + 1) .mu_bbuf_rfind_byte h [.ptr b o, .int c.toNat] = .ok (.int d, h) := by
  rw [sem_succ (d := Src.mu_bbuf_rfind_byte) rfl, FunDef.run_regs rfl rfl]
  generalize (⟨sem A X prog n, X.cb (sem A X prog n)⟩ : Calls) = KK
  unfold rfindByte at e
  obtain ⟨⟨rr, i'⟩, el, e⟩ := C.bind_eq_ok e
  have hst : A.InInt (A.toInt (A.szSub B.cap 1)) := inInt_toInt _
  have loop := rounds_forLoop (A := A) (K := KK) (N := n) (l := Src.mu_bbuf_rfind_byte_loop1)
    (R := fun i s => A.InInt i ∧ s = ⟨[.ptr b o, .int c.toNat, .int i], h⟩)
    (Q := fun x i f s => f = .ret (.int x) ∧ s.h = h) ?_ ?_ ?_ _ n _ i'
    ⟨[.ptr b o, .int c.toNat, .int (A.toInt (A.szSub B.cap 1))], h⟩ rr hn ⟨hst, rfl⟩ el
  · obtain ⟨f, s', hs, hr⟩ := loop
    have hs' : exec A KK n Src.mu_bbuf_rfind_byte_loop1 _ = _ := hs
    cases rr with
    | some x =>
      cases e
      obtain ⟨rfl, hh⟩ := hr
      simp [csrc, Src.mu_bbuf_rfind_byte, rb.cap, conv_size_lt rb.lt, conv_int_nat (A.szSub B.cap 1), hs', hh]
    | none =>
      cases e
      obtain ⟨rfl, ⟨hi', rfl⟩, -⟩ := hr
      simp [csrc, Src.mu_bbuf_rfind_byte, rb.cap, conv_size_lt rb.lt, conv_int_nat (A.szSub B.cap 1), hs',
        NOT_FOUND]
  · rintro i s ⟨hi, rfl⟩
    simp [csrc, Src.mu_bbuf_rfind_byte_loop1, Stmt.cond, conv_int hi]
  · rintro i s x ⟨hi, rfl⟩ hc eb
    obtain ⟨c1, e1, eb⟩ := C.bind_eq_ok eb
    split at eb
    · rename_i heq
      cases eb
      have heq' : (c1 = c) = True := eq_true heq
      refine ⟨.ret (.int i), ⟨[.ptr b o, .int c.toNat, .int i], h⟩, ?_, by simp, rfl, rfl⟩
      simp [csrc, Src.mu_bbuf_rfind_byte_loop1, Stmt.body, rb.ptr, r.padd_ld e1, r.load e1, byte_eq, heq']
    · cases eb
  · rintro i s ⟨hi, rfl⟩ hc eb ej
    have ej' : A.int (i - 1) = .ok (i - 1) := ej
    obtain ⟨c1, e1, eb⟩ := C.bind_eq_ok eb
    split at eb
    · cases eb
    · rename_i hne
      refine ⟨⟨[.ptr b o, .int c.toNat, .int i], h⟩, _, ?_, ?_, inInt_of_int ej, rfl⟩
      · simp [csrc, Src.mu_bbuf_rfind_byte_loop1, Stmt.body, rb.ptr, r.padd_ld e1, r.load e1, byte_eq, hne]
      · simp [csrc, Src.mu_bbuf_rfind_byte_loop1, Stmt.step, conv_int hi, ej', conv_int (inInt_of_int ej')]
        rfl

/-! ## Predicates

The predicate is a function of the program: it may change memory (the state at `arg`).  `S s h` says
that `h` is a memory in which that state is `s`. -/

/-- The user's function `f`, called with a byte and `arg`, answers as `pred` and moves the state on. -/
def IsPred {σ : Type} (K : Calls) (f : Nat) (arg : CVal) (S : σ → Heap → Prop)
    (pred : σ → UInt8 → Bool × σ) : Prop :=
  ∀ s h (c : UInt8), S s h → ∃ h', K.cb f h [.int c.toNat, arg] = .ok (.ofBool (pred s c).1, h') ∧
    S (pred s c).2 h'

theorem src_find_predicate (n : Nat) {σ : Type} {β : Place} {h : Heap} {m : Mem} {b : Base} {o : Int}
    {B : BBuf} {d : Int} {f : Nat} {arg : CVal} {S : σ → Heap → Prop} {pred : σ → UInt8 → Bool × σ}
    {s0 s1 : σ} (rb : BRep A β h b o B) (ha : arg ≠ .undef) (hS : S s0 h)
    (hm : ∀ s h, S s h → MB β h m)
    (hp : IsPred ⟨sem A X prog n, X.cb (sem A X prog n)⟩ f arg S pred)
    (hn : (A.toInt B.cap).toNat + 1 ≤ n)
    (e : findPredicateS A.toPlat m B pred s0 = .ok (d, s1)) :
    ∃ h', sem A X prog (n + 1) .mu_bbuf_find_predicate h [.ptr b o, .fn f, arg] = .ok (.int d, h') ∧
      S s1 h' := by
  obtain ⟨K, rfl⟩ : ∃ K, n = K + 1 := ⟨n - 1, by omega⟩
  have t1 := src_bytes_ro (A := A) (X := X) K rb
  have t2 := src_capacity (A := A) (X := X) K rb
  have hl1 : A.InInt (A.toInt B.cap) := inInt_toInt _
  rw [sem_succ (d := Src.mu_bbuf_find_predicate) rfl, FunDef.run_regs rfl rfl]
  generalize hK : (⟨sem A X prog (K + 1), X.cb (sem A X prog (K + 1))⟩ : Calls) = KK at hp
  have t1' : KK.fn .mu_bbuf_bytes_ro h [.ptr b o] = .ok (pv β B.p, h) := by rw [← hK]; exact t1
  have t2' : KK.fn .mu_bbuf_capacity h [.ptr b o] = .ok (.int B.cap, h) := by rw [← hK]; exact t2
  unfold findPredicateS at e
  dsimp only at e
  have loop : ∀ (fuel n : Nat) (i : Int) (h : Heap) (s : σ), fuel ≤ n → A.InInt i → S s h →
      findPredLoop A.toPlat m B.p (A.toInt B.cap) pred fuel i s = .ok (d, s1) →
      ∃ f' s', Stmt.rounds A KK (K + 1) Src.mu_bbuf_find_predicate_loop1 n
        ⟨[.ptr b o, .fn f, arg, .int (A.toInt B.cap), pv β (plus B.p i), .int i], h⟩ = .ok (f', s') ∧
        S s1 s'.h ∧ (f' = .ret (.int d) ∨ (f' = .next ∧ d = A.intMax)) := by
    intro fuel
    induction fuel with
    | zero => intro n i h s _ _ _ e; cases e
    | succ fuel ih =>
      intro n i h s hn hi hs e
      obtain ⟨n, rfl⟩ : ∃ n', n = n' + 1 := ⟨n - 1, by omega⟩
      have hcond : evalCond A KK Src.mu_bbuf_find_predicate_loop1.cond
          ⟨[.ptr b o, .fn f, arg, .int (A.toInt B.cap), pv β (plus B.p i), .int i], h⟩ =
          .ok (decide (i < A.toInt B.cap), ⟨[.ptr b o, .fn f, arg, .int (A.toInt B.cap), pv β (plus B.p i), .int i], h⟩) := by
        simp [csrc, Src.mu_bbuf_find_predicate_loop1, Stmt.cond, conv_int hi, conv_int hl1]
      unfold findPredLoop at e
      split at e
      · rename_i hc
        rw [decide_eq_true hc] at hcond
        obtain ⟨c, ec, e⟩ := C.bind_eq_ok e
        obtain ⟨h2, hcb, hs2⟩ := hp s h c hs
        have r := hm s h hs
        dsimp only at e
        split at e
        · rename_i hf
          cases e
          refine ⟨.ret (.int d), _, Stmt.rounds_ret (s'' := ⟨[.ptr b o, .fn f, arg, .int (A.toInt B.cap),
            pv β (plus B.p (d + 1)), .int d], h2⟩) hcond ?_, hs2, Or.inl rfl⟩
          simp [csrc, Src.mu_bbuf_find_predicate_loop1, Stmt.body, r.padd_succ ec, r.load ec, ha, hcb, hf]
        · rename_i hf
          obtain ⟨j, ej, e⟩ := C.bind_eq_ok e
          have hj := inInt_of_int ej
          obtain ⟨rfl, -⟩ := int_eq_ok ej
          have hf' : (pred s c).1 = true := by simpa using hf
          rw [Stmt.rounds_next (s'' := ⟨[.ptr b o, .fn f, arg, .int (A.toInt B.cap),
            pv β (plus B.p (i + 1)), .int i], h2⟩) (t := ⟨[.ptr b o, .fn f, arg, .int (A.toInt B.cap),
            pv β (plus B.p (i + 1)), .int (i + 1)], h2⟩) hcond ?_ ?_]
          · exact ih n (i + 1) h2 _ (by omega) hj hs2 e
          · simp [csrc, Src.mu_bbuf_find_predicate_loop1, Stmt.body, r.padd_succ ec, r.load ec, ha, hcb, hf']
          · simp [csrc, Src.mu_bbuf_find_predicate_loop1, Stmt.step, conv_int hi, ej, conv_int hj]
      · rename_i hc
        cases e
        rw [decide_eq_false hc] at hcond
        exact ⟨.next, _, Stmt.rounds_exit hcond, hs, Or.inr ⟨rfl, rfl⟩⟩
  obtain ⟨f', s', hs, hS', hr⟩ := loop _ (K + 1) 0 h s0 hn inInt_zero hS e
  rw [plus_zero] at hs
  have hs' : exec A KK (K + 1) Src.mu_bbuf_find_predicate_loop1 _ = _ := hs
  refine ⟨s'.h, ?_, hS'⟩
  rcases hr with rfl | ⟨rfl, rfl⟩
  · simp [csrc, Src.mu_bbuf_find_predicate, t1', t2', conv_int_nat B.cap, hs']
  · simp [csrc, Src.mu_bbuf_find_predicate, t1', t2', conv_int_nat B.cap, hs']

theorem src_rfind_predicate (n : Nat) {σ : Type} {β : Place} {h : Heap} {m : Mem} {b : Base} {o : Int}
    {B : BBuf} {d : Int} {f : Nat} {arg : CVal} {S : σ → Heap → Prop} {pred : σ → UInt8 → Bool × σ}
    {s0 s1 : σ} (rb : BRep A β h b o B) (ha : arg ≠ .undef) (hS : S s0 h)
    (hm : ∀ s h, S s h → MB β h m)
    (hp : IsPred ⟨sem A X prog n, X.cb (sem A X prog n)⟩ f arg S pred)
    (hn : (A.toInt B.cap).toNat + 1 ≤ n)
    (e : rfindPredicateS A.toPlat m B pred s0 = .ok (d, s1)) :
    ∃ h', sem A X prog (n + 1) .mu_bbuf_rfind_predicate h [.ptr b o, .fn f, arg] = .ok (.int d, h') ∧
      S s1 h' := by
  obtain ⟨K, rfl⟩ : ∃ K, n = K + 1 := ⟨n - 1, by omega⟩
  have t1 := src_bytes_ro (A := A) (X := X) K rb
  have t2 := src_capacity (A := A) (X := X) K rb
  have hl1 : A.InInt (A.toInt B.cap) := inInt_toInt _
  rw [sem_succ (d := Src.mu_bbuf_rfind_predicate) rfl, FunDef.run_regs rfl rfl]
  generalize hK : (⟨sem A X prog (K + 1), X.cb (sem A X prog (K + 1))⟩ : Calls) = KK at hp
  have t1' : KK.fn .mu_bbuf_bytes_ro h [.ptr b o] = .ok (pv β B.p, h) := by rw [← hK]; exact t1
  have t2' : KK.fn .mu_bbuf_capacity h [.ptr b o] = .ok (.int B.cap, h) := by rw [← hK]; exact t2
  unfold rfindPredicateS at e
  obtain ⟨q, eq, e⟩ := C.bind_eq_ok e
  have hq := (hm s0 h hS).padd eq
  have loop : ∀ (fuel n : Nat) (i : Int) (h : Heap) (s : σ), fuel ≤ n → A.InInt i → S s h →
      rfindPredLoop A.toPlat m q (A.toInt B.cap) pred fuel i s = .ok (d, s1) →
      ∃ f' s', Stmt.rounds A KK (K + 1) Src.mu_bbuf_rfind_predicate_loop1 n
        ⟨[.ptr b o, .fn f, arg, .int (A.toInt B.cap), pv β (plus q (i - A.toInt B.cap)), .int i], h⟩ = .ok (f', s') ∧
        S s1 s'.h ∧ (f' = .ret (.int d) ∨ (f' = .next ∧ d = A.intMax)) := by
    intro fuel
    induction fuel with
    | zero => intro n i h s _ _ _ e; cases e
    | succ fuel ih =>
      intro n i h s hn hi hs e
      obtain ⟨n, rfl⟩ : ∃ n', n = n' + 1 := ⟨n - 1, by omega⟩
      have hcond : evalCond A KK Src.mu_bbuf_rfind_predicate_loop1.cond
          ⟨[.ptr b o, .fn f, arg, .int (A.toInt B.cap), pv β (plus q (i - A.toInt B.cap)), .int i], h⟩ =
          .ok (decide (i > 0), ⟨[.ptr b o, .fn f, arg, .int (A.toInt B.cap), pv β (plus q (i - A.toInt B.cap)), .int i], h⟩) := by
        simp [csrc, Src.mu_bbuf_rfind_predicate_loop1, Stmt.cond, conv_int hi]
      unfold rfindPredLoop at e
      split at e
      · rename_i hc
        rw [decide_eq_true hc] at hcond
        obtain ⟨c, ec, e⟩ := C.bind_eq_ok e
        obtain ⟨h2, hcb, hs2⟩ := hp s h c hs
        have r := hm s h hs
        have hld := r.load ec
        have hpd : h.padd 1 (pv β (plus q (i - A.toInt B.cap))) (-1) =
            .ok (pv β (plus q (i - 1 - A.toInt B.cap))) := by
          apply r.padd
          have := ld_add ec
          unfold Mem.add plus at *
          dsimp only at *
          rw [show q.off + (i - A.toInt B.cap) + -1 = q.off + (i - 1 - A.toInt B.cap) by omega]
          exact this
        have ei : A.int (i - 1) = .ok (i - 1) := by
          have := hi.1; have := hi.2; have := A.intMin_eq; have := A.intMax_ge
          exact Plat.int_ok (by omega) (by omega)
        dsimp only at e
        split at e
        · rename_i hf
          cases e
          refine ⟨.ret (.int (i - 1)), _, Stmt.rounds_ret (s'' := ⟨[.ptr b o, .fn f, arg, .int (A.toInt B.cap),
            pv β (plus q (i - 1 - A.toInt B.cap)), .int i], h2⟩) hcond ?_, hs2, Or.inl rfl⟩
          simp [csrc, Src.mu_bbuf_rfind_predicate_loop1, Stmt.body, hpd, hld, ha, hcb, hf, conv_int hi, ei]
        · rename_i hf
          obtain ⟨j, ej, e⟩ := C.bind_eq_ok e
          have hj := inInt_of_int ej
          obtain ⟨rfl, -⟩ := int_eq_ok ej
          have hf' : (pred s c).1 = true := by simpa using hf
          rw [Stmt.rounds_next (s'' := ⟨[.ptr b o, .fn f, arg, .int (A.toInt B.cap),
            pv β (plus q (i - 1 - A.toInt B.cap)), .int i], h2⟩) (t := ⟨[.ptr b o, .fn f, arg, .int (A.toInt B.cap),
            pv β (plus q (i - 1 - A.toInt B.cap)), .int (i - 1)], h2⟩) hcond ?_ ?_]
          · exact ih n (i - 1) h2 _ (by omega) hj hs2 e
          · simp [csrc, Src.mu_bbuf_rfind_predicate_loop1, Stmt.body, hpd, hld, ha, hcb, hf']
          · simp [csrc, Src.mu_bbuf_rfind_predicate_loop1, Stmt.step, conv_int hi, ej, conv_int hj]
      · rename_i hc
        cases e
        rw [decide_eq_false hc] at hcond
        exact ⟨.next, _, Stmt.rounds_exit hcond, hs, Or.inr ⟨rfl, rfl⟩⟩
  obtain ⟨f', s', hs, hS', hr⟩ := loop _ (K + 1) (A.toInt B.cap) h s0 hn hl1 hS e
  rw [Int.sub_self, plus_zero] at hs
  have hs' : exec A KK (K + 1) Src.mu_bbuf_rfind_predicate_loop1 _ = _ := hs
  refine ⟨s'.h, ?_, hS'⟩
  rcases hr with rfl | ⟨rfl, rfl⟩
  · simp [csrc, Src.mu_bbuf_rfind_predicate, t1', t2', conv_int_nat B.cap, hs', hq]
  · simp [csrc, Src.mu_bbuf_rfind_predicate, t1', t2', conv_int_nat B.cap, hs', hq]

end Mu.CS
