import Verif.Lemmas.SrcBVec

/-! # Property C123: the parsed source of mu_bvec.c

`VCall.spec` (Spec/SrcBVec.lean): a `mu_bvec_t` behaves as a list of bytes and a position. -/

namespace Mu.CS

open BBuf

variable {A : Arch} {X : Ext}

section
variable {h h' : Heap} {b bb : Base} {o ob : Int} {l : List UInt8} {c : Nat}

theorem VCall.Legal.only {M : Nat} {wr : Bool} {own S : Base → Int → Prop} {h h' : Heap}
    (e : Heap.Only S h h') {k : VCall} (hl : k.Legal M wr own h) : k.Legal M wr own h' := by
  cases k <;> simp only [VCall.Legal] at hl ⊢ <;> try exact hl
  exact ⟨hl.1, (e.isSome _ _).mpr hl.2.1, hl.2.2⟩

theorem Heap.BVec.only {S : Base → Int → Prop} (e : Heap.Only S h h') (h1 : h.BVec b o bb ob l c)
    (hs : ∀ b' o', vecCells b o bb ob l.length b' o' → ¬ S b' o') : h'.BVec b o bb ob l c := by
  refine ⟨⟨e.at_of h1.buf.ptr ?_, e.at_of h1.buf.cap ?_, e.bytes h1.buf.bytes ?_⟩, e.at_of h1.cnt ?_⟩
  · exact hs _ _ (.inl ⟨rfl, by omega, by omega⟩)
  · exact hs _ _ (.inl ⟨rfl, by omega, by omega⟩)
  · exact fun i hi => hs _ _ (.inr ⟨rfl, by omega, by omega⟩)
  · exact hs _ _ (.inl ⟨rfl, by omega, by omega⟩)

theorem src_vcall (n : Nat) (h1 : h.BVec b o bb ob l c) (hw : b.isLit = false)
    (ha : Apart b o 3 bb ob l.length) (hsz : l.length < A.szMod) (hc : c < A.szMod) (k : VCall)
    (hl : k.Legal A.szMod (!bb.isLit) (vecCells b o bb ob l.length) h) :
    ∃ h', VCall.run (sem A X prog (n + 3)) b o h k = .ok ((VCall.spec b o bb ob A.szMod l c k).1, h') ∧
      h'.BVec b o bb ob (VCall.spec b o bb ob A.szMod l c k).2.1
        (VCall.spec b o bb ob A.szMod l c k).2.2 ∧
      (VCall.spec b o bb ob A.szMod l c k).2.1.length = l.length ∧
      (VCall.spec b o bb ob A.szMod l c k).2.2 < A.szMod ∧
      Heap.Only (fun b' o' => vecCells b o bb ob l.length b' o' ∨ k.writes b' o') h h' := by
  have hM := A.szMod_pos
  have hs : (h.at b (o + 2)).isSome = true := by rw [h1.cnt]; rfl
  have hcell : vecCells b o bb ob l.length b (o + 2) := .inl ⟨rfl, by omega, by omega⟩
  cases k with
  | setCount d =>
    refine ⟨_, ?_, h1.setCnt hw ha d, rfl, hl, (Heap.Only.refl _ _).upd (.inl hcell)⟩
    simp only [VCall.run, src_vset (A := A) (X := X) (n + 2) hs hw d, C.ok_bind]; rfl
  | reset =>
    refine ⟨_, ?_, h1.setCnt hw ha 0, rfl, hM, (Heap.Only.refl _ _).upd (.inl hcell)⟩
    simp only [VCall.run, src_vreset (A := A) (X := X) (n + 2) hs hw, C.ok_bind]; rfl
  | available =>
    refine ⟨h, ?_, h1, rfl, hc, .refl _ _⟩
    simp only [VCall.run, src_vavailable (A := A) (X := X) (n + 1) h1 hsz hc, C.ok_bind]; rfl
  | count =>
    refine ⟨h, ?_, h1, rfl, hc, .refl _ _⟩
    simp only [VCall.run, src_vcount (A := A) (X := X) (n + 2) h1, C.ok_bind]; rfl
  | capacity =>
    refine ⟨h, ?_, h1, rfl, hc, .refl _ _⟩
    simp only [VCall.run, src_vcapacity (A := A) (X := X) (n + 1) h1, C.ok_bind]; rfl
  | refRo i =>
    refine ⟨h, ?_, h1, rfl, hc, .refl _ _⟩
    simp only [VCall.run, src_vref_ro (A := A) (X := X) (n + 1) h1.buf hsz hl, C.ok_bind]; rfl
  | refRw i =>
    refine ⟨h, ?_, h1, rfl, hc, .refl _ _⟩
    simp only [VCall.run, src_vref_rw (A := A) (X := X) (n + 1) h1.buf hsz hl, C.ok_bind]; rfl
  | bbuf =>
    refine ⟨h, ?_, h1, rfl, hc, .refl _ _⟩
    simp only [VCall.run, src_vbbuf (A := A) (X := X) (n + 2), C.ok_bind]; rfl
  | read eb eo =>
    obtain ⟨w1, w2, w3⟩ := hl
    have e := src_vread (A := A) (X := X) n h1 hw ha hsz hc w1 w2
    have k1 := h1.setCnt hw ha (A.sz (c + 1))
    have o1 : Heap.Only (fun b' o' => vecCells b o bb ob l.length b' o' ∨ (VCall.read eb eo).writes b' o') h
        (h.upd b (o + 2) (.int (A.sz (c + 1)))) := (Heap.Only.refl _ _).upd (.inl hcell)
    by_cases hlt : c < l.length
    · rw [List.getElem?_eq_getElem hlt] at e
      have o2 : Heap.Only (fun b' o' => b' = eb ∧ o' = eo) (h.upd b (o + 2) (.int (A.sz (c + 1))))
        ((h.upd b (o + 2) (.int (A.sz (c + 1)))).upd eb eo (.int l[c].toNat)) :=
        (Heap.Only.refl _ _).upd ⟨rfl, rfl⟩
      refine ⟨_, ?_, k1.only o2 ?_, rfl, Nat.mod_lt _ hM, o1.trans (o2.mono fun _ _ => .inr)⟩
      · simp only [VCall.run, e, C.ok_bind, VCall.spec, List.getElem?_eq_getElem hlt]
        rw [if_pos trivial, Heap.at_upd_same w1 (by rw [Heap.isSome_upd]; exact w2)]
      · rintro b' o' hv ⟨rfl, rfl⟩; exact w3 hv
    · rw [List.getElem?_eq_none (by omega)] at e
      refine ⟨_, ?_, k1, rfl, Nat.mod_lt _ hM, o1⟩
      simp only [VCall.run, e, C.ok_bind, VCall.spec, List.getElem?_eq_none (Nat.not_lt.mp hlt)]
      rw [if_neg (by simp)]
  | write x =>
    have hw2 : bb.isLit = false := by simpa [VCall.Legal] using hl
    have e := src_vwrite (A := A) (X := X) n h1 hw hw2 ha hsz hc x
    have k1 := h1.setCnt hw ha (A.sz (c + 1))
    have o1 : Heap.Only (fun b' o' => vecCells b o bb ob l.length b' o' ∨ (VCall.write x).writes b' o') h
        (h.upd b (o + 2) (.int (A.sz (c + 1)))) := (Heap.Only.refl _ _).upd (.inl hcell)
    by_cases hlt : c < l.length
    · rw [if_pos hlt] at e
      have o2 : Heap.Only (span bb ob l.length) (h.upd b (o + 2) (.int (A.sz (c + 1)))) _ :=
        Heap.Bytes.upd_only (b := bb) (o := ob) hlt (.int x.toNat)
      have ha2 : Apart b o 2 bb ob l.length := by
        rcases ha with ha | ha | ha
        · exact .inl ha
        · exact .inr (.inl (by omega))
        · exact .inr (.inr ha)
      have kb := k1.buf.write ha2 o2 (k1.buf.bytes.upd hw2 hlt x) (by simp)
      refine ⟨_, ?_, ⟨kb, o2.at_of k1.cnt ?_⟩, by simp [VCall.spec], Nat.mod_lt _ hM,
        o1.trans (o2.mono fun _ _ y => .inl (.inr y))⟩
      · simp only [VCall.run, e, C.ok_bind, VCall.spec, if_pos hlt]
      · rintro ⟨rfl, x, y⟩
        rcases ha with ha | ha | ha
        · exact ha rfl
        · omega
        · omega
    · rw [if_neg hlt] at e
      refine ⟨_, ?_, ?_, by simp [VCall.spec], Nat.mod_lt _ hM, o1⟩
      · simp only [VCall.run, e, C.ok_bind, VCall.spec, if_neg hlt]
      · simp only [VCall.spec, List.set_eq_of_length_le (Nat.not_lt.mp hlt)]; exact k1

theorem src_vcalls (n : Nat) (hw : b.isLit = false) (M : Nat) (hM : M < A.szMod)
    (ha : Apart b o 3 bb ob M) : ∀ (ks : List VCall) {h : Heap} {l : List UInt8} {c : Nat},
    h.BVec b o bb ob l c → l.length = M → c < A.szMod →
    (∀ k ∈ ks, k.Legal A.szMod (!bb.isLit) (vecCells b o bb ob M) h) →
    ∃ h', VCall.runAll (sem A X prog (n + 3)) b o h ks =
        .ok ((VCall.specAll b o bb ob A.szMod l c ks).1, h') ∧
      h'.BVec b o bb ob (VCall.specAll b o bb ob A.szMod l c ks).2.1
        (VCall.specAll b o bb ob A.szMod l c ks).2.2 ∧
      Heap.Only (fun b' o' => vecCells b o bb ob M b' o' ∨ ∃ k ∈ ks, k.writes b' o') h h' := by
  intro ks
  induction ks with
  | nil =>
    intro h l c h1 _ _ _
    exact ⟨h, rfl, h1, .refl _ _⟩
  | cons k ks ih =>
    intro h l c h1 hl hc hk
    subst hl
    obtain ⟨g, e1, e2, e3, e4, e5⟩ := src_vcall (A := A) (X := X) n h1 hw ha hM hc k (hk k (by simp))
    obtain ⟨h', f1, f2, f3⟩ := ih e2 e3 e4 (fun k' hk' => (hk k' (by simp [hk'])).only e5)
    refine ⟨h', ?_, f2, ?_⟩
    · simp only [VCall.runAll, e1, C.ok_bind, f1]; rfl
    · refine (e5.mono ?_).trans (f3.mono ?_)
      · rintro b' o' (x | x)
        · exact .inl x
        · exact .inr ⟨k, by simp, x⟩
      · rintro b' o' (x | ⟨k', hk', x⟩)
        · exact .inl x
        · exact .inr ⟨k', by simp [hk'], x⟩

theorem src_vinit (n : Nat) {hw : b.isLit = false} (hr : ∀ k : Nat, k < 3 → (h.at b (o + k)).isSome = true)
    (hb : h.Bytes bb ob l) (ha : Apart b o 3 bb ob l.length) :
    let h' := (h.setBBuf b o (.ptr bb ob) l.length).upd b (o + 2) (.int 0)
    sem A X prog (n + 2) .mu_bvec_init_ro h [.ptr b o, .ptr bb ob, .int l.length] = .ok (.ptr b o, h') ∧
    sem A X prog (n + 2) .mu_bvec_init_rw h [.ptr b o, .ptr bb ob, .int l.length] = .ok (.ptr b o, h') ∧
    (∀ b2 o2, h.BBuf b2 o2 bb ob l → Aside b o b2 o2 → sem A X prog (n + 2) .mu_bvec_init h [.ptr b o, .ptr b2 o2] =
      .ok (.ptr b o, h')) ∧
    h'.BVec b o bb ob l 0 ∧ Heap.Only (span b o 3) h h' := by
  have r : Room2 h b o := ⟨hw, by simpa using hr 0 (by omega), by simpa using hr 1 (by omega)⟩
  have r2 : ((h.setBBuf b o (.ptr bb ob) l.length).at b (o + 2)).isSome = true := by
    rw [(Heap.setBBuf_only h b o _ _).isSome]; simpa using hr 2 (by omega)
  have ha2 : Apart b o 2 bb ob l.length := by
    rcases ha with ha | ha | ha
    · exact .inl ha
    · exact .inr (.inl (by omega))
    · exact .inr (.inr ha)
  have kb := Heap.setBBuf_bbuf r hb ha2
  have ho : Heap.Only (span b o 3) h (h.setBBuf b o (.ptr bb ob) l.length) :=
    (Heap.setBBuf_only h b o _ _).mono fun b' o' ⟨x, y, z⟩ => ⟨x, y, by omega⟩
  have ho2 : Heap.Only (span b (o + 2) 1) (h.setBBuf b o (.ptr bb ob) l.length)
      ((h.setBBuf b o (.ptr bb ob) l.length).upd b (o + 2) (.int 0)) :=
    (Heap.Only.refl _ _).upd ⟨rfl, by omega, by omega⟩
  have er := src_vreset (A := A) (X := X) n r2 hw
  refine ⟨?_, ?_, ?_, ⟨⟨ho2.at_of kb.ptr ?_, ho2.at_of kb.cap ?_, ho2.bytes kb.bytes ?_⟩,
    Heap.at_upd_same hw r2⟩, ho.upd ⟨rfl, by omega, by omega⟩⟩
  · rw [sem_succ (d := Src.mu_bvec_init_ro) rfl, FunDef.run_regs rfl rfl]
    have e := src_init_ro (A := A) (X := X) n r (p := .ptr bb ob) (by simp) l.length
    simp [csrc, Src.mu_bvec_init_ro, e, er]
  · rw [sem_succ (d := Src.mu_bvec_init_rw) rfl, FunDef.run_regs rfl rfl]
    have e := src_init_rw (A := A) (X := X) n r (p := .ptr bb ob) (by simp) l.length
    simp [csrc, Src.mu_bvec_init_rw, e, er]
  · intro b2 o2 hb2 hs
    rw [sem_succ (d := Src.mu_bvec_init) rfl, FunDef.run_regs rfl rfl]
    have e := src_copy (A := A) (X := X) n r hb2.ptr hb2.cap (by
      rintro ⟨rfl, rfl⟩
      rcases hs with ⟨-, hs⟩ | hs | hs | hs
      · omega
      · exact hs rfl
      · omega
      · omega)
    simp [csrc, Src.mu_bvec_init, e, er]
  · rintro ⟨-, x, y⟩; omega
  · rintro ⟨-, x, y⟩; omega
  · rintro i hi ⟨rfl, x, y⟩
    rcases ha with ha | ha | ha
    · exact ha rfl
    · omega
    · omega

end

variable (A : Arch) (X : Ext) (n : Nat) (h : Heap) (b bb : Base) (o ob : Int) (l : List UInt8)

/-- **C123, histories.**  Initialise a vector on any bytes in memory, in any of the three ways, and make
any calls: every answer is that of the list of bytes with a position; the bytes and the count in memory
at the end are those of the list; no other cell of memory has changed but the variables read into. -/
theorem C123_bvec_source (hw : b.isLit = false)
    (hr : ∀ k : Nat, k < 3 → (h.at b (o + k)).isSome = true) (hb : h.Bytes bb ob l)
    (ha : Apart b o 3 bb ob l.length) (hsz : l.length < A.szMod) (ks : List VCall)
    (hl : ∀ k ∈ ks, k.Legal A.szMod (!bb.isLit) (vecCells b o bb ob l.length) h) :
    ∃ h1 h2,
      sem A X prog (n + 3) .mu_bvec_init_ro h [.ptr b o, .ptr bb ob, .int l.length] = .ok (.ptr b o, h1) ∧
      sem A X prog (n + 3) .mu_bvec_init_rw h [.ptr b o, .ptr bb ob, .int l.length] = .ok (.ptr b o, h1) ∧
      (∀ b2 o2, h.BBuf b2 o2 bb ob l → Aside b o b2 o2 →
        sem A X prog (n + 3) .mu_bvec_init h [.ptr b o, .ptr b2 o2] = .ok (.ptr b o, h1)) ∧
      VCall.runAll (sem A X prog (n + 3)) b o h1 ks =
        .ok ((VCall.specAll b o bb ob A.szMod l 0 ks).1, h2) ∧
      h2.BBuf b o bb ob (VCall.specAll b o bb ob A.szMod l 0 ks).2.1 ∧
      h2.at b (o + 2) = some (.int (VCall.specAll b o bb ob A.szMod l 0 ks).2.2) ∧
      Heap.Only (fun b' o' => vecCells b o bb ob l.length b' o' ∨ ∃ k ∈ ks, k.writes b' o') h h2 := by
  obtain ⟨i1, i2, i3, i4, i5⟩ := src_vinit (A := A) (X := X) (n + 1) (hw := hw) hr hb ha
  obtain ⟨h2, e1, e2, e3⟩ := src_vcalls (A := A) (X := X) n hw l.length hsz ha ks i4 rfl A.szMod_pos
    (fun k hk => (hl k hk).only i5)
  exact ⟨_, h2, i1, i2, i3, e1, e2.buf, e2.cnt, (i5.mono fun _ _ x => .inl (.inl x)).trans e3⟩

/-- **C123, at the end.**  A read or a write with the count at or past the capacity returns false and
changes nothing but the count. -/
theorem C123_at_end (c : Nat) (x : UInt8) (eb : Base) (eo : Int) (h1 : h.BBuf b o bb ob l)
    (h2 : h.at b (o + 2) = some (.int c)) (hw : b.isLit = false) (hw2 : bb.isLit = false)
    (ha : Apart b o 3 bb ob l.length) (hsz : l.length < A.szMod) (hc : c < A.szMod)
    (ew : eb.isLit = false) (es : (h.at eb eo).isSome = true) (hle : l.length ≤ c) :
    ∃ h', sem A X prog (n + 3) .mu_bvec_read_byte h [.ptr b o, .ptr eb eo] = .ok (.int 0, h') ∧
      sem A X prog (n + 3) .mu_bvec_write_byte h [.ptr b o, .int x.toNat] = .ok (.int 0, h') ∧
      Heap.Only (span b (o + 2) 1) h h' := by
  have e1 := src_vread (A := A) (X := X) n ⟨h1, h2⟩ hw ha hsz hc ew es
  have e2 := src_vwrite (A := A) (X := X) n ⟨h1, h2⟩ hw hw2 ha hsz hc x
  rw [List.getElem?_eq_none hle] at e1
  rw [if_neg (by omega)] at e2
  exact ⟨_, e1, e2, (Heap.Only.refl _ _).upd ⟨rfl, by omega, by omega⟩⟩

/-! ## The hypotheses hold of a concrete memory -/

/-- Two bytes in object 0, a struct in object 1, a variable in object 2. -/
def vecDemo : Heap where
  mem
    | .obj 0 => [.int 10, .int 11]
    | .obj 1 => [.undef, .undef, .undef]
    | .obj 2 => [.undef]
    | _ => []
  next := 3

/-- The calls of the example. -/
def vecCalls : List VCall :=
  [.write 5, .available, .write 6, .write 7, .count, .available, .reset, .read (.obj 2) 0, .refRw 1, .setCount 9,
    .read (.obj 2) 0]

example : (VCall.specAll (.obj 1) 0 (.obj 0) 0 Arch.lp64.szMod [10, 11] 0 vecCalls) =
    ([⟨.int 1, none⟩, ⟨.int 1, none⟩, ⟨.int 1, none⟩, ⟨.int 0, none⟩, ⟨.int 3, none⟩, ⟨.int 0, none⟩,
      ⟨.ptr (.obj 1) 0, none⟩, ⟨.int 1, some (.int 5)⟩, ⟨.ptr (.obj 0) 1, none⟩, ⟨.undef, none⟩,
      ⟨.int 0, none⟩], [5, 6], 10) := by decide

example (X : Ext) : ∃ h1 h2,
    sem .lp64 X prog 3 .mu_bvec_init_rw vecDemo [.ptr (.obj 1) 0, .ptr (.obj 0) 0, .int (2 : Nat)] =
      .ok (.ptr (.obj 1) 0, h1) ∧
    VCall.runAll (sem .lp64 X prog 3) (.obj 1) 0 h1 vecCalls =
      .ok ((VCall.specAll (.obj 1) 0 (.obj 0) 0 Arch.lp64.szMod [10, 11] 0 vecCalls).1, h2) := by
  obtain ⟨h1, h2, -, e1, -, e2, -⟩ := C123_bvec_source .lp64 X 0 vecDemo (.obj 1) (.obj 0) 0 0 [10, 11] rfl
    (by decide) (.of_all (by decide) (by decide) (by decide)) (.inl (by decide)) (by decide) vecCalls (by
      intro c hc
      simp only [vecCalls, List.mem_cons, List.not_mem_nil, or_false] at hc
      rcases hc with rfl | rfl | rfl | rfl | rfl | rfl | rfl | rfl | rfl | rfl | rfl <;>
        simp [VCall.Legal, vecCells, span, Base.isLit, Heap.at, Heap.cells, vecDemo] <;> decide)
  exact ⟨h1, h2, e1, e2⟩

end Mu.CS
