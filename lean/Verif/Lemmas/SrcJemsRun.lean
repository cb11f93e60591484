import Verif.Lemmas.SrcJemsCalls

/-! # The parsed source of mu_jems.c: calls -/

namespace Mu.CS

open Mu.Jems (Jems Level Emit WF sep bump Item Call ItemText Dbl)
open Mu.Jems.Spec

variable {A : Arch} {X : Ext} {E : Emitter} {h h' : Heap} {j j' : Jems} {n n0 : Nat}

/-- The source and the model agree on a call. -/
def Agree (A : Arch) (E : Emitter) (h : Heap) (f : C (CVal × Heap)) (g : C Jems) : Prop :=
  ∃ h' j', f = .ok (.ptr E.b E.o, h') ∧ g = .ok j' ∧ E.Rep A h' j' ∧ Heap.Only E.Uses h h'

theorem src_reset (hw : E.Writes A X n0) (r : E.Rep A h j) :
    Agree A E h (sem A X prog (n + 2) .mu_jems_reset h [.ptr E.b E.o]) (Mu.Jems.reset j) := by
  have h1 := r.wf.curr
  have h2 := r.wf.len
  have h3 := r.len
  refine ⟨_, _, src_reset_any r.placed (by omega) r.f0, ?_,
    E.enter_rep (hw n0 (Nat.le_refl _)) r.placed (k := 0) false r.f0 r.f1 r.f3 r.f4
      ⟨r.wf.writer, by simp only; omega, r.wf.len, r.wf.max⟩ r.len (fun i l hi _ => absurd hi (by omega)) r.inv,
    own_uses (E.enter_only (by omega) false h)⟩
  have hlt : 0 < j.levels.length := by omega
  unfold Mu.Jems.reset Mu.Jems.level Mu.Jems.setLevel
  simp only [ldN_ok hlt, C.ok_bind, stN_ok hlt]
  rw [ldN_some (List.getElem?_set_self hlt)]
  simp only [C.ok_bind]
  rw [stN_ok (by rw [List.length_set]; exact hlt)]
  simp

theorem src_object_open (hw : E.Writes A X n0) (hn : n0 ≤ n) (r : E.Rep A h j) :
    Agree A E h (sem A X prog (n + 3) .mu_jems_object_open h [.ptr E.b E.o]) (Mu.Jems.objectOpen A.toPlat j) := by
  obtain ⟨l, hl⟩ := r.wf.level
  obtain ⟨h1, s1, r1, o1⟩ := src_commify hw hn r hl
  obtain ⟨h2, s2, r2, o2⟩ := src_emit_char hw (n := n + 1) (by omega) r1 123
  obtain ⟨h3, j3, s3, m3, r3, o3⟩ := src_push_level (n := n) hw r2 true
  rw [show chr A 123 = 123 from chr_small (by decide)] at s2
  refine ⟨h3, j3, ?_, ?_, r3, (o1.trans (cells_uses o2)).trans (own_uses o3)⟩
  · rw [sem_succ (d := Src.mu_jems_object_open) rfl, FunDef.run_regs rfl rfl]
    generalize sem A X prog (n + 2) = S at *
    simp only [CVal.ofBool] at s3
    simp [csrc, Src.mu_jems_object_open, CVal.ofBool, s1, s2] at s3 ⊢
    simp [s3]
  · unfold Mu.Jems.objectOpen
    rw [Mu.Jems.commify_ok r.wf.writer hl]
    simp only [C.ok_bind]
    rw [Mu.Jems.emitChar_ok r1.wf.writer]
    exact m3

theorem src_array_open (hw : E.Writes A X n0) (hn : n0 ≤ n) (r : E.Rep A h j) :
    Agree A E h (sem A X prog (n + 3) .mu_jems_array_open h [.ptr E.b E.o]) (Mu.Jems.arrayOpen A.toPlat j) := by
  obtain ⟨l, hl⟩ := r.wf.level
  obtain ⟨h1, s1, r1, o1⟩ := src_commify hw hn r hl
  obtain ⟨h2, s2, r2, o2⟩ := src_emit_char hw (n := n + 1) (by omega) r1 91
  obtain ⟨h3, j3, s3, m3, r3, o3⟩ := src_push_level (n := n) hw r2 false
  rw [show chr A 91 = 91 from chr_small (by decide)] at s2
  refine ⟨h3, j3, ?_, ?_, r3, (o1.trans (cells_uses o2)).trans (own_uses o3)⟩
  · rw [sem_succ (d := Src.mu_jems_array_open) rfl, FunDef.run_regs rfl rfl]
    generalize sem A X prog (n + 2) = S at *
    simp [csrc, Src.mu_jems_array_open, CVal.ofBool, s1, s2] at s3 ⊢
    simp [s3]
  · unfold Mu.Jems.arrayOpen
    rw [Mu.Jems.commify_ok r.wf.writer hl]
    simp only [C.ok_bind]
    rw [Mu.Jems.emitChar_ok r1.wf.writer]
    exact m3

theorem src_object_close (hw : E.Writes A X n0) (hn : n0 ≤ n) (r : E.Rep A h j) :
    Agree A E h (sem A X prog (n + 2) .mu_jems_object_close h [.ptr E.b E.o]) (Mu.Jems.objectClose A.toPlat j) := by
  obtain ⟨h2, s2, r2, o2⟩ := src_emit_char hw (n := n) hn r 125
  obtain ⟨h3, s3, r3, o3⟩ := src_pop_level (n := n) hw r2
  rw [show chr A 125 = 125 from chr_small (by decide)] at s2
  refine ⟨h3, _, ?_, ?_, r3, (cells_uses o2).trans (own_uses o3)⟩
  · rw [sem_succ (d := Src.mu_jems_object_close) rfl, FunDef.run_regs rfl rfl]
    generalize sem A X prog (n + 1) = S at *
    simp [csrc, Src.mu_jems_object_close, s2, s3]
  · unfold Mu.Jems.objectClose
    rw [Mu.Jems.emitChar_ok r.wf.writer]
    rfl

theorem src_array_close (hw : E.Writes A X n0) (hn : n0 ≤ n) (r : E.Rep A h j) :
    Agree A E h (sem A X prog (n + 2) .mu_jems_array_close h [.ptr E.b E.o]) (Mu.Jems.arrayClose A.toPlat j) := by
  obtain ⟨h2, s2, r2, o2⟩ := src_emit_char hw (n := n) hn r 93
  obtain ⟨h3, s3, r3, o3⟩ := src_pop_level (n := n) hw r2
  rw [show chr A 93 = 93 from chr_small (by decide)] at s2
  refine ⟨h3, _, ?_, ?_, r3, (cells_uses o2).trans (own_uses o3)⟩
  · rw [sem_succ (d := Src.mu_jems_array_close) rfl, FunDef.run_regs rfl rfl]
    generalize sem A X prog (n + 1) = S at *
    simp [csrc, Src.mu_jems_array_close, s2, s3]
  · unfold Mu.Jems.arrayClose
    rw [Mu.Jems.emitChar_ok r.wf.writer]
    rfl

theorem isCstr_length {m : Mem} {p : Ptr} {s : List UInt8} (q : BBuf.IsCstr m p s) : s.length ≤ (m p.blk).length := by
  obtain ⟨-, -, rest, e⟩ := q
  have := congrArg List.length e
  simp only [List.length_drop, List.length_append, List.length_cons] at this
  omega

theorem isBytes_length {P : Plat} {m : Mem} {p : Ptr} {k : Nat} {s : List UInt8} (q : IsBytes P m p k s) :
    s.length ≤ (m p.blk).length := by
  rw [← q.2.1, List.length_take, List.length_drop]
  omega

theorem Emits.agree {m : Mem} {x : Item} {l : Level} {t : List UInt8} {f : Heap → C (CVal × Heap)} (r : E.Rep A h j)
    (hl : j.levels[j.curr]? = some l) (ht : ItemText A.toPlat m x t) (e : Emits A E f h j l t) :
    Agree A E h (f h) (Mu.Jems.item A.toPlat m j x) := by
  obtain ⟨h', e1, e2, e3⟩ := e
  exact ⟨h', _, e1, Mu.Jems.item_ok r.wf.writer hl ht, e2, e3⟩

theorem src_item (hw : E.Writes A X n0) {β : Place} {m : Mem} {L : Nat} (hL : ∀ k, (m k).length ≤ L) (hn : n0 + L + 30 ≤ n)
    (r : E.Rep A h j) (q : E.Texts β h m) {x : Item} (ok : ItemOk A.toPlat m x) (u : Unsigned β h x) :
    Agree A E h (itemRun (sem A X prog (n + 3)) β h (.ptr E.b E.o) x) (Mu.Jems.item A.toPlat m j x) := by
  obtain ⟨l, hl⟩ := r.wf.level
  have hn' : n0 + 30 ≤ n := by omega
  cases x with
  | objectOpen => exact src_object_open hw (by omega) r
  | arrayOpen => exact src_array_open hw (by omega) r
  | number v =>
    obtain ⟨i, hi⟩ := ok
    exact (src_number hw hn' r hl hi).agree (m := m) r hl (.number hi)
  | integer v => exact (src_integer hw hn' r hl ok.1 ok.2).agree (m := m) r hl (.int ok.1 ok.2)
  | string p =>
    obtain ⟨s, hs⟩ := ok
    have := isCstr_length hs
    have := hL p.blk
    exact (src_string hw q hs (by omega) r hl).agree r hl (.string hs)
  | bytes p k =>
    obtain ⟨s, hs⟩ := ok
    have := isBytes_length hs
    have := hL p.blk
    exact (src_bytes hw q hs u (by omega) r hl).agree r hl (.bytes hs)
  | bool b => exact (src_bool hw hn' r hl b).agree (m := m) r hl (.bool b)
  | true => exact (src_true hw hn' r hl).agree (m := m) r hl .true
  | false => exact (src_false hw hn' r hl).agree (m := m) r hl .false
  | null => exact (src_null hw hn' r hl).agree (m := m) r hl .null
  | literal p k =>
    obtain ⟨s, hs⟩ := ok
    have := isBytes_length hs
    have := hL p.blk
    exact (src_literal hw q hs (by omega) r hl).agree r hl (.literal hs)

/-- What an emitter's calls leave unchanged includes the bytes passed to it. -/
theorem Unsigned.only {β : Place} {m : Mem} (q : E.Texts β h m) {x : Item} (ok : ItemOk A.toPlat m x)
    (u : Unsigned β h x) (e : Heap.Only E.Uses h h') : Unsigned β h' x := by
  cases x with
  | bytes p k =>
    obtain ⟨s, hs⟩ := ok
    have hd := isBytes_drop hs
    intro i v hi hv
    refine u i v hi ?_
    have hi' : i < s.length := by have := hs.2.2.1; omega
    have : (m p.blk)[p.off.toNat + i]? = some s[i] := by
      rw [← List.getElem?_drop, hd, List.getElem?_append_left hi']
      exact List.getElem?_eq_getElem hi'
    have h1 := (q _ _ _ this).1
    have := hs.1
    rw [show (β p.blk).2 + ((p.off.toNat + i : Nat) : Int) = (β p.blk).2 + p.off + i by omega] at h1
    rw [← e.cell _ _ h1]
    exact hv
  | _ => trivial

theorem UnsignedCall.only {β : Place} {m : Mem} (q : E.Texts β h m) {c : Call} (ok : CallOk A.toPlat m c)
    (u : UnsignedCall β h c) (e : Heap.Only E.Uses h h') : UnsignedCall β h' c := by
  cases c with
  | item x => exact Unsigned.only q ok u e
  | key k x => exact Unsigned.only q ok.2 u e
  | _ => trivial

theorem src_key (hw : E.Writes A X n0) {β : Place} {m : Mem} {L : Nat} (hL : ∀ k, (m k).length ≤ L) (hn : n0 + L + 30 ≤ n)
    (r : E.Rep A h j) (q : E.Texts β h m) {k : Ptr} {s : List UInt8} (hk : BBuf.IsCstr m k s) {x : Item}
    (ok : ItemOk A.toPlat m x) (u : Unsigned β h x) :
    Agree A E h (keyRun (sem A X prog (n + 4)) β h (.ptr E.b E.o) k x) (Mu.Jems.keyItem A.toPlat m j k x) := by
  obtain ⟨l, hl⟩ := r.wf.level
  have := isCstr_length hk
  have := hL k.blk
  obtain ⟨h1, s1, r1, o1⟩ := src_string (n := n) hw q hk (by omega) r hl
  obtain ⟨h2, j2, s2, m2, r2, o2⟩ := src_item (n := n) hw hL hn r1 (q.only o1) ok (u.only q ok o1)
  refine ⟨h2, j2, ?_, ?_, r2, o1.trans o2⟩
  · have s1' : sem A X prog (n + 3) .mu_jems_string h [.ptr E.b E.o, pv β k] = .ok (.ptr E.b E.o, h1) := s1
    cases x <;> simp only [keyRun, itemRun] at s2 ⊢
    case objectOpen =>
      rw [sem_succ (d := Src.mu_jems_key_object_open) rfl, FunDef.run_regs rfl rfl]
      generalize sem A X prog (n + 3) = S at *
      simp [csrc, Src.mu_jems_key_object_open, s1', s2]
    case arrayOpen =>
      rw [sem_succ (d := Src.mu_jems_key_array_open) rfl, FunDef.run_regs rfl rfl]
      generalize sem A X prog (n + 3) = S at *
      simp [csrc, Src.mu_jems_key_array_open, s1', s2]
    case number v =>
      rw [sem_succ (d := Src.mu_jems_key_number) rfl, FunDef.run_regs rfl rfl]
      generalize sem A X prog (n + 3) = S at *
      simp [csrc, Src.mu_jems_key_number, s1', s2]
    case integer v =>
      rw [sem_succ (d := Src.mu_jems_key_integer) rfl, FunDef.run_regs rfl rfl]
      generalize sem A X prog (n + 3) = S at *
      simp [csrc, Src.mu_jems_key_integer, s1', s2]
    case string p =>
      rw [sem_succ (d := Src.mu_jems_key_string) rfl, FunDef.run_regs rfl rfl]
      generalize sem A X prog (n + 3) = S at *
      simp [csrc, Src.mu_jems_key_string, s1', s2]
    case bytes p k =>
      rw [sem_succ (d := Src.mu_jems_key_bytes) rfl, FunDef.run_regs rfl rfl]
      generalize sem A X prog (n + 3) = S at *
      simp [csrc, Src.mu_jems_key_bytes, s1', s2]
    case bool b =>
      rw [sem_succ (d := Src.mu_jems_key_bool) rfl, FunDef.run_regs rfl rfl]
      generalize sem A X prog (n + 3) = S at *
      cases b <;> simp [csrc, Src.mu_jems_key_bool, CVal.ofBool, s1'] at s2 ⊢ <;> simp [s2]
    case true =>
      rw [sem_succ (d := Src.mu_jems_key_true) rfl, FunDef.run_regs rfl rfl]
      generalize sem A X prog (n + 3) = S at *
      simp [csrc, Src.mu_jems_key_true, s1', s2]
    case false =>
      rw [sem_succ (d := Src.mu_jems_key_false) rfl, FunDef.run_regs rfl rfl]
      generalize sem A X prog (n + 3) = S at *
      simp [csrc, Src.mu_jems_key_false, s1', s2]
    case null =>
      rw [sem_succ (d := Src.mu_jems_key_null) rfl, FunDef.run_regs rfl rfl]
      generalize sem A X prog (n + 3) = S at *
      simp [csrc, Src.mu_jems_key_null, s1', s2]
    case literal p k =>
      rw [sem_succ (d := Src.mu_jems_key_literal) rfl, FunDef.run_regs rfl rfl]
      generalize sem A X prog (n + 3) = S at *
      simp [csrc, Src.mu_jems_key_literal, s1', s2]
  · rw [Mu.Jems.keyItem_eq]
    have : Mu.Jems.string A.toPlat j m k = _ := Mu.Jems.item_ok r.wf.writer hl (.string hk)
    rw [this]
    exact m2

theorem src_call (hw : E.Writes A X n0) {β : Place} {m : Mem} {L : Nat} (hL : ∀ k, (m k).length ≤ L) (hn : n0 + L + 30 ≤ n)
    (r : E.Rep A h j) (q : E.Texts β h m) {c : Call} (ok : CallOk A.toPlat m c) (u : UnsignedCall β h c) :
    Agree A E h (callRun (sem A X prog (n + 4)) β h (.ptr E.b E.o) c) (Mu.Jems.call A.toPlat m j c) := by
  cases c with
  | reset => exact src_reset (n := n + 2) hw r
  | objectClose => exact src_object_close (n := n + 2) hw (by omega) r
  | arrayClose => exact src_array_close (n := n + 2) hw (by omega) r
  | item x => exact src_item (n := n + 1) hw hL (by omega) r q ok u
  | key k x =>
    obtain ⟨⟨s, hk⟩, ok⟩ := ok
    exact src_key hw hL hn r q hk ok u

theorem src_calls (hw : E.Writes A X n0) {β : Place} {m : Mem} {L : Nat} (hL : ∀ k, (m k).length ≤ L) (hn : n0 + L + 30 ≤ n) :
    ∀ (cs : List Call) (h : Heap) (j : Jems), E.Rep A h j → E.Texts β h m → (∀ c ∈ cs, CallOk A.toPlat m c) →
      (∀ c ∈ cs, UnsignedCall β h c) →
      Agree A E h (callsRun (sem A X prog (n + 4)) β h (.ptr E.b E.o) cs) (Mu.Jems.calls A.toPlat m j cs) := by
  intro cs
  induction cs with
  | nil => intro h j r _ _ _; exact ⟨h, j, rfl, rfl, r, Heap.Only.refl _ _⟩
  | cons c cs ih =>
    intro h j r q ok u
    obtain ⟨h1, j1, s1, m1, r1, o1⟩ := src_call hw hL hn r q (ok c (by simp)) (u c (by simp))
    obtain ⟨h2, j2, s2, m2, r2, o2⟩ := ih h1 j1 r1 (q.only o1) (fun d hd => ok d (by simp [hd]))
      (fun d hd => (u d (by simp [hd])).only q (ok d (by simp [hd])) o1)
    refine ⟨h2, j2, ?_, ?_, r2, o1.trans o2⟩
    · simp only [callsRun, s1, C.ok_bind]
      exact s2
    · simp only [Mu.Jems.calls, m1, C.ok_bind]
      exact m2

end Mu.CS
