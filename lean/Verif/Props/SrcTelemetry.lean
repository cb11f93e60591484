import Verif.Spec.SrcTelemetry
import Verif.Props.SrcJems
import Verif.Props.SrcBVec
import Verif.Props.SrcBisync
import Verif.Props.SrcBBufView
import Verif.Props.JemsTrunc
import Verif.Props.RoundTrip

/-! # C136: JSON through a byte vector and a frame, from the parsed source

mu_jems.c, mu_bvec.c, mu_bbuf.c and mu_bisync.c as parsed, connected by a one-line writer function. -/

namespace Mu.CS.Tele

open Mu.Jems (Call)
open Mu.Jems.Spec (Doc Writes depth Fits render)
open Mu.Bisync.Spec (frame)

variable {A : Arch} {X : Ext} {T : Spot} {h : Heap} {n D L : Nat} {β : Place} {m : Mem} {l d r : List UInt8}

/-! ## The writer -/

/-- The memory of the vector after `out` has been written to it. -/
def Spot.inv (T : Spot) (A : Arch) (l out : List UInt8) (h : Heap) : Prop :=
  ∃ l' c, h.BVec T.vb T.vo T.bb T.bo l' c ∧ l'.length = T.cap ∧ c < A.szMod ∧
    (out.length < A.szMod → l' = out.take T.cap ++ l.drop out.length ∧ c = out.length)

def Spot.emitter (T : Spot) (A : Arch) (l : List UInt8) : Emitter where
  b := T.jb
  o := T.jo
  lb := T.lb
  lo := T.lo
  len := T.len
  w := T.w
  arg := .ptr T.vb T.vo
  cells := vecCells T.vb T.vo T.bb T.bo T.cap
  inv := T.inv A l

theorem chr_mod (c : UInt8) : (A.it .char).conv (UInt8.toNat c) % 256 = c.toNat := by
  have h2 := c.toNat_lt
  simp only [Arch.it]
  cases A.charSigned with
  | false =>
    rw [IT.conv_unsigned]
    omega
  | true =>
    rw [IT.conv_signed]
    have := Int.bmod_emod (x := (c.toNat : Int)) (m := 2 ^ 8)
    omega

structure Spot.Vec (T : Spot) (A : Arch) (l : List UInt8) : Prop where
  wr : T.vb.isLit = false
  wrb : T.bb.isLit = false
  apart : Apart T.vb T.vo 3 T.bb T.bo T.cap
  cap : 0 < T.cap
  lt : T.cap < A.szMod
  len : l.length = T.cap

theorem set_take {l out : List UInt8} {x : UInt8} {cap : Nat} (hl : l.length = cap) (ho : out.length < cap) :
    (out.take cap ++ l.drop out.length).set out.length x = (out ++ [x]).take cap ++ l.drop (out ++ [x]).length := by
  rw [List.take_of_length_le (by omega), List.take_of_length_le (by simp; omega)]
  have : l.drop out.length = l[out.length]'(by omega) :: l.drop (out.length + 1) := List.drop_eq_getElem_cons (by omega)
  rw [this, List.set_append_right _ _ (Nat.le_refl _), Nat.sub_self, List.set_cons_zero]
  simp

theorem writes (hx : VecWriter X T.w) (v : T.Vec A l) : (T.emitter A l).Writes A X 3 := by
  intro n hn
  obtain ⟨n, rfl⟩ : ∃ k, n = k + 3 := ⟨n - 3, by omega⟩
  constructor
  · rintro out h c ⟨l', k, bv, hl, hk, ho⟩
    have hap : Apart T.vb T.vo 3 T.bb T.bo l'.length := by rw [hl]; exact v.apart
    have e := src_vwrite (A := A) (X := X) n bv v.wr v.wrb hap (by rw [hl]; exact v.lt) hk c
    have call : ∀ h' r, sem A X prog (n + 3) .mu_bvec_write_byte h [.ptr T.vb T.vo, .int c.toNat] = .ok (r, h') →
        X.cb (sem A X prog (n + 3)) T.w h [.int ((A.it .char).conv (UInt8.toNat c)), .ptr T.vb T.vo] = .ok (.undef, h') := by
      intro h' r e
      rw [hx, chr_mod, e]
      rfl
    have o1 : Heap.Only (vecCells T.vb T.vo T.bb T.bo T.cap) h (h.upd T.vb (T.vo + 2) (.int (A.sz (k + 1)))) :=
      (Heap.Only.refl _ _).upd (.inl ⟨rfl, by omega, by omega⟩)
    have b1 := bv.setCnt v.wr hap (A.sz (k + 1))
    have hsz : ∀ j, A.sz j < A.szMod := fun j => Nat.mod_lt _ A.szMod_pos
    have hsz' : ∀ j, j < A.szMod → A.sz j = j := fun j hj => Nat.mod_eq_of_lt hj
    by_cases hc : k < l'.length
    · rw [if_pos hc] at e
      have o2 := o1.upd (b := T.bb) (o := T.bo + k) (v := .int c.toNat) (.inr ⟨rfl, by omega, by omega⟩)
      refine ⟨_, _, call _ _ e, ⟨l'.set k c, A.sz (k + 1), ⟨?_, ?_⟩, by simp [hl], hsz _, ?_⟩, o2⟩
      · refine b1.buf.write (by rcases hap with p | p | p
                                · exact .inl p
                                · exact .inr (.inl (by omega))
                                · exact .inr (.inr p)) (Heap.Bytes.upd_only hc _) (b1.buf.bytes.upd v.wrb hc c) (by simp)
      · rw [Heap.at_upd_sep]
        · exact b1.cnt
        · rintro ⟨e1, e2⟩
          rcases hap with p | p | p
          · exact p e1.symm
          · omega
          · omega
      · intro hlt
        simp only [List.length_append, List.length_singleton] at hlt
        obtain ⟨rfl, rfl⟩ := ho (by omega)
        exact ⟨set_take v.len (by omega), by rw [hsz' _ hlt]; simp⟩
    · rw [if_neg hc] at e
      refine ⟨_, _, call _ _ e, ⟨l', A.sz (k + 1), b1, hl, hsz _, ?_⟩, o1⟩
      intro hlt
      simp only [List.length_append, List.length_singleton] at hlt
      obtain ⟨rfl, rfl⟩ := ho (by omega)
      refine ⟨?_, by rw [hsz' _ hlt]; simp⟩
      rw [List.take_append_of_le_length (by omega), List.drop_of_length_le (by have := v.len; omega),
        List.drop_of_length_le (by have := v.len; simp; omega)]
  · rintro out h h' ⟨l', k, ⟨⟨b1, b2, b3⟩, b4⟩, hl, hk, ho⟩ e
    have es : ∀ i : Nat, i < 3 → h'.at T.vb (T.vo + i) = h.at T.vb (T.vo + i) := fun i hi => e _ _ (.inl ⟨rfl, by omega, by omega⟩)
    have eb : ∀ i : Nat, i < T.cap → h'.at T.bb (T.bo + i) = h.at T.bb (T.bo + i) := fun i hi => e _ _ (.inr ⟨rfl, by omega, by omega⟩)
    refine ⟨l', k, ⟨⟨?_, ?_, ?_⟩, ?_⟩, hl, hk, ho⟩
    · have := es 0 (by omega); simp only [Int.natCast_zero, Int.add_zero] at this; rw [this]; exact b1
    · rw [show T.vo + 1 = T.vo + (1 : Nat) by rfl, es 1 (by omega)]; exact b2
    · refine ⟨b3.1, ?_, fun i c hc => ?_⟩
      · have h1 : (h'.at T.bb (T.bo + (T.cap - 1 : Nat))).isSome = true := by
          rw [eb _ (by have := v.cap; omega)]
          exact b3.isSome (by have := v.cap; omega)
        rw [Heap.isSome_at] at h1
        have := v.cap
        omega
      · have hi : i < l'.length := by
          by_contra hi
          rw [List.getElem?_eq_none (by omega)] at hc
          cases hc
        rw [eb i (by omega)]
        exact b3.2.2 i c hc
    · rw [show T.vo + 2 = T.vo + (2 : Nat) by rfl, es 2 (by omega)]; exact b4

/-! ## Places -/

theorem apart_span {b1 b2 : Base} {o1 o2 : Int} {n1 n2 : Nat} (p : b1 ≠ b2 ∨ o1 + (n1 : Int) ≤ o2 ∨ o2 + (n2 : Int) ≤ o1) {b : Base} {o : Int}
    (s1 : span b1 o1 n1 b o) (s2 : span b2 o2 n2 b o) : False := by
  obtain ⟨rfl, s1, s1'⟩ := s1
  obtain ⟨rfl, s2, s2'⟩ := s2
  rcases p with p | p | p
  · exact p rfl
  · omega
  · omega

theorem Spot.Ok.vec (q : T.Ok A h l d r) : T.Vec A l := by
  have a := q.apart
  have w := q.wr
  simp only [Spot.regions, List.pairwise_cons, List.mem_cons, List.not_mem_nil, or_false, forall_eq_or_imp, forall_eq] at a w
  exact ⟨w.1, w.2.1, a.1.1, q.cap.1, q.cap.2, q.lenl⟩

theorem Spot.Ok.cell (q : T.Ok A h l d r) {x : Base × Int × Nat} (hx : x ∈ T.regions) {b : Base} {o : Int} (hs : span x.1 x.2.1 x.2.2 b o) :
    (h.at b o).isSome = true ∧ b.isLit = false := by
  obtain ⟨rfl, s1, s2⟩ := hs
  refine ⟨?_, q.wr x hx⟩
  have := q.room x hx (o - x.2.1).toNat (by omega)
  rwa [show x.2.1 + ((o - x.2.1).toNat : Int) = o by omega] at this

theorem Spot.Ok.placed (q : T.Ok A h l d r) : (T.emitter A l).Placed A h := by
  have a := q.apart
  have w := q.wr
  have rm := q.room
  simp only [Spot.regions, List.pairwise_cons, List.mem_cons, List.not_mem_nil, or_false, forall_eq_or_imp, forall_eq] at a w rm
  have hold : ∀ b o, vecCells T.vb T.vo T.bb T.bo T.cap b o → (h.at b o).isSome = true ∧ b.isLit = false := by
    rintro b o (hs | hs)
    · exact q.cell (x := (T.vb, T.vo, 3)) (by simp [Spot.regions]) hs
    · exact q.cell (x := (T.bb, T.bo, T.cap)) (by simp [Spot.regions]) hs
  refine ⟨q.fresh, w.2.2.1, w.2.2.2.1, rm.2.2.1, rm.2.2.2.1, ?_, ?_, ?_, by simp [Spot.emitter], q.len, fun b o hs => (hold b o hs).2⟩
  · rintro i k hi hk ⟨e1, e2⟩
    simp only [Spot.emitter] at hk e1 e2
    exact apart_span a.2.2.1.1 (b := T.jb) (o := T.jo + i) ⟨rfl, by omega, by omega⟩ ⟨e1, by omega, by omega⟩
  · rintro b o (hs | hs) (ht | ht)
    · exact apart_span a.1.2.1 hs ht
    · exact apart_span a.1.2.2.1 hs ht
    · exact apart_span a.2.1.1 hs ht
    · exact apart_span a.2.1.2.1 hs ht
  · intro k o hs
    have := (hold _ _ hs).1
    by_contra hk
    rw [Heap.isSome_at] at this
    have := q.fresh k (by omega)
    simp [Heap.cells, this] at *
    omega

/-! ## Emitting -/

theorem Spot.Texts.unsigned {P : Plat} (q : T.Texts β h m) {c : Call} (ok : Mu.Jems.Spec.CallOk P m c) : UnsignedCall β h c := by
  have key : ∀ x, Mu.Jems.Spec.ItemOk P m x → Unsigned β h x := by
    intro x hx
    cases x with
    | bytes p k =>
      obtain ⟨s, h0, h1, h2, -⟩ := hx
      intro i v hi hv
      have hc : ((m p.blk).drop p.off.toNat).take k = s := h1
      have : s[i]? = (m p.blk)[p.off.toNat + i]? := by
        rw [← hc, List.getElem?_take_of_lt hi, List.getElem?_drop]
      rw [List.getElem?_eq_getElem (by omega)] at this
      have := (q p.blk (p.off.toNat + i) _ this.symm).2
      rw [show (β p.blk).2 + ((p.off.toNat + i : Nat) : Int) = (β p.blk).2 + p.off + (i : Nat) by omega, hv] at this
      injection this with this
      injection this with this
      omega
    | _ => trivial
  cases c with
  | item x => exact key x ok
  | key k x => exact key x ok.2
  | _ => trivial

/-- **C136, emitting**: the calls for document `x` all return, and leave in the bytes of the vector its text, cut off where the room
ends, and in the vector the length of the text; nothing else changes. -/
theorem C136_emit (hx : VecWriter X T.w) (q : T.Ok A h l d r) (t : T.Texts β h m) (hL : ∀ k, (m k).length ≤ L) (hn : L + 37 ≤ n)
    (h1 : 1 ≤ D) (h2 : D ≤ T.len) {x : Doc} {cs : List Call} (w : Writes A.toPlat m x cs) (hd : depth x < D) (hf : Fits A.szMod x)
    (hlt : (render x).length < A.szMod) :
    ∃ h', T.emit (sem A X prog n) β h D cs = .ok h' ∧
      h'.BBuf T.vb T.vo T.bb T.bo ((render x).take T.cap ++ l.drop (render x).length) ∧
      h'.at T.vb (T.vo + 2) = some (.int (render x).length) ∧ Heap.Only T.Sends h h' := by
  obtain ⟨n, rfl⟩ : ∃ k, n = k + 4 := ⟨n - 4, by omega⟩
  have v := q.vec
  have hap : Apart T.vb T.vo 3 T.bb T.bo l.length := by rw [v.len]; exact v.apart
  have rm := q.room (T.vb, T.vo, 3) (by simp [Spot.regions])
  obtain ⟨-, e1, -, bv, o1⟩ := src_vinit (A := A) (X := X) (n + 2) (hw := v.wr) rm q.buf hap
  generalize (h.setBBuf T.vb T.vo (.ptr T.bb T.bo) l.length).upd T.vb (T.vo + 2) (.int 0) = g at *
  rw [v.len] at e1
  have q1 : T.Ok A g l d r := by
    have a := q.apart
    simp only [Spot.regions, List.pairwise_cons, List.mem_cons, List.not_mem_nil, or_false, forall_eq_or_imp, forall_eq] at a
    refine ⟨?_, q.wr, fun x hx i hi => (o1.isSome _ _).mpr (q.room x hx i hi), q.apart, bv.buf.bytes, ?_, ?_, q.lenl, q.lend, q.lenr, q.cap, q.len⟩
    · intro k hk
      have := o1.size (.obj k)
      rw [o1.next] at hk
      have hz := q.fresh k hk
      simp only [Heap.cells, hz, List.length_nil, List.length_eq_zero_iff] at this
      exact this
    · exact o1.bytes q.frame fun i hi hs => apart_span a.1.2.2.2.1 hs ⟨rfl, by omega, by have := q.lend; omega⟩
    · exact o1.bytes q.recv fun i hi hs => apart_span a.1.2.2.2.2.1 hs ⟨rfl, by omega, by have := q.lenr; omega⟩
  have t1 : T.Texts β g m := by
    intro k i c hc
    obtain ⟨t1, t2⟩ := t k i c hc
    exact ⟨t1, o1.at_of t2 fun hs => t1 (.inl hs)⟩
  have i1 : (T.emitter A l).inv [] g := ⟨l, 0, bv, v.len, A.szMod_pos, fun _ => by simp⟩
  have us : ∀ b o, (T.emitter A l).Uses b o ↔ T.Sends b o := by
    intro b o
    simp only [Emitter.Uses, Emitter.Own, Spot.emitter, vecCells, Spot.Sends, or_assoc]
  obtain ⟨h', e2, i2, o2⟩ := C130_document (A := A) (X := X) (n := n) (n0 := 3) (out := []) (β := β) (m := m) (writes hx v) q1.placed h1 h2 i1 hL (by omega)
    (fun k i c hc => ⟨fun hu => (t1 k i c hc).1 ((us _ _).mp hu), _, (t1 k i c hc).2, .inl rfl⟩) w hd hf
    (fun c hc => t1.unsigned (writes_callOk w c hc))
  refine ⟨h', ?_, ?_⟩
  · unfold Spot.emit
    unfold Emitter.run at e2
    simp only [Spot.emitter] at e2
    rw [show n + 4 = n + 2 + 2 from rfl] at *
    rw [e1]
    simp only [C.ok_bind]
    obtain ⟨⟨j, g2⟩, e3, e4⟩ := C.bind_eq_ok e2
    rw [e3]
    simp only [C.ok_bind]
    simp only at e4
    rw [e4]
    rfl
  · obtain ⟨l', c, b', hl, hc, hh⟩ := i2
    obtain ⟨rfl, rfl⟩ := hh hlt
    exact ⟨b'.buf, b'.cnt, (o1.mono fun b o hs => .inl hs).trans (o2.mono fun b o hs => (us b o).mp hs)⟩

theorem stuff_length_le (p : List UInt8) : p.length ≤ (Mu.Bisync.Spec.stuff p).length := by
  induction p with
  | nil => simp
  | cons a p ih =>
    have : Mu.Bisync.Spec.stuff (a :: p) = (if Mu.Bisync.Spec.isControl a then [16, a] else [a]) ++ Mu.Bisync.Spec.stuff p := rfl
    rw [this]
    split <;> simp <;> omega

/-- **C136, sent and received**: if there is room for the text, for the frame and for what is received, `mu_bisync_encode` returns
the length of the frame of the text, and `mu_bisync_decode` one more than the length of the text; the `mu_bbuf_t` made of the rest then
shows the text, and a JSON reader applied to it returns the document. -/
theorem C136_received (hx : VecWriter X T.w) (q : T.Ok A h l d r) (t : T.Texts β h m) (hL : ∀ k, (m k).length ≤ L) (hn : L + 37 ≤ n)
    (h1 : 1 ≤ D) (h2 : D ≤ T.len) {x : Doc} {cs : List Call} (w : Writes A.toPlat m x cs) (hd : depth x < D) (hf : Fits A.szMod x)
    (fit : (render x).length ≤ T.cap) (fitd : (frame (render x)).length ≤ T.dlen) (fitr : (render x).length + 1 ≤ T.rlen)
    (hI : (T.dlen : Int) ≤ A.intMax) (hI2 : (T.rlen : Int) ≤ A.intMax) (hn2 : T.dlen + 2 ≤ n) :
    ∃ h' h'' t, T.send (sem A X prog n) β h D cs = .ok (.int (frame (render x)).length, h') ∧
      T.receive (sem A X prog n) h' (.int (frame (render x)).length) = .ok (.int (t.length + 1 : Nat), h'') ∧
      h''.BBuf T.tb T.tof T.rb (T.ro + 1) t ∧ t = render x ∧ Mu.Jems.Spec.read t = some x := by
  obtain ⟨h3, e3, b3, c3, o3⟩ := C136_emit hx q t hL hn h1 h2 w hd hf (by have := q.cap.2; omega)
  have a := q.apart
  have wr := q.wr
  have rm := q.room
  simp only [Spot.regions, List.pairwise_cons, List.mem_cons, List.not_mem_nil, or_false, forall_eq_or_imp, forall_eq] at a wr rm
  have hlf : (render x).length + 2 ≤ (frame (render x)).length := by
    have := stuff_length_le (render x)
    simp only [frame, List.length_cons, List.length_append, List.length_nil]
    omega
  -- memory after emitting
  have f3 : h3.Fresh := by
    intro k hk
    rw [o3.next] at hk
    have := o3.size (.obj k)
    simp only [Heap.cells, q.fresh k hk, List.length_nil, List.length_eq_zero_iff] at this
    exact this
  have text : h3.Bytes T.bb T.bo (render x) := by
    have := b3.bytes
    rw [List.take_of_length_le fit] at this
    have := this.sub (q := (render x).length) (p := 0) (by simp)
    simpa using this
  have d3 : h3.Bytes T.db T.dof d := o3.bytes q.frame fun i hi hs => by
    have : span T.db T.dof T.dlen T.db (T.dof + i) := ⟨rfl, by omega, by have := q.lend; omega⟩
    rcases hs with hs | hs | hs | hs
    · exact apart_span a.1.2.2.2.1 hs this
    · exact apart_span a.2.1.2.2.1 hs this
    · exact apart_span a.2.2.1.2.1 hs this
    · exact apart_span a.2.2.2.1.1 hs this
  have r3 : h3.Bytes T.rb T.ro r := o3.bytes q.recv fun i hi hs => by
    have : span T.rb T.ro T.rlen T.rb (T.ro + i) := ⟨rfl, by omega, by have := q.lenr; omega⟩
    rcases hs with hs | hs | hs | hs
    · exact apart_span a.1.2.2.2.2.1 hs this
    · exact apart_span a.2.1.2.2.2.1 hs this
    · exact apart_span a.2.2.1.2.2.1 hs this
    · exact apart_span a.2.2.2.1.2.1 hs this
  -- framing
  have ap1 : Apart T.db T.dof d.length T.bb T.bo (render x).length := by
    rw [q.lend]
    rcases a.2.1.2.2.1 with p | p | p
    · exact .inl (Ne.symm p)
    · exact .inr (.inr (by omega))
    · exact .inr (.inl p)
  obtain ⟨h4, e4, b4, o4⟩ := C119_encode_source A X n h3 T.db T.bb T.dof T.bo d (render x) f3 wr.2.2.2.2.1 d3 text ap1 (by rw [q.lend]; exact hI)
    (by have := q.cap.2; omega) (by omega)
  have b4 := b4 (by rw [q.lend]; exact fitd)
  rw [if_pos (by rw [q.lend]; exact fitd), q.lend] at e4
  have e5 := src_vcount (A := A) (X := X) (n - 1) (h := h3) ⟨b3, c3⟩
  rw [show n - 1 + 1 = n by omega] at e5
  -- receiving
  have f4 : h4.Fresh := by
    intro k hk
    rw [o4.next] at hk
    have := o4.size (.obj k)
    simp only [Heap.cells, f3 k hk, List.length_nil, List.length_eq_zero_iff] at this
    exact this
  have r4 : h4.Bytes T.rb T.ro r := o4.bytes r3 fun i hi hs => apart_span a.2.2.2.2.1.1 (b := T.rb) (o := T.ro + i) (by rw [q.lend] at hs; exact hs)
    ⟨rfl, by omega, by have := q.lenr; omega⟩
  have fr4 : h4.Bytes T.db T.dof (frame (render x)) := by
    have := b4.sub (q := (frame (render x)).length) (p := 0) (by simp)
    simpa using this
  have ap2 : Apart T.rb T.ro r.length T.db T.dof (1 :: (Mu.Bisync.Spec.stuff (render x) ++ [4])).length := by
    have hfl : (1 :: (Mu.Bisync.Spec.stuff (render x) ++ [4])).length ≤ T.dlen := fitd
    rw [q.lenr]
    rcases a.2.2.2.2.1.1 with p | p | p
    · exact .inl (Ne.symm p)
    · exact .inr (.inr (by omega))
    · exact .inr (.inl p)
  obtain ⟨v, h5, e6, b5, o5, -, hv⟩ := C119_decode_source A X n h4 T.rb T.db T.ro T.dof r (Mu.Bisync.Spec.stuff (render x)) (render x) [4] f4
    wr.2.2.2.2.2.1 r4 fr4 ap2 (by rw [q.lenr]; exact hI2)
    (by have hfl : (1 :: (Mu.Bisync.Spec.stuff (render x) ++ [4])).length ≤ T.dlen := fitd
        omega)
    (by have hfl : (1 :: (Mu.Bisync.Spec.stuff (render x) ++ [4])).length ≤ T.dlen := fitd
        omega) (Mu.Bisync.body_stuff (render x)) (.inr (.inr ⟨[], rfl⟩))
  have hv := (hv (by rw [q.lenr]; exact fitr)).1 (.inl ⟨[], rfl⟩)
  subst hv
  have text5 : h5.Bytes T.rb (T.ro + 1) (render x) := by
    rw [List.take_of_length_le (by simp [q.lenr]; omega)] at b5
    have := b5.sub (q := (render x).length + 1) (p := 1) (by simp)
    simpa using this
  have rt : Room2 h5 T.tb T.tof := by
    refine ⟨wr.2.2.2.2.2.2, ?_, ?_⟩
    · rw [o5.isSome, o4.isSome, o3.isSome]; simpa using rm.2.2.2.2.2.2 0 (by omega)
    · rw [o5.isSome, o4.isSome, o3.isSome]; exact rm.2.2.2.2.2.2 1 (by omega)
  have ap3 : Apart T.tb T.tof 2 T.rb (T.ro + 1) (render x).length := by
    rcases a.2.2.2.2.2.1 with p | p | p
    · exact .inl (Ne.symm p)
    · exact .inr (.inr (by omega))
    · exact .inr (.inl (by omega))
  obtain ⟨⟨h6, e7, b6, -⟩, -⟩ := C121_init A X (n - 1) h5 _ _ _ _ _ text5 rt ap3
  rw [show n - 1 + 1 = n by omega] at e7
  refine ⟨h4, h6, render x, ?_, ?_, b6, rfl, Mu.Jems.read_render x⟩
  · unfold Spot.send
    rw [e3]
    simp only [C.ok_bind]
    rw [e5]
    simp only [C.ok_bind]
    exact e4
  · unfold Spot.receive
    rw [q.lenr] at e6
    rw [show (1 :: (Mu.Bisync.Spec.stuff (render x) ++ [4])).length = (frame (render x)).length from rfl] at e6
    rw [e6]
    simp only [C.ok_bind]
    rw [show (((render x).length + 1 : Nat) : Int) - 1 = (render x).length by omega, e7]
    rfl

/-- **C136, integers**: a document that is one integer in the range of `int` (other than the least) comes out of `mu_bbuf_parse_int`,
applied to the text received. -/
theorem C136_integer (hx : VecWriter X T.w) (q : T.Ok A h l d r) (t : T.Texts β h m) (hL : ∀ k, (m k).length ≤ L) (hn : L + 37 ≤ n)
    (h1 : 1 ≤ D) (h2 : D ≤ T.len) {v : Int} (hv : -(2 ^ (A.ib - 1) - 1) ≤ v ∧ v ≤ 2 ^ (A.ib - 1) - 1) (hv64 : -(2 ^ 63) ≤ v ∧ v < 2 ^ 63)
    (fit : (render (.int v)).length ≤ T.cap) (fitd : (frame (render (.int v))).length ≤ T.dlen) (fitr : (render (.int v)).length + 1 ≤ T.rlen)
    (hI : (T.dlen : Int) ≤ A.intMax) (hI2 : (T.rlen : Int) ≤ A.intMax) (hn2 : T.dlen + 2 ≤ n) :
    ∃ h' h'' k k', T.send (sem A X prog n) β h D [.item (.integer v)] = .ok (k, h') ∧
      T.receive (sem A X prog n) h' k = .ok (k', h'') ∧
      sem A X prog n .mu_bbuf_parse_int h'' [.ptr T.tb T.tof] = .ok (.int v, h'') := by
  obtain ⟨h', h'', t, e1, e2, b, rfl, -⟩ := C136_received hx q t hL hn h1 h2 (x := .int v) (.int v hv64.1 hv64.2)
    (by simp [depth]; omega) (by simp [Fits]) fit fitd fitr hI hI2 hn2
  refine ⟨h', h'', _, _, e1, e2, ?_⟩
  have hlf : (render (.int v)).length + 2 ≤ (frame (render (.int v))).length := by
    have := stuff_length_le (render (.int v))
    simp only [frame, List.length_cons, List.length_append, List.length_nil]
    omega
  have p := (C120_parse_signed A X n h'' _ _ _ _ _ b (show ((render (.int v)).length : Int) ≤ A.intMax by omega) (by omega)).2.2.2.2
  have lv : BBuf.leadingInt (render (.int v)) = v := by
    have := Mu.Jems.leadingInt_fmt v (r := []) (by simp)
    rw [List.append_nil] at this
    exact this
  rw [lv] at p
  exact p ⟨.inl (by simp), fun _ => hv⟩

/-- **C136, not enough room**: if the text of a document that is not a bare number is longer than the vector has room for,
`mu_bvec_get_count` returns more than `mu_bvec_get_capacity`, no byte is available, and what the vector holds is not well-formed JSON; the
memory after it is untouched. -/
theorem C136_truncated (hx : VecWriter X T.w) (q : T.Ok A h l d r) (t : T.Texts β h m) (hL : ∀ k, (m k).length ≤ L) (hn : L + 37 ≤ n)
    (h1 : 1 ≤ D) (h2 : D ≤ T.len) {x : Doc} {cs : List Call} (w : Writes A.toPlat m x cs) (hd : depth x < D) (hf : Fits A.szMod x)
    (hlt : (render x).length < A.szMod) (hb : ¬ Mu.Jems.IsNum x) (no : T.cap < (render x).length) :
    ∃ h' l', T.emit (sem A X prog n) β h D cs = .ok h' ∧ Heap.Only T.Sends h h' ∧
      sem A X prog n .mu_bvec_get_count h' [.ptr T.vb T.vo] = .ok (.int (render x).length, h') ∧
      sem A X prog n .mu_bvec_get_capacity h' [.ptr T.vb T.vo] = .ok (.int T.cap, h') ∧
      sem A X prog n .mu_bvec_get_available h' [.ptr T.vb T.vo] = .ok (.int 0, h') ∧
      h'.Bytes T.bb T.bo l' ∧ l'.length = T.cap ∧ Mu.Jems.Spec.read l' = none := by
  obtain ⟨h3, e3, b3, c3, o3⟩ := C136_emit hx q t hL hn h1 h2 w hd hf hlt
  rw [List.drop_of_length_le (by have := q.lenl; omega), List.append_nil] at b3
  obtain ⟨n, rfl⟩ : ∃ k, n = k + 2 := ⟨n - 2, by omega⟩
  have hlen : ((render x).take T.cap).length = T.cap := by simp; omega
  have e1 := src_vcount (A := A) (X := X) (n + 1) (h := h3) ⟨b3, c3⟩
  have e2 := src_vcapacity (A := A) (X := X) n (h := h3) ⟨b3, c3⟩
  have e4 := src_vavailable (A := A) (X := X) n (h := h3) ⟨b3, c3⟩ (by rw [hlen]; exact q.cap.2) hlt
  rw [hlen] at e2 e4
  rw [Nat.sub_eq_zero_of_le (by omega)] at e4
  refine ⟨h3, _, e3, o3, e1, e2, e4, b3.bytes, hlen, ?_⟩
  refine Mu.Jems.read_cut hb (q := (render x).drop T.cap) (List.take_append_drop _ _) ?_
  intro hc
  have := congrArg List.length hc
  simp at this
  omega

/-! ## A program -/

/-- Bytes for texts, a vector, a `mu_jems_t` and so on, not initialised. -/
def teleDemo : Heap where
  mem
    | .obj 0 => List.replicate 3 .undef
    | .obj 1 => List.replicate 10 (.int 0)
    | .obj 2 => List.replicate 5 .undef
    | .obj 3 => List.replicate 4 .undef
    | .obj 4 => List.replicate 20 (.int 0)
    | .obj 5 => List.replicate 12 (.int 0)
    | .obj 6 => List.replicate 2 .undef
    | _ => []
  next := 7

def teleDemoT : Spot where
  vb := .obj 0
  vo := 0
  bb := .obj 1
  bo := 0
  cap := 10
  jb := .obj 2
  jo := 0
  lb := .obj 3
  lo := 0
  len := 2
  w := 9
  db := .obj 4
  dof := 0
  dlen := 20
  rb := .obj 5
  ro := 0
  rlen := 12
  tb := .obj 6
  tof := 0

/-- Any platform, with the writer function. -/
def teleDemoFns (X : Ext) : Ext where
  fn := X.fn
  cb S f h args :=
    match f, args with
    | 9, [.int v, .ptr b o] => do
      let (_, h) ← S .mu_bvec_write_byte h [.ptr b o, .int (v % 256)]
      .ok (.undef, h)
    | _, _ => X.cb S f h args

theorem teleDemo_writer (X : Ext) : VecWriter (teleDemoFns X) teleDemoT.w := fun _ _ _ _ _ => rfl

theorem rep_bytes {h : Heap} {k n : Nat} (e : h.cells (.obj k) = List.replicate n (.int 0)) : h.Bytes (.obj k) 0 (List.replicate n 0) := by
  refine ⟨by omega, by simp [e], fun i c hc => ?_⟩
  rw [List.getElem?_replicate] at hc
  split at hc
  · injection hc with hc
    subst hc
    rename_i hi
    simp [Heap.at, e, hi]
  · cases hc

theorem teleDemo_ok : teleDemoT.Ok .lp64 teleDemo (List.replicate 10 0) (List.replicate 20 0) (List.replicate 12 0) where
  fresh k hk := by
    have : 7 ≤ k := hk
    match k with
    | k + 7 => rfl
  wr := by decide
  room := by
    intro x hx i hi
    rw [Heap.isSome_at]
    simp only [Spot.regions, List.mem_cons, List.not_mem_nil, or_false] at hx
    rcases hx with rfl | rfl | rfl | rfl | rfl | rfl | rfl <;> simp [teleDemoT, teleDemo, Heap.cells] at hi ⊢ <;> omega
  apart := by decide
  buf := rep_bytes rfl
  frame := rep_bytes rfl
  recv := rep_bytes rfl
  lenl := rfl
  lend := rfl
  lenr := rfl
  cap := ⟨by decide, by decide⟩
  len := by decide

/-- `[-4,true]` through the vector and the frame. -/
example (X : Ext) : ∃ h' h'' t, teleDemoT.send (sem .lp64 (teleDemoFns X) prog 40) (fun _ => (.obj 7, 0)) teleDemo 2
      [.item .arrayOpen, .item (.integer (-4)), .item .true, .arrayClose] = .ok (.int 11, h') ∧
    teleDemoT.receive (sem .lp64 (teleDemoFns X) prog 40) h' (.int 11) = .ok (.int 10, h'') ∧
    h''.BBuf (.obj 6) 0 (.obj 5) 1 t ∧ Mu.Jems.Spec.read t = some (.arr [.int (-4), .bool true]) := by
  have hr : render (.arr [.int (-4), .bool true]) = [91, 45, 52, 44, 116, 114, 117, 101, 93] := by decide +kernel
  obtain ⟨h', h'', t, e1, e2, b, rfl, e⟩ := C136_received (A := .lp64) (X := teleDemoFns X) (β := fun _ => (.obj 7, 0)) (m := fun _ => []) (L := 0)
    (D := 2) (n := 40) (teleDemo_writer X) teleDemo_ok
    (fun k i c hc => by simp at hc) (fun _ => by simp) (by omega) (by omega) (by decide) (x := .arr [.int (-4), .bool true])
    (.arr (.cons (.int (-4) (by omega) (by omega)) (.cons .true .nil))) (by decide) ⟨by decide, trivial, trivial, trivial⟩
    (by rw [hr]; decide) (by rw [hr]; decide) (by rw [hr]; decide) (by decide) (by decide) (by decide)
  rw [hr] at e1 e2 b e
  exact ⟨h', h'', _, e1, e2, b, e⟩

end Mu.CS.Tele
