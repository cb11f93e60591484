import Verif.Lemmas.SrcBisync
import Verif.Props.BisyncMem
import Verif.Props.SrcQueue

/-! # Property C119: the parsed source of mu_bisync.c

The statements are about the syntax trees read off /repo and the specification of the framing
(`Verif/Spec/Bisync.lean`).  `Heap.Bytes h b o l` says that memory holds the bytes `l` at offset `o`
of object `b`; `span b o n` are the `n` cells there; `Heap.Only S h h'` that the two memories differ
in the cells of `S` only. -/

namespace Mu.CS

open Bisync Bisync.Spec

variable {A : Arch} {X : Ext}

/-- Two byte arrays that do not overlap. -/
def Apart (b : Base) (o : Int) (n : Nat) (b' : Base) (o' : Int) (n' : Nat) : Prop :=
  b ≠ b' ∨ o + n ≤ o' ∨ o' + n' ≤ o

/-- The byte memory of two arrays. -/
def two (d s : List UInt8) : Mem := fun k => if k = 0 then d else if k = 1 then s else []
/-- Where they are. -/
def twoPl (bd : Base) (od : Int) (bs : Base) (os : Int) : Place :=
  fun k => if k = 0 then (bd, od) else (bs, os)

theorem MRep.two {h : Heap} {bd bs : Base} {od os : Int} {d s : List UInt8}
    (hd : h.Bytes bd od d) (hs : h.Bytes bs os s) (ha : Apart bd od d.length bs os s.length) :
    MRep (twoPl bd od bs os) h (two d s) := by
  constructor
  · intro k
    by_cases h0 : k = 0
    · simpa [twoPl, CS.two, h0] using hd
    · by_cases h1 : k = 1
      · simpa [twoPl, CS.two, h1] using hs
      · simp only [twoPl, CS.two, h0, h1, if_false]
        exact ⟨hs.1, by have := hs.2.1; simp; omega, by intro i c e; simp at e⟩
  · intro k k' i i' hk hi hi'
    simp only [twoPl, CS.two] at *
    by_cases h0 : k = 0 <;> by_cases h0' : k' = 0 <;> by_cases h1 : k = 1 <;>
      by_cases h1' : k' = 1 <;> simp_all [Apart] <;> intro e <;> rcases ha with ha | ha | ha <;>
      first | exact absurd e ha | exact absurd e.symm ha | omega

theorem src_encode_two {h : Heap} {bd bs : Base} {od os : Int} {d d' s : List UInt8} {cap n : Nat}
    {v : Int} (hf : h.Fresh) (hw : bd.isLit = false) (hd : h.Bytes bd od d) (hs : h.Bytes bs os s)
    (ha : Apart bd od d.length bs os s.length) (hl : s.length < A.szMod) (hn : s.length + 2 ≤ n)
    (e : encode A.toPlat d cap s s.length = .ok (v, d')) :
    ∃ h', sem A X prog n .mu_bisync_encode h [.ptr bd od, .int cap, .ptr bs os, .int s.length] =
        .ok (.int v, h') ∧ h'.Bytes bd od d' ∧ Heap.Only (span bd od d.length) h h' := by
  obtain ⟨n, rfl⟩ : ∃ k, n = k + 1 := ⟨n - 1, by omega⟩
  have r := MRep.two hd hs ha
  have em : encodeM A.toPlat (two d s) ⟨0, 0⟩ cap ⟨1, 0⟩ s.length = .ok (v, (two d s).set 0 d') := by
    rw [C111_encode_in_place _ _ _ _ _ _ ⟨by simp, by simp⟩ (by simp) (Or.inl (by simp))]
    simp [two, e, Except.map, placed, emb]
  obtain ⟨h', s', r', l', o'⟩ := src_encode (A := A) (X := X) n r hf (by simpa [twoPl] using hw) hl
    (by omega) em
  refine ⟨h', by simpa [pv, twoPl] using s', ?_, by simpa [blockCells, twoPl, two] using o'⟩
  simpa [twoPl, Mem.set] using r'.bytes 0

theorem src_decode_two {h : Heap} {bd bs : Base} {od os : Int} {d d' s : List UInt8} {cap n : Nat}
    {v : Int} (hf : h.Fresh) (hw : bd.isLit = false) (hd : h.Bytes bd od d) (hs : h.Bytes bs os s)
    (ha : Apart bd od d.length bs os s.length) (hl : s.length < A.szMod) (hn : s.length + 2 ≤ n)
    (e : decode A.toPlat d cap s s.length = .ok (v, d')) :
    ∃ h', sem A X prog n .mu_bisync_decode h [.ptr bd od, .int cap, .ptr bs os, .int s.length] =
        .ok (.int v, h') ∧ h'.Bytes bd od d' ∧ Heap.Only (span bd od d.length) h h' := by
  obtain ⟨n, rfl⟩ : ∃ k, n = k + 1 := ⟨n - 1, by omega⟩
  have r := MRep.two hd hs ha
  have em : decodeM A.toPlat (two d s) ⟨0, 0⟩ cap ⟨1, 0⟩ s.length = .ok (v, (two d s).set 0 d') := by
    rw [C111_decode_in_place _ _ _ _ _ _ ⟨by simp, by simp⟩ (by simp) (Or.inl (by simp))]
    simp [two, e, Except.map, placed, emb]
  obtain ⟨h', s', r', l', o'⟩ := src_decode (A := A) (X := X) n r hf (by simpa [twoPl] using hw) hl
    (by omega) em
  refine ⟨h', by simpa [pv, twoPl] using s', ?_, by simpa [blockCells, twoPl, two] using o'⟩
  simpa [twoPl, Mem.set] using r'.bytes 0

theorem le_szMod_of_intMax {A : Arch} {n : Nat} (h : (n : Int) ≤ A.intMax) : n < A.szMod := by
  have := A.intMax_lt_szMod
  have := A.intMax_ge
  omega

/-- **C119, encode.**  Let memory hold the payload `p` and, not overlapping it, a destination of
`d.length` bytes.  `mu_bisync_encode` runs without a fault.  If the frame of `p` (SOH, the payload
with a DLE before each control byte, EOT) fits it is what the destination then begins with, and its
length is returned; else `MU_BISYNC_ERR_OFLOW`.  Only the destination changes. -/
theorem C119_encode_source (A : Arch) (X : Ext) (n : Nat) (h : Heap) (bd bs : Base) (od os : Int)
    (d p : List UInt8) (hf : h.Fresh) (hw : bd.isLit = false) (hd : h.Bytes bd od d)
    (hp : h.Bytes bs os p) (ha : Apart bd od d.length bs os p.length)
    (hI : (d.length : Int) ≤ A.intMax) (hl : p.length < A.szMod) (hn : p.length + 2 ≤ n) :
    ∃ h', sem A X prog n .mu_bisync_encode h
        [.ptr bd od, .int d.length, .ptr bs os, .int p.length] =
        .ok (.int (if (frame p).length ≤ d.length then ((frame p).length : Int) else -1), h') ∧
      ((frame p).length ≤ d.length →
        h'.Bytes bd od (frame p ++ d.drop (frame p).length)) ∧
      Heap.Only (span bd od d.length) h h' := by
  obtain ⟨c1, c2⟩ := C01_encode_exact A.toPlat d d.length p p.length (Nat.le_refl _) (Nat.le_refl _) hI
  rw [List.take_length] at c1 c2
  by_cases hfit : (frame p).length ≤ d.length
  · obtain ⟨h', s', b', o'⟩ := src_encode_two (A := A) (X := X) (n := n) hf hw hd hp ha hl hn (c1 hfit)
    exact ⟨h', by rw [if_pos hfit]; exact s', fun _ => b', o'⟩
  · obtain ⟨d', e, -, -⟩ := c2 (by omega)
    obtain ⟨h', s', b', o'⟩ := src_encode_two (A := A) (X := X) (n := n) hf hw hd hp ha hl hn e
    exact ⟨h', by rw [if_neg hfit]; exact s', fun x => absurd x hfit, o'⟩

/-- **C119, decode, any input that starts with SOH.**  Such an input is SOH, complete tokens `e` that
stand for `p`, and a rest `r` that is empty, a lone DLE, or an EOT with anything behind it
(`input_grammar`).  `mu_bisync_decode` writes SOH and `p`, as far as the destination reaches, and
returns `MU_BISYNC_ERR_OFLOW` if they do not fit; else their number if there is an EOT (or, as in
finding C04, the last token is an escaped EOT), and `MU_BISYNC_ERR_FORMAT` otherwise. -/
theorem C119_decode_source (A : Arch) (X : Ext) (n : Nat) (h : Heap) (bd bs : Base) (od os : Int)
    (d e p r : List UInt8) (hf : h.Fresh) (hw : bd.isLit = false) (hd : h.Bytes bd od d)
    (hp : h.Bytes bs os (1 :: (e ++ r)))
    (ha : Apart bd od d.length bs os (1 :: (e ++ r)).length)
    (hI : (d.length : Int) ≤ A.intMax) (hl : ((1 :: (e ++ r)).length : Int) ≤ A.intMax)
    (hn : (1 :: (e ++ r)).length + 2 ≤ n) (hb : Body e p)
    (hr : r = [] ∨ r = [16] ∨ ∃ rest, r = 4 :: rest) :
    ∃ v h', sem A X prog n .mu_bisync_decode h
        [.ptr bd od, .int d.length, .ptr bs os, .int (1 :: (e ++ r)).length] = .ok (.int v, h') ∧
      h'.Bytes bd od ((1 :: p).take d.length ++ d.drop (p.length + 1)) ∧
      Heap.Only (span bd od d.length) h h' ∧
      (d.length < p.length + 1 → v = -1) ∧
      (p.length + 1 ≤ d.length →
        ((∃ rest, r = 4 :: rest) ∨ (r = [] ∧ EndsEscapedEot e) → v = (p.length + 1 : Nat)) ∧
        (r = [16] ∨ (r = [] ∧ ¬ EndsEscapedEot e) → v = -2)) := by
  obtain ⟨c1, c2, c3⟩ := C64_decode_exact A.toPlat d d.length e p r (Nat.le_refl _) hI hl hb hr
  have hl' := le_szMod_of_intMax hl
  by_cases hfit : d.length < p.length + 1
  · obtain ⟨h', s', b', o'⟩ := src_decode_two (A := A) (X := X) (n := n) hf hw hd hp ha hl' hn (c1 hfit)
    refine ⟨_, h', s', ?_, o', fun _ => rfl, fun x => by omega⟩
    rw [List.drop_length] at b'
    rw [List.drop_eq_nil_of_le (by omega)]
    exact b'
  · have hfit' : p.length + 1 ≤ d.length := by omega
    have ht : (1 :: p).take d.length = 1 :: p := List.take_of_length_le (by simpa using hfit')
    rw [ht]
    by_cases hend : (∃ rest, r = 4 :: rest) ∨ (r = [] ∧ EndsEscapedEot e)
    · obtain ⟨h', s', b', o'⟩ := src_decode_two (A := A) (X := X) (n := n) hf hw hd hp ha hl' hn
        (c2 hfit' hend)
      refine ⟨_, h', s', b', o', fun x => absurd x hfit, fun _ => ⟨fun _ => rfl, fun x => ?_⟩⟩
      rcases x with rfl | ⟨rfl, hne⟩ <;> rcases hend with ⟨_, hr'⟩ | ⟨hr', hx⟩
      · simp at hr'
      · simp at hr'
      · simp at hr'
      · exact absurd hx hne
    · have hend' : r = [16] ∨ (r = [] ∧ ¬ EndsEscapedEot e) := by
        rcases hr with rfl | rfl | hr
        · exact Or.inr ⟨rfl, fun x => hend (Or.inr ⟨rfl, x⟩)⟩
        · exact Or.inl rfl
        · exact absurd (Or.inl hr) hend
      obtain ⟨h', s', b', o'⟩ := src_decode_two (A := A) (X := X) (n := n) hf hw hd hp ha hl' hn
        (c3 hfit' hend')
      exact ⟨_, h', s', b', o', fun x => absurd x hfit, fun _ => ⟨fun x => absurd x hend, fun _ => rfl⟩⟩

/-- **C119, decode, any other input** is refused with `MU_BISYNC_ERR_FORMAT`, and the destination keeps
its content. -/
theorem C119_decode_source_refuses (A : Arch) (X : Ext) (n : Nat) (h : Heap) (bd bs : Base)
    (od os : Int) (d inp : List UInt8) (hf : h.Fresh) (hw : bd.isLit = false)
    (hd : h.Bytes bd od d) (hp : h.Bytes bs os inp) (ha : Apart bd od d.length bs os inp.length)
    (hl : (inp.length : Int) ≤ A.intMax) (hn : inp.length + 2 ≤ n) (h1 : inp.head? ≠ some 1) :
    ∃ h', sem A X prog n .mu_bisync_decode h
        [.ptr bd od, .int d.length, .ptr bs os, .int inp.length] = .ok (.int (-2), h') ∧
      h'.Bytes bd od d ∧ Heap.Only (span bd od d.length) h h' :=
  src_decode_two hf hw hd hp ha (le_szMod_of_intMax hl) hn
    (C64_no_soh A.toPlat d inp d.length (Nat.le_refl _) hl h1)

theorem length_le_stuff (p : List UInt8) : p.length ≤ (stuff p).length := by
  induction p with
  | nil => simp
  | cons c p ih =>
    have h1 : stuff (c :: p) = (if isControl c then [16, c] else [c]) ++ stuff p := rfl
    rw [h1, List.length_append, List.length_cons]
    split <;> simp <;> omega

/-- **C119, decoding where the frame lies.**  A buffer that holds the frame of `p` and anything
behind it, given as source and as destination: `p.length + 1` is returned, the buffer begins with SOH
and `p`, the bytes behind are as they were. -/
theorem C119_decode_source_in_place (A : Arch) (X : Ext) (n : Nat) (h : Heap) (b : Base) (o : Int)
    (p rest : List UInt8) (hf : h.Fresh) (hw : b.isLit = false) (hd : h.Bytes b o (frame p ++ rest))
    (hl : ((frame p ++ rest).length : Int) ≤ A.intMax) (hn : (frame p ++ rest).length + 2 ≤ n) :
    ∃ h', sem A X prog n .mu_bisync_decode h
        [.ptr b o, .int (frame p ++ rest).length, .ptr b o, .int (frame p ++ rest).length] =
        .ok (.int (p.length + 1 : Nat), h') ∧
      h'.Bytes b o (1 :: p ++ (frame p ++ rest).drop (p.length + 1)) ∧
      Heap.Only (span b o (frame p ++ rest).length) h h' := by
  obtain ⟨n, rfl⟩ : ∃ k, n = k + 1 := ⟨n - 1, by omega⟩
  have hlen : p.length + 2 ≤ (frame p).length := by
    have := length_le_stuff p
    simp [frame]; omega
  have r := MRep.two (bs := b) (s := []) (os := o) hd
    ⟨hd.1, by have := hd.2.1; simp at *; omega, by intro i c e; simp at e⟩
    (Or.inr (Or.inr (by simp)))
  obtain ⟨m', em, b', -⟩ := C111_frame_in_place A.toPlat (two (frame p ++ rest) []) 0 [] p rest
    (frame p ++ rest).length (by simp [two]) (Nat.le_refl _) hl (by simp; omega)
  obtain ⟨h', s', r', l', o'⟩ := src_decode (A := A) (X := X) n r hf (by simpa [twoPl] using hw)
    (le_szMod_of_intMax hl) (by omega) em
  refine ⟨h', by simpa [pv, twoPl] using s', ?_, by simpa [blockCells, twoPl, two] using o'⟩
  have := r'.bytes 0
  rw [b'] at this
  simpa [twoPl] using this

/-- Memory for the example: a payload with a control byte in object 0, eight bytes in object 1. -/
def bDemo : Heap where
  mem
    | .obj 0 => [.int 65, .int 4, .int 66]
    | .obj 1 => List.replicate 8 (.int 9)
    | _ => []
  next := 2

theorem bDemo_fresh : bDemo.Fresh := by
  intro k hk
  have hk : 2 ≤ k := hk
  obtain ⟨j, rfl⟩ : ∃ j, k = j + 2 := ⟨k - 2, by omega⟩
  rfl

theorem bDemo_bytes : bDemo.Bytes (.obj 0) 0 [65, 4, 66] ∧
    bDemo.Bytes (.obj 1) 0 (List.replicate 8 9) := by
  refine ⟨⟨by decide, by decide, ?_⟩, ⟨by decide, by decide, ?_⟩⟩
  · intro i c hc
    have hi := (List.getElem?_eq_some_iff.mp hc).1
    have : i = 0 ∨ i = 1 ∨ i = 2 := by simp at hi; omega
    rcases this with rfl | rfl | rfl <;> simp at hc <;> subst hc <;> decide
  · intro i c hc
    have hi := (List.getElem?_eq_some_iff.mp hc).1
    simp at hi
    rw [List.getElem?_replicate, if_pos hi] at hc
    cases hc
    rw [Heap.at, if_pos (by omega)]
    show (List.replicate 8 (CVal.int 9))[_]? = _
    rw [List.getElem?_replicate, if_pos (by omega)]; rfl

/-- Non-vacuity: the frame of `A EOT B` has six bytes and is what memory then holds. -/
example (X : Ext) : ∃ h', sem .lp64 X prog 5 .mu_bisync_encode bDemo
      [.ptr (.obj 1) 0, .int 8, .ptr (.obj 0) 0, .int 3] = .ok (.int 6, h') ∧
    h'.Bytes (.obj 1) 0 [1, 65, 16, 4, 66, 4, 9, 9] := by
  obtain ⟨h', e, b, -⟩ := C119_encode_source .lp64 X 5 bDemo (.obj 1) (.obj 0) 0 0
    (List.replicate 8 9) [65, 4, 66] bDemo_fresh rfl bDemo_bytes.2 bDemo_bytes.1
    (Or.inl (by simp)) (by decide) (by decide) (by decide)
  exact ⟨h', e, b (by decide)⟩

end Mu.CS
