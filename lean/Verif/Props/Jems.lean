import Verif.Lemmas.JemsRead
import Verif.Lemmas.JemsPos

/-! # Properties of mu_jems: C56 - C60 -/

namespace Mu.Jems
open BBuf hiding isDigit Fits
open Spec

/-- The contract of `mu_jems_init`: a writer, and an array of (at least) `max_level ≥ 1` levels
whose contents do not matter. -/
structure InitOk (P : Plat) (levels : List Level) (maxLevel : Nat) (writer : Val) : Prop where
  writer : writer ≠ NULL
  pos : 1 ≤ maxLevel
  len : maxLevel ≤ levels.length
  size : maxLevel < P.szMod

/-- The characters `text` passed to `writer`, in order, each with `arg`. -/
def written (writer : Val) (arg : Nat) (text : List UInt8) : List Emit :=
  text.map (fun c => ⟨writer, c, arg⟩)

/-- A state of the emitter reached from `mu_jems_init` by calls with valid arguments, balanced or
not. -/
def Reached (P : Plat) (m : Mem) (j : Jems) : Prop :=
  ∃ junk levels maxLevel writer arg j0 cs, InitOk P levels maxLevel writer ∧
    (∀ c ∈ cs, CallOk P m c) ∧ init junk levels maxLevel writer arg = .ok j0 ∧
    calls P m j0 cs = .ok j

theorem Reached.wf {P : Plat} {m : Mem} {j : Jems} (h : Reached P m j) : WF P j := by
  obtain ⟨junk, levels, maxLevel, writer, arg, j0, cs, hi, hc, e0, e⟩ := h
  obtain ⟨j0', e0', w0, _⟩ := init_ok (P := P) junk (levels := levels) arg
    hi.writer hi.pos hi.len hi.size
  obtain rfl : j0' = j0 := Except.ok.inj (e0'.symm.trans e0)
  obtain ⟨j', e', w, _⟩ := calls_any cs w0 hc
  obtain rfl : j' = j := Except.ok.inj (e'.symm.trans e)
  exact w

/-! ## C56 -/

/-- C56.  Emitting a document of depth below `max_level` writes exactly its compact text. -/
theorem C56_document {P : Plat} {m : Mem} (junk : Jems) {levels : List Level} {maxLevel : Nat}
    {writer : Val} (arg : Nat) (hi : InitOk P levels maxLevel writer) {x : Doc} {cs : List Call}
    (h : Writes P m x cs) (hd : depth x < maxLevel) (hf : Fits P.szMod x) :
    ∃ j0 j, init junk levels maxLevel writer arg = .ok j0 ∧ calls P m j0 cs = .ok j ∧
      j.out = junk.out ++ written writer arg (render x) := by
  obtain ⟨j0, e0, w0, c0, l0, o0, m0, wr0, a0⟩ := init_ok (P := P) junk (levels := levels) arg
    hi.writer hi.pos hi.len hi.size
  obtain ⟨j, e, a⟩ := writes_ok h w0 (by rw [c0]; exact l0) (by rw [c0, m0]; omega) hf
  refine ⟨j0, j, e0, e, ?_⟩
  have := a.out
  rw [o0, wr0, a0] at this
  exact this

/-- C56, reading back: the characters passed to the writer are well-formed JSON and denote the
document. -/
theorem C56_read_back {P : Plat} {m : Mem} (junk : Jems) (hj : junk.out = []) {levels : List Level}
    {maxLevel : Nat} {writer : Val} (arg : Nat) (hi : InitOk P levels maxLevel writer) {x : Doc}
    {cs : List Call} (h : Writes P m x cs) (hd : depth x < maxLevel) (hf : Fits P.szMod x) :
    ∃ j0 j, init junk levels maxLevel writer arg = .ok j0 ∧ calls P m j0 cs = .ok j ∧
      Spec.read (j.out.map Emit.ch) = some x := by
  obtain ⟨j0, j, e0, e, ho⟩ := C56_document junk arg hi h hd hf
  refine ⟨j0, j, e0, e, ?_⟩
  have : (([] : List Emit) ++ written writer arg (render x)).map Emit.ch = render x := by
    simp [written, List.map_map, Function.comp_def]
  rw [ho, hj, this]
  exact read_render x

/-- Hence calls that describe different documents write different texts, whatever the state of the
memory, the levels and the arguments they are emitted with. -/
theorem C56_injective {P P' : Plat} {m m' : Mem} {junk junk' : Jems} (hj : junk.out = [])
    (hj' : junk'.out = []) {levels levels' : List Level} {maxLevel maxLevel' : Nat}
    {writer writer' : Val} {arg arg' : Nat} (hi : InitOk P levels maxLevel writer)
    (hi' : InitOk P' levels' maxLevel' writer') {x x' : Doc} {cs cs' : List Call}
    (h : Writes P m x cs) (h' : Writes P' m' x' cs') (hd : depth x < maxLevel)
    (hd' : depth x' < maxLevel') (hf : Fits P.szMod x) (hf' : Fits P'.szMod x')
    {j0 j j0' j' : Jems} (e0 : init junk levels maxLevel writer arg = .ok j0)
    (e : calls P m j0 cs = .ok j) (e0' : init junk' levels' maxLevel' writer' arg' = .ok j0')
    (e' : calls P' m' j0' cs' = .ok j') (hs : j.out.map Emit.ch = j'.out.map Emit.ch) : x = x' := by
  obtain ⟨k0, k, a0, a, r⟩ := C56_read_back junk hj arg hi h hd hf
  obtain ⟨k0', k', a0', a', r'⟩ := C56_read_back junk' hj' arg' hi' h' hd' hf'
  obtain rfl : k0 = j0 := Except.ok.inj (a0.symm.trans e0)
  obtain rfl : k0' = j0' := Except.ok.inj (a0'.symm.trans e0')
  obtain rfl : k = j := Except.ok.inj (a.symm.trans e)
  obtain rfl : k' = j' := Except.ok.inj (a'.symm.trans e')
  exact Option.some.inj (r.symm.trans ((congrArg Spec.read hs).trans r'))

/-- C56, several documents one after the other: they are separated by commas. -/
theorem C56_sequence {P : Plat} {m : Mem} (junk : Jems) {levels : List Level} {maxLevel : Nat}
    {writer : Val} (arg : Nat) (hi : InitOk P levels maxLevel writer) {xs : List Doc}
    {cs : List Call} (h : WritesItems P m xs cs) (hd : depthItems xs < maxLevel)
    (hn : xs.length ≤ P.szMod) (hf : FitsItems P.szMod xs) :
    ∃ j0 j, init junk levels maxLevel writer arg = .ok j0 ∧ calls P m j0 cs = .ok j ∧
      j.out = junk.out ++ written writer arg (List.intercalate [44] (xs.map render)) := by
  obtain ⟨j0, e0, w0, c0, l0, o0, m0, wr0, a0⟩ := init_ok (P := P) junk (levels := levels) arg
    hi.writer hi.pos hi.len hi.size
  obtain ⟨j, e, a⟩ := items_ok h w0 (c := 0) (by rw [c0, Nat.zero_mod]; exact l0) (by omega)
    (by rw [c0, m0]; omega) hf
  refine ⟨j0, j, e0, e, ?_⟩
  have h1 := a.out
  rw [o0, wr0, a0] at h1
  have h2 : ∀ xs : List Doc, renderItems true xs = List.intercalate [44] (xs.map render) ∧
      (xs ≠ [] → renderItems false xs = 44 :: List.intercalate [44] (xs.map render)) := by
    intro xs
    induction xs with
    | nil => exact ⟨by rw [renderItems]; rfl, fun h => absurd rfl h⟩
    | cons x xs ih =>
      cases xs with
      | nil => simp [renderItems, List.intercalate]
      | cons y xs =>
        have h := ih.2 (by simp)
        constructor
        · rw [renderItems, h]; simp [List.intercalate]
        · intro _; rw [renderItems, h]; simp [List.intercalate]
  rw [← (h2 xs).1]
  exact h1

/-- `{"k":[1,"a\n"],"":{}}` -/
def exDoc : Doc := .obj [([107], .arr [.int 1, .str [97, 10]]), ([], .obj [])]

/-- Object 0 holds the C string `"k"`, object 1 the bytes `a`, newline, object 2 the empty string. -/
def exMem : Mem := fun k => if k = 0 then [107, 0] else if k = 1 then [97, 10] else [0]

def exCalls : List Call :=
  [.item .objectOpen, .key ⟨0, 0⟩ .arrayOpen, .item (.integer 1), .item (.bytes ⟨1, 0⟩ 2),
    .arrayClose, .item (.string ⟨2, 0⟩), .item .objectOpen, .objectClose, .objectClose]

theorem exWrites : Writes Plat.ip16 exMem exDoc exCalls := by
  have hk : IsCstr exMem ⟨0, 0⟩ [107] := ⟨by decide, by decide, [], by decide⟩
  have he : IsCstr exMem ⟨2, 0⟩ [] := ⟨by decide, by decide, [], by decide⟩
  have hb : IsBytes Plat.ip16 exMem ⟨1, 0⟩ 2 [97, 10] :=
    ⟨by decide, by decide, by decide, by decide⟩
  have hin : Writes Plat.ip16 exMem (.arr [.int 1, .str [97, 10]])
      [.item .arrayOpen, .item (.integer 1), .item (.bytes ⟨1, 0⟩ 2), .arrayClose] :=
    .arr (.cons (.int 1 (by decide) (by decide)) (.cons (.bytes hb) .nil))
  have hob : Writes Plat.ip16 exMem (.obj []) [.item .objectOpen, .objectClose] := .obj .nil
  exact .obj (.key hk hin (.split (.string he) hob .nil))

/-- The hypotheses of `C56_document` are met, and the text is the expected one. -/
example : Writes Plat.ip16 exMem exDoc exCalls ∧ depth exDoc < 3 ∧ Fits Plat.ip16.szMod exDoc ∧
    InitOk Plat.ip16 (List.replicate 3 ⟨9, true⟩) 3 1 ∧
    render exDoc = ascii "{\"k\":[1,\"a\\u000a\"],\"\":{}}" := by
  refine ⟨exWrites, by decide, ?_, ⟨by decide, by decide, by decide, by decide⟩, ?_⟩
  · simp only [exDoc, Fits, FitsMembers, FitsItems]
    decide
  · decide +kernel

/-- The depth bound cannot be dropped: in `[[1,2],3]` emitted with one level too few the separator
before the `1` is wrong. -/
example : (match calls Plat.ip16 exMem ⟨[⟨0, false⟩], 1, 0, 1, 0, []⟩
      [.item .arrayOpen, .item (.integer 1), .arrayClose] with
    | .ok j => j.out.map Emit.ch = ascii "[,1]"
    | .error _ => False) := by
  show _ = _
  decide +kernel

/-- The bound on the number of items cannot be dropped either: `item_count` wraps, and the item
after `SIZE_MAX + 1` items is written without a comma. -/
theorem C56_item_limit {P : Plat} {m : Mem} (junk : Jems) {levels : List Level} {maxLevel : Nat}
    {writer : Val} (arg : Nat) (hi : InitOk P levels maxLevel writer) :
    ∃ j0 j, init junk levels maxLevel writer arg = .ok j0 ∧
      calls P m j0 (List.replicate (P.szMod + 1) (.item .null)) = .ok j ∧
      j.out = junk.out ++ written writer arg
        (List.intercalate [44] (List.replicate P.szMod (ascii "null")) ++ ascii "null") := by
  have hw : ∀ n, WritesItems P m (List.replicate n .null) (List.replicate n (.item .null)) := by
    intro n
    induction n with
    | zero => exact .nil
    | succ n ih => exact .cons (cs := [.item .null]) .null ih
  have hd : ∀ n, depthItems (List.replicate n .null) = 0 := by
    intro n
    induction n with
    | zero => rfl
    | succ n ih => rw [List.replicate_succ, depthItems, ih]; rfl
  have hf : ∀ n, FitsItems P.szMod (List.replicate n .null) := by
    intro n
    induction n with
    | zero => trivial
    | succ n ih => rw [List.replicate_succ, FitsItems]; exact ⟨trivial, ih⟩
  obtain ⟨j0, e0, w0, c0, l0, o0, m0, wr0, a0⟩ := init_ok (P := P) junk (levels := levels) arg
    hi.writer hi.pos hi.len hi.size
  obtain ⟨j, e, a⟩ := items_ok (hw P.szMod) w0 (c := 0) (by rw [c0, Nat.zero_mod]; exact l0)
    (by simp) (by rw [c0, m0, hd]; have := hi.pos; omega) (hf _)
  have hl := a.here _ (by rw [c0]; exact l0)
  rw [← a.curr] at hl
  simp only [List.length_replicate, Nat.zero_add, Nat.mod_self] at hl
  obtain ⟨j', e', a'⟩ := one_item (m := m) (a.wf w0) hl .null
  refine ⟨j0, j', e0, ?_, ?_⟩
  · rw [List.replicate_succ', calls_append, e]
    exact e'
  · obtain ⟨k0, k, f0, f, ho⟩ := C56_sequence junk arg hi (hw P.szMod)
      (by rw [hd]; have := hi.pos; omega) (by simp) (hf _)
    obtain rfl : k0 = j0 := Except.ok.inj (f0.symm.trans e0)
    obtain rfl : k = j := Except.ok.inj (f.symm.trans e)
    have h1 := a'.out
    rw [ho, a.writer, a.arg, wr0, a0] at h1
    rw [h1]
    simp [written, sep, render]

/-! ## C57 -/

theorem sep_cases (l : Level) : sep l = [] ∨ sep l = [44] ∨ sep l = [58] := by
  unfold sep
  split
  · exact .inl rfl
  · split
    · exact .inr (.inr rfl)
    · exact .inr (.inl rfl)

/-- A printable ASCII character. -/
def Printable (c : UInt8) : Prop := 32 ≤ c ∧ c ≤ 126

theorem escape_printable (b : UInt8) : ∀ c ∈ escape b, 32 ≤ c ∧ c ≤ 126 := by
  refine byte_all (p := fun b => ∀ c ∈ escape b, 32 ≤ c ∧ c ≤ 126) ?_ b
  decide +kernel

theorem quote_printable (s : List UInt8) : ∀ c ∈ quote s, Printable c := by
  intro c hc
  simp only [quote, List.mem_cons, List.mem_append, List.mem_flatMap, List.not_mem_nil,
    or_false] at hc
  rcases hc with rfl | ⟨b, _, hb⟩ | rfl
  · exact ⟨by decide, by decide⟩
  · exact escape_printable b c hb
  · exact ⟨by decide, by decide⟩

/-- The text `t` has been written, after at most one separator. -/
def Wrote (j j' : Jems) (t : List UInt8) : Prop :=
  ∃ pre, (pre = [] ∨ pre = ascii "," ∨ pre = ascii ":") ∧
    j'.out = j.out ++ written j.writer j.arg (pre ++ t)

theorem item_wrote {P : Plat} {m : Mem} {j : Jems} (hj : WF P j) {x : Item} {t : List UInt8}
    (h : ItemText P m x t) : ∃ j', item P m j x = .ok j' ∧ WF P j' ∧ Wrote j j' t := by
  obtain ⟨l, hl⟩ := hj.level
  obtain ⟨j', e, a⟩ := item_adv hj hl h
  exact ⟨j', e, a.wf hj, sep l, sep_cases l, a.out⟩

/-- C57, `mu_jems_bytes`: in every state of the emitter the bytes appear as a JSON string literal of
printable characters that a JSON reader decodes to exactly these bytes. -/
theorem C57_bytes {P : Plat} {m : Mem} {j : Jems} (hj : Reached P m j) {p : Ptr} {n : Nat}
    {s : List UInt8} (h : IsBytes P m p n s) :
    ∃ j' t, bytes P j m p n = .ok j' ∧ Wrote j j' t ∧ (∀ c ∈ t, Printable c) ∧
      Spec.read t = some (.str s) := by
  obtain ⟨j', e, _, w⟩ := item_wrote (m := m) hj.wf (.bytes h)
  refine ⟨j', _, e, w, quote_printable s, ?_⟩
  have := read_render (.str s)
  rwa [render] at this

/-- C57, `mu_jems_string`. -/
theorem C57_string {P : Plat} {m : Mem} {j : Jems} (hj : Reached P m j) {p : Ptr} {s : List UInt8}
    (h : IsCstr m p s) :
    ∃ j' t, string P j m p = .ok j' ∧ Wrote j j' t ∧ (∀ c ∈ t, Printable c) ∧
      Spec.read t = some (.str s) := by
  obtain ⟨j', e, _, w⟩ := item_wrote (m := m) hj.wf (.string h)
  refine ⟨j', _, e, w, quote_printable s, ?_⟩
  have := read_render (.str s)
  rwa [render] at this

/-- A state inside an object, after a key. -/
theorem exReached : Reached Plat.ip16 exMem
    ⟨[⟨1, false⟩, ⟨1, true⟩], 2, 1, 1, 7, written 1 7 (ascii "{\"k\"")⟩ :=
  ⟨⟨[], 0, 0, 0, 0, []⟩, [⟨5, true⟩, ⟨6, false⟩], 2, 1, 7, ⟨[⟨0, false⟩, ⟨6, false⟩], 2, 0, 1, 7, []⟩,
    [.item .objectOpen, .item (.string ⟨0, 0⟩)], ⟨by decide, by decide, by decide, by decide⟩,
    by
      intro c hc
      simp only [List.mem_cons, List.not_mem_nil, or_false] at hc
      rcases hc with rfl | rfl
      · trivial
      · exact ⟨[107], by decide, by decide, [], by decide⟩,
    by decide, by decide +kernel⟩

example : IsBytes Plat.ip16 (fun _ => [0, 255, 34, 92, 65]) ⟨0, 0⟩ 4 [0, 255, 34, 92] ∧
    IsCstr (fun _ => [200, 34, 0]) ⟨0, 0⟩ [200, 34] :=
  ⟨⟨by decide, by decide, by decide, by decide⟩, by decide, by decide, [], by decide⟩

/-! ## C58 -/

/-- C58.  After initialisation with `max_level ≥ 1` levels, every sequence of calls with valid
arguments, balanced or not, however deep, is defined (every access to the level array is inside its
`max_level` elements), and the current level stays below `max_level`. -/
theorem C58_levels {P : Plat} {m : Mem} (junk : Jems) {levels : List Level} {maxLevel : Nat}
    {writer : Val} (arg : Nat) (hi : InitOk P levels maxLevel writer)
    (hlen : levels.length = maxLevel) {cs : List Call} (h : ∀ c ∈ cs, CallOk P m c) :
    ∃ j0 j, init junk levels maxLevel writer arg = .ok j0 ∧ calls P m j0 cs = .ok j ∧
      currLevel j < maxLevel := by
  obtain ⟨j0, e0, w0, c0, l0, o0, m0, wr0, a0⟩ := init_ok (P := P) junk (levels := levels) arg
    hi.writer hi.pos hi.len hi.size
  obtain ⟨j, e, w, hm⟩ := calls_any cs w0 h
  refine ⟨j0, j, e0, e, ?_⟩
  have := w.curr
  rw [hm, m0] at this
  exact this

example : ∀ c ∈ ([.arrayClose, .item .objectOpen, .item .arrayOpen, .item .arrayOpen,
    .item (.integer (-5)), .objectClose] : List Call), CallOk Plat.ip16 exMem c := by
  simp [CallOk, ItemOk]

/-- With `max_level = 0` there is no level to use, and `mu_jems_init` itself writes outside the
array. -/
theorem C58_zero_levels (junk : Jems) (writer : Val) (arg : Nat) :
    init junk [] 0 writer arg = .error .oob := rfl

/-! ## C59 -/

/-- C59.  `mu_jems_integer` writes the canonical decimal text of every `int64_t`, which a JSON reader
maps back to the value. -/
theorem C59_integer {P : Plat} {m : Mem} {j : Jems} (hj : Reached P m j) {v : Int}
    (h1 : -(2 ^ 63) ≤ v) (h2 : v < 2 ^ 63) :
    ∃ j', integer P j v = .ok j' ∧ Wrote j j' (ascii (toString v)) ∧
      Spec.read (ascii (toString v)) = some (.int v) := by
  obtain ⟨j', e, _, w⟩ := item_wrote (m := m) hj.wf (.int h1 h2)
  refine ⟨j', e, w, ?_⟩
  have := read_render (.int v)
  rwa [render] at this

example : (match integer Plat.ip16 ⟨[⟨3, true⟩], 1, 0, 1, 7, []⟩ (-9223372036854775808) with
    | .ok j => j.out.map Emit.ch = ascii ":-9223372036854775808"
    | .error _ => False) := by
  show _ = _
  decide +kernel

/-! ## C60 -/

/-- C60.  In every state of a well-nested emission the current level is the number of open
containers and the item count (modulo the width of `size_t`) is the number of items emitted at this
level. -/
theorem C60_positions {P : Plat} {m : Mem} (junk : Jems) {levels : List Level} {maxLevel : Nat}
    {writer : Val} (arg : Nat) (hi : InitOk P levels maxLevel writer) {cs : List Call}
    (h : ∀ c ∈ cs, CallOk P m c) {n : Nat} {s : List Nat}
    (ht : tracks maxLevel [0] cs = some (n :: s)) :
    ∃ j0 j, init junk levels maxLevel writer arg = .ok j0 ∧ calls P m j0 cs = .ok j ∧
      currLevel j = s.length ∧ itemCount j = .ok (n % P.szMod) := by
  obtain ⟨j0, e0, w0, c0, l0, o0, m0, wr0, a0⟩ := init_ok (P := P) junk (levels := levels) arg
    hi.writer hi.pos hi.len hi.size
  have p0 : Pos P j0 [0] := Pos.mk' (l := ⟨0, false⟩) c0 (by rw [c0]; rfl) (by rw [c0]; exact l0)
    (by simp)
  rw [← m0] at ht
  obtain ⟨j, e, w, p⟩ := calls_pos cs w0 h p0 ht
  obtain ⟨h1, _, l, hl, h3⟩ := p.top w
  refine ⟨j0, j, e0, e, h1, ?_⟩
  unfold itemCount level
  rw [ldN_some hl, ← h3]
  rfl

example : tracks 3 [0] [.item .objectOpen, .key ⟨0, 0⟩ .arrayOpen, .item (.integer 1),
    .item .null] = some [2, 2, 1] ∧ tracks 3 [0] exCalls = some [1] := by decide

end Mu.Jems
