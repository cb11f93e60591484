import Verif.Lemmas.Src
import Verif.Spec.SrcQueue

/-! # What a user of mu_mqueue relies on, for the parsed source

The calls, their results and the first-in first-out list are those of `Spec/SrcQueue.lean`; here the
functions of mu_mqueue.c are called, and a successful put or get calls a task. -/

namespace Mu.CS

/-- Make the call on the message queue at offset `o` of object `b` with the functions `S`. -/
def QCall.mrun (S : Fn → SemFn) (b : Base) (o : Int) (h : Heap) : QCall → C (QOut × Heap)
  | .put v => do
    let (r, h) ← S .mu_mqueue_put h [.ptr b o, v]
    .ok (⟨r, none⟩, h)
  | .get eb eo => do
    let (r, h) ← S .mu_mqueue_get h [.ptr b o, .ptr eb eo]
    .ok (⟨r, h.at eb eo⟩, h)
  | .peek eb eo => do
    let (r, h) ← S .mu_mqueue_peek h [.ptr b o, .ptr eb eo]
    .ok (⟨r, h.at eb eo⟩, h)
  | .reset => do
    let (r, h) ← S .mu_mqueue_reset h [.ptr b o]
    .ok (⟨r, none⟩, h)
  | .count => do
    let (r, h) ← S .mu_mqueue_count h [.ptr b o]
    .ok (⟨r, none⟩, h)
  | .capacity => do
    let (r, h) ← S .mu_mqueue_capacity h [.ptr b o]
    .ok (⟨r, none⟩, h)
  | .isEmpty => do
    let (r, h) ← S .mu_mqueue_is_empty h [.ptr b o]
    .ok (⟨r, none⟩, h)
  | .isFull => do
    let (r, h) ← S .mu_mqueue_is_full h [.ptr b o]
    .ok (⟨r, none⟩, h)

/-- A history of calls. -/
def QCall.mrunAll (S : Fn → SemFn) (b : Base) (o : Int) : Heap → List QCall → C (List QOut × Heap)
  | h, [] => .ok ([], h)
  | h, c :: cs => do
    let (r, h) ← QCall.mrun S b o h c
    let (rs, h) ← QCall.mrunAll S b o h cs
    .ok (r :: rs, h)

/-- The cells of the `mu_mqueue_t` at `b`, `o` (six scalar members) and of `cap` storage slots. -/
def mqueueCells (b : Base) (o : Int) (sb : Base) (so : Int) (cap : Nat) (b' : Base) (o' : Int) :
    Prop :=
  (b' = b ∧ o ≤ o' ∧ o' < o + 6) ∨ (b' = sb ∧ so ≤ o' ∧ o' < so + cap)

/-- Memory holds a message queue with the elements `l`, oldest first: a `mu_mqueue_t` at `(b, o)` with `cap`
slots at `(sb, so)`, to call `pt` after a put and `gt` after a get; the next element will go to slot `ix`, and
the elements are in the slots before it, cyclically. -/
structure Heap.MQ (h : Heap) (b : Base) (o : Int) (sb : Base) (so : Int) (cap : Nat) (pt gt : CVal) (ix : Nat)
    (l : List CVal) : Prop where
  wr : b.isLit = false
  swr : sb.isLit = false
  storage : h.at b o = some (.ptr sb so)
  capa : h.at b (o + 1) = some (.int cap)
  cnt : h.at b (o + 2) = some (.int l.length)
  idx : h.at b (o + 3) = some (.int ix)
  onPut : h.at b (o + 4) = some pt
  onGet : h.at b (o + 5) = some gt
  le : l.length ≤ cap
  inside : ix < cap ∨ ix = 0
  items : ∀ i v, l[i]? = some v → h.at sb (so + ((ix + cap - l.length + i) % cap : Nat)) = some v
  slot : ∀ i : Nat, i < cap → (h.at sb (so + i)).isSome = true
  sep : ∀ i : Nat, i < cap → ∀ k : Nat, k < 6 → ¬(b = sb ∧ o + k = so + i)
  defd : ∀ v ∈ l, v ≠ .undef

/-- A task variable holds NULL or points to a task. -/
def TaskPtr : CVal → Prop
  | .null => True
  | .ptr _ _ => True
  | _ => False

/-- Call the task, unless there is none. -/
def wake (S : Fn → SemFn) (t : CVal) (h : Heap) : C Heap :=
  match t with
  | .null => .ok h
  | t => do
    let (_, h) ← S .mu_task_call h [t]
    .ok h

/-- What a call on a queue with the elements `l` calls: the task for puts after a successful put, the task for
gets after a successful get, nothing otherwise. -/
def QCall.wakes (cap : Nat) (l : List CVal) (pt gt : CVal) : QCall → CVal
  | .put _ => if l.length < cap then pt else .null
  | .get _ _ => if l = [] then .null else gt
  | _ => .null

/-- The tasks called in a history, in order. -/
def QCall.wakesAll (b : Base) (o : Int) (cap : Nat) (pt gt : CVal) : List CVal → List QCall → List CVal
  | _, [] => []
  | l, c :: cs =>
    (if QCall.wakes cap l pt gt c = .null then [] else [QCall.wakes cap l pt gt c]) ++
      QCall.wakesAll b o cap pt gt (QCall.spec b o cap l c).2 cs

/-- What is known of the tasks: when `tr` is the list of the tasks called so far and memory satisfies
`S tr`, a call of the task `t` returns, without changing the cells `own`; the property does not depend on the
cells `wr`. -/
structure Wakes (call : SemFn) (t : CVal) (own wr : Base → Int → Prop) (S : List CVal → Heap → Prop) : Prop where
  answer : ∀ tr h, S tr h → ∃ r h', call h [t] = .ok (r, h') ∧ S (tr ++ [t]) h' ∧
    Heap.Only (fun b o => ¬ own b o) h h'
  stable : ∀ tr h h', S tr h → Heap.Only wr h h' → S tr h'

end Mu.CS
