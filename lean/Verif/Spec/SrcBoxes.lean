import Verif.Spec.SrcSpsc
import Verif.Spec.SrcMqueue
import Verif.Spec.SrcArray

/-! # What a user of many containers at once relies on, for the parsed source

A program owns any number of `mu_queue_t`, `mu_mqueue_t` (without tasks), `mu_spsc_t` and `mu_array_t`, and memory
of its own.  It initialises containers (also again, and also in memory that served something else before),
calls them in any order, writes to its own memory, and stops using containers, whose memory is its own
again.  `Ev.run` performs an event with the functions of the parsed source; `Ev.spec` says what it must do when every
container is nothing but a list and every variable nothing but a value. -/

namespace Mu.CS

/-- The four types of containers. -/
inductive BoxKind where
  | queue | mqueue | spsc | array
  deriving DecidableEq

/-- The members of the struct, all scalar. -/
def BoxKind.size : BoxKind → Nat
  | .queue => 4
  | .mqueue => 6
  | .spsc => 4
  | .array => 3

/-- The calls on a container of this type (but for its initialisation). -/
def BoxKind.Call : BoxKind → Type
  | .queue => QCall
  | .mqueue => QCall
  | .spsc => SCall
  | .array => ACall

/-- Where a container is: the struct at `(b, o)`, `cap` slots at `(sb, so)`. -/
structure Box where
  kind : BoxKind
  b : Base
  o : Int
  sb : Base
  so : Int
  cap : Nat

/-- The cells of the struct and of the slots. -/
def Box.cells (x : Box) (b : Base) (o : Int) : Prop :=
  span x.b x.o x.kind.size b o ∨ span x.sb x.so x.cap b o

/-- The caller's obligations for an initialisation: struct and slots exist in memory, may be written to, and do not overlap;
the capacity is within the limits of the type (README and C06, C11, C16). -/
structure Box.Ok (A : Arch) (h : Heap) (x : Box) : Prop where
  wr : x.b.isLit = false
  swr : x.sb.isLit = false
  struct : ∀ k : Nat, k < x.kind.size → (h.at x.b (x.o + k)).isSome = true
  slots : ∀ i : Nat, i < x.cap → (h.at x.sb (x.so + i)).isSome = true
  sep : ∀ i : Nat, i < x.cap → ∀ k : Nat, k < x.kind.size → ¬(x.b = x.sb ∧ x.o + k = x.so + i)
  limit : match x.kind with
    | .queue => 2 * x.cap ≤ A.szMod
    | .mqueue => 2 * x.cap ≤ A.szMod
    | .spsc => x.cap < 65536 ∧ (∃ k, x.cap = 2 ^ k) ∧ 2 ≤ x.cap
    | .array => (x.cap : Int) ≤ A.intMax

/-- The initialisation, with the functions `S`; message queues without tasks. -/
def Box.init (S : Fn → SemFn) (x : Box) (h : Heap) : C (QOut × Heap) := do
  let (r, h) ← match x.kind with
    | .queue => S .mu_queue_init h [.ptr x.b x.o, .ptr x.sb x.so, .int x.cap]
    | .mqueue => S .mu_mqueue_init h [.ptr x.b x.o, .ptr x.sb x.so, .int x.cap, .null, .null]
    | .spsc => S .mu_spsc_init h [.ptr x.b x.o, .ptr x.sb x.so, .int x.cap]
    | .array => S .mu_array_init h [.ptr x.b x.o, .ptr x.sb x.so, .int x.cap]
  .ok (⟨r, none⟩, h)

/-- What the initialisation answers: its argument, or `MU_SPSC_ERR_NONE`. -/
def Box.initSpec (x : Box) : QOut :=
  match x.kind with
  | .spsc => ⟨.int 0, none⟩
  | _ => ⟨.ptr x.b x.o, none⟩

/-- A call on the container at `(b, o)`. -/
def BoxKind.run (S : Fn → SemFn) (b : Base) (o : Int) (h : Heap) : (k : BoxKind) → k.Call → C (QOut × Heap)
  | .queue, c => QCall.run S b o h c
  | .mqueue, c => QCall.mrun S b o h c
  | .spsc, c => do
    let (r, h) ← SCall.run S b o h c
    .ok (⟨r.ret, r.item⟩, h)
  | .array, c => ACall.run S b o h c

/-- The same call on a list; `M = SIZE_MAX + 1`. -/
def BoxKind.spec (b : Base) (o : Int) (M cap : Nat) (l : List CVal) : (k : BoxKind) → k.Call → QOut × List CVal
  | .queue, c => QCall.spec b o cap l c
  | .mqueue, c => QCall.spec b o cap l c
  | .spsc, c =>
    let r := SCall.spec cap l c
    (⟨r.1.ret, r.1.item⟩, r.2)
  | .array, c => ACall.spec b o M cap l c

/-- A history of calls on a list. -/
def BoxKind.specAll (k : BoxKind) (b : Base) (o : Int) (M cap : Nat) : List CVal → List k.Call →
    List QOut × List CVal
  | l, [] => ([], l)
  | l, c :: cs =>
    let r := k.spec b o M cap l c
    let rs := k.specAll b o M cap r.2 cs
    (r.1 :: rs.1, rs.2)

/-- The variable a call delivers to. -/
def BoxKind.target : (k : BoxKind) → k.Call → Option (Base × Int)
  | .queue, .get eb eo => some (eb, eo)
  | .queue, .peek eb eo => some (eb, eo)
  | .mqueue, .get eb eo => some (eb, eo)
  | .mqueue, .peek eb eo => some (eb, eo)
  | .spsc, .get eb eo => some (eb, eo)
  | .array, .pop eb eo => some (eb, eo)
  | .array, .peek eb eo => some (eb, eo)
  | .array, .ref eb eo _ => some (eb, eo)
  | _, _ => none

/-- The caller's obligations: items are determinate values, indices values of `size_t`. -/
def BoxKind.Args (M : Nat) : (k : BoxKind) → k.Call → Prop
  | .queue, .put v => v ≠ .undef
  | .mqueue, .put v => v ≠ .undef
  | .spsc, .put v => v ≠ .undef
  | .array, .push v => v ≠ .undef
  | .array, .insert v i => v ≠ .undef ∧ i < M
  | .array, .index v => v ≠ .undef
  | .array, .rindex v => v ≠ .undef
  | .array, .ref _ _ i => i < M
  | _, _ => True

/-- What a program does next. -/
inductive Ev {ι : Type} (bs : ι → Box) where
  /-- initialise a container -/
  | init (i : ι)
  /-- call a container -/
  | call (i : ι) (c : (bs i).kind.Call)
  /-- stop using a container -/
  | drop (i : ι)
  /-- write to memory outside of the containers -/
  | write (b : Base) (o : Int) (v : CVal)

variable {ι : Type} {bs : ι → Box}

/-- The event, with the functions `S`. -/
def Ev.run (S : Fn → SemFn) (h : Heap) : Ev bs → C (Option QOut × Heap)
  | .init i => do
    let (r, h) ← (bs i).init S h
    .ok (some r, h)
  | .call i c => do
    let (r, h) ← (bs i).kind.run S (bs i).b (bs i).o h c
    .ok (some r, h)
  | .drop _ => .ok (none, h)
  | .write b o v => .ok (none, h.upd b o v)

/-- A history. -/
def Ev.runAll (S : Fn → SemFn) : Heap → List (Ev bs) → C (List (Option QOut) × Heap)
  | h, [] => .ok ([], h)
  | h, e :: es => do
    let (r, h) ← e.run S h
    let (rs, h) ← Ev.runAll S h es
    .ok (r :: rs, h)

/-- The list in each container in use, and the values known of the cells outside of the containers in use. -/
structure Boxes (ι : Type) where
  val : ι → Option (List CVal)
  mem : Base → Int → Option CVal

/-- A cell of a container in use. -/
def Boxes.owned (bs : ι → Box) (s : Boxes ι) (b : Base) (o : Int) : Prop :=
  ∃ i, (s.val i).isSome = true ∧ (bs i).cells b o

variable [DecidableEq ι]

/-- Container `i` is in use with the items `l`, or not in use. -/
def Boxes.set (s : Boxes ι) (i : ι) (l : Option (List CVal)) : Boxes ι :=
  { s with val := fun j => if j = i then l else s.val j }

/-- The value of a cell is known. -/
def Boxes.write (s : Boxes ι) (b : Base) (o : Int) (v : CVal) : Boxes ι :=
  { s with mem := fun b' o' => if b' = b ∧ o' = o then some v else s.mem b' o' }

open Classical in
/-- Nothing is known of the cells of a container. -/
noncomputable def Boxes.forget (s : Boxes ι) (x : Box) : Boxes ι :=
  { s with mem := fun b o => if x.cells b o then none else s.mem b o }

/-- The event, on lists and values: an initialised container is empty; a call changes the list of its container and no
other, and what it delivers is written to the variable. -/
noncomputable def Ev.spec (M : Nat) (s : Boxes ι) : Ev bs → Option QOut × Boxes ι
  | .init i => (some (bs i).initSpec, (s.forget (bs i)).set i (some []))
  | .call i c =>
    let r := (bs i).kind.spec (bs i).b (bs i).o M (bs i).cap ((s.val i).getD []) c
    let s := s.set i (some r.2)
    (some r.1, match (bs i).kind.target c, r.1.elem with
      | some (b, o), some v => s.write b o v
      | _, _ => s)
  | .drop i => (none, s.set i none)
  | .write b o v => (none, s.write b o v)

/-- A history, on lists and values. -/
noncomputable def Ev.specAll (M : Nat) : Boxes ι → List (Ev bs) → List (Option QOut) × Boxes ι
  | s, [] => ([], s)
  | s, e :: es =>
    let r := e.spec M s
    let rs := Ev.specAll M r.2 es
    (r.1 :: rs.1, rs.2)

/-- The caller's obligations: containers in use do not overlap; a container is initialised before it is called;
variables exist, and are no part of a container in use. -/
def Ev.Legal (A : Arch) (h : Heap) (s : Boxes ι) : Ev bs → Prop
  | .init i => (bs i).Ok A h ∧
      ∀ j, j ≠ i → (s.val j).isSome = true → ∀ b o, ¬((bs i).cells b o ∧ (bs j).cells b o)
  | .call i c => (s.val i).isSome = true ∧ (bs i).kind.Args A.szMod c ∧
      ∀ b o, (bs i).kind.target c = some (b, o) →
        b.isLit = false ∧ (h.at b o).isSome = true ∧ ¬ s.owned bs b o
  | .drop _ => True
  | .write b o _ => b.isLit = false ∧ (h.at b o).isSome = true ∧ ¬ s.owned bs b o

/-- Every event of the history is legal when it happens.  (`h` is the memory at the start: no event changes which
cells exist.) -/
def Ev.LegalAll (A : Arch) (h : Heap) : Boxes ι → List (Ev bs) → Prop
  | _, [] => True
  | s, e :: es => e.Legal A h s ∧ Ev.LegalAll A h (e.spec A.szMod s).2 es

/-- At the start no container is in use, and memory is what it is. -/
def Boxes.start (h : Heap) : Boxes ι := ⟨fun _ => none, h.at⟩

/-- The calls on one container, in order. -/
def Ev.callsOn (i : ι) : List (Ev bs) → List (bs i).kind.Call
  | [] => []
  | .call j c :: es => if e : j = i then (e ▸ c) :: Ev.callsOn i es else Ev.callsOn i es
  | _ :: es => Ev.callsOn i es

/-- The answers to the calls on one container, in order. -/
def Ev.answersOn (i : ι) : List (Ev bs) → List (Option QOut) → List QOut
  | .call j _ :: es, some r :: rs => if j = i then r :: Ev.answersOn i es rs else Ev.answersOn i es rs
  | _ :: es, _ :: rs => Ev.answersOn i es rs
  | _, _ => []

/-- Neither initialised nor dropped. -/
def Ev.keeps (i : ι) : Ev bs → Prop
  | .init j => j ≠ i
  | .drop j => j ≠ i
  | _ => True

end Mu.CS
