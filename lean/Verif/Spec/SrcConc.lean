import Verif.C.SrcAct
import Verif.Spec.SrcSpsc
import Verif.Lemmas.Src

/-! # A producer and a consumer running the parsed source of mu_spsc.c at the same time

Each thread makes one call after the other.  Between any two accesses to memory of the one, the other may do any number of
its own, and anything else may happen in the memory that is not the queue's. -/

namespace Mu.CS.Conc

/-- The two threads. -/
inductive Side where
  | producer
  | consumer
  deriving DecidableEq

/-- What the threads see. -/
inductive Ev where
  | call (t : Side) (c : SCall)
  | ret (t : Side) (r : SOut)

/-- Memory; the call the producer is in, if any, and what remains of it; and the variable of the call the consumer is in,
and what remains. -/
structure Sys where
  h : Heap
  p : Option (Act CVal)
  c : Option (Base × Int × Act CVal)

/-- A queue: where its `mu_spsc_t` and its storage are, and the number of slots. -/
structure Place where
  b : Base
  o : Int
  sb : Base
  so : Int
  N : Nat

/-- The cells of the queue. -/
def Place.cells (q : Place) : Base → Int → Prop := spscCells q.b q.o q.sb q.so q.N

/-- A cell that is neither the queue's nor the variable a call of `mu_spsc_get` is about to set. -/
def Sys.foreign (s : Sys) (q : Place) (b : Base) (o : Int) : Prop :=
  ¬ q.cells b o ∧ ∀ eb eo t, s.c = some (eb, eo, t) → ¬ (b = eb ∧ o = eo)

/-- One thing that happens; `S` are the functions of the library. -/
inductive Step (S : Fn → List CVal → Act CVal) (q : Place) : Sys → List Ev → Sys → Prop
  /-- the producer calls `mu_spsc_put` -/
  | put {s : Sys} (v : CVal) : s.p = none → v ≠ .undef →
      Step S q s [.call .producer (.put v)] { s with p := some (S .mu_spsc_put [.ptr q.b q.o, v]) }
  /-- the producer accesses memory -/
  | pmem {s : Sys} {f k v h} : s.p = some (.mem f k) → f s.h = .ok (v, h) → Step S q s [] { s with h := h, p := some (k v) }
  | ppick {s : Sys} {k} (b : Bool) : s.p = some (.pick k) → Step S q s [] { s with p := some (k b) }
  /-- `mu_spsc_put` returns -/
  | pret {s : Sys} {r} : s.p = some (.done r) → Step S q s [.ret .producer ⟨r, none⟩] { s with p := none }
  /-- the consumer calls `mu_spsc_get` with the address of a variable of its own -/
  | get {s : Sys} (eb : Base) (eo : Int) : s.c = none → eb.isLit = false → (s.h.at eb eo).isSome = true → ¬ q.cells eb eo →
      Step S q s [.call .consumer (.get eb eo)] { s with c := some (eb, eo, S .mu_spsc_get [.ptr q.b q.o, .ptr eb eo]) }
  | cmem {s : Sys} {eb eo f k v h} : s.c = some (eb, eo, .mem f k) → f s.h = .ok (v, h) →
      Step S q s [] { s with h := h, c := some (eb, eo, k v) }
  | cpick {s : Sys} {eb eo k} (b : Bool) : s.c = some (eb, eo, .pick k) → Step S q s [] { s with c := some (eb, eo, k b) }
  /-- `mu_spsc_get` returns, and the consumer looks at its variable -/
  | cret {s : Sys} {eb eo r} : s.c = some (eb, eo, .done r) →
      Step S q s [.ret .consumer ⟨r, s.h.at eb eo⟩] { s with c := none }
  /-- something else happens, elsewhere -/
  | other {s : Sys} {h : Heap} : Heap.Only (s.foreign q) s.h h → Step S q s [] { s with h := h }

/-- Any number of steps, and what the threads see. -/
inductive Steps (S : Fn → List CVal → Act CVal) (q : Place) : Sys → List Ev → Sys → Prop
  | nil (s : Sys) : Steps S q s [] s
  | snoc {s s1 s2 : Sys} {l l' : List Ev} : Steps S q s l s1 → Step S q s1 l' s2 → Steps S q s (l ++ l') s2

/-- What remains cannot begin with a fault. -/
def Fine (h : Heap) : Act CVal → Prop
  | .done _ => True
  | .fail _ => False
  | .mem f _ => ∃ v h', f h = .ok (v, h')
  | .pick _ => True

/-- Neither thread is about to fault. -/
def Sys.Fine (s : Sys) : Prop :=
  (∀ t, s.p = some t → Conc.Fine s.h t) ∧ ∀ eb eo t, s.c = some (eb, eo, t) → Conc.Fine s.h t

/-- What remains makes at most `n` accesses, whatever values it reads and in whichever order it is evaluated. -/
def Within {α : Type} : Act α → Nat → Prop
  | .done _, _ => True
  | .fail _, _ => True
  | .mem _ _, 0 => False
  | .mem _ k, n + 1 => ∀ v, Within (k v) n
  | .pick k, n => ∀ b, Within (k b) n

/-! ## Linearizability

The atomic queue: a call takes effect on the first-in first-out list of `SCall.spec` at one instant between its call and its
return, and returns what that gave. -/

/-- A thread is outside any call, in a call that has not taken effect, or in one that has and will return `r`. -/
inductive TS where
  | idle
  | pending (c : SCall)
  | done (r : SOut)

/-- The atomic queue. -/
structure Obj where
  p : TS
  c : TS
  items : List CVal

/-- The state of a thread. -/
def Obj.ts (o : Obj) : Side → TS
  | .producer => o.p
  | .consumer => o.c

/-- The thread's state becomes `x`. -/
def Obj.set (o : Obj) : Side → TS → Obj
  | .producer, x => { o with p := x }
  | .consumer, x => { o with c := x }

/-- What the atomic queue of `N` slots can do, and what the threads see of it. -/
inductive Obj.Step (N : Nat) : Obj → List Ev → Obj → Prop
  | call {o : Obj} (t : Side) (c : SCall) : o.ts t = .idle → Step N o [.call t c] (o.set t (.pending c))
  | effect {o : Obj} (t : Side) (c : SCall) : o.ts t = .pending c →
      Step N o [] { o.set t (.done (c.spec N o.items).1) with items := (c.spec N o.items).2 }
  | ret {o : Obj} (t : Side) (r : SOut) : o.ts t = .done r → Step N o [.ret t r] (o.set t .idle)

/-- Any number of them. -/
inductive Obj.Steps (N : Nat) : Obj → List Ev → Obj → Prop
  | nil (o : Obj) : Steps N o [] o
  | snoc {o o1 o2 : Obj} {l l' : List Ev} : Steps N o l o1 → Obj.Step N o1 l' o2 → Steps N o (l ++ l') o2

/-- What the threads have seen could have come from the atomic queue, empty at first. -/
def Linearizable (N : Nat) (l : List Ev) : Prop := ∃ o, Obj.Steps N ⟨.idle, .idle, []⟩ l o

end Mu.CS.Conc
