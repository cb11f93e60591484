import Verif.C.SrcAccess
import Verif.Spec.SrcFlow

/-! # A producer and a consumer running the parsed source of mu_spsc.c on two cores with store buffers

Total store order, as on x86: a store goes to the core's own first-in first-out buffer and reaches memory at any later moment; a
load sees the core's own buffered stores and otherwise memory.  The order of the accesses of one core is that of the
program: that the compiler keeps it is an assumption. -/

namespace Mu.CS.Tso

open Conc (Ev Side)

/-- Stores on their way to memory, the oldest first. -/
abbrev Buf := List (Base × Int × CVal)

/-- Memory as a core sees it whose buffer is `w`. -/
def view (h : Heap) (w : Buf) : Heap := w.foldl (fun h x => h.upd x.1 x.2.1 x.2.2) h

/-- Memory; the call the producer is in, if any, and its buffer; the variable of the call the consumer is in, what remains of the call,
and its buffer. -/
structure Sys where
  h : Heap
  p : Option (Act CVal)
  pb : Buf
  c : Option (Base × Int × Act CVal)
  cb : Buf

/-- What the producer sees. -/
def Sys.pview (s : Sys) : Heap := view s.h s.pb
/-- What the consumer sees. -/
def Sys.cview (s : Sys) : Heap := view s.h s.cb

/-- A cell that is neither the queue's nor the variable a call of `mu_spsc_get` is about to set. -/
def Sys.foreign (s : Sys) (q : Conc.Place) (b : Base) (o : Int) : Prop :=
  ¬ q.cells b o ∧ ∀ eb eo t, s.c = some (eb, eo, t) → ¬ (b = eb ∧ o = eo)

/-- One thing that happens; `S` are the functions of the library. -/
inductive Step (S : Fn → List CVal → Act CVal) (q : Conc.Place) : Sys → List Ev → Sys → Prop
  /-- the producer calls `mu_spsc_put` -/
  | put {s : Sys} (v : CVal) : s.p = none → v ≠ .undef →
      Step S q s [.call .producer (.put v)] { s with p := some (S .mu_spsc_put [.ptr q.b q.o, v]) }
  /-- the producer reads -/
  | pread {s : Sys} {f k v h} : s.p = some (.mem f k) → Act.ReadsOnly f → f s.pview = .ok (v, h) → Step S q s [] { s with p := some (k v) }
  /-- the producer writes, into its buffer -/
  | pwrite {s : Sys} {b o x k h} : s.p = some (.mem (Act.writes b o x) k) → Act.writes b o x s.pview = .ok (x, h) →
      Step S q s [] { s with pb := s.pb ++ [(b, o, x)], p := some (k x) }
  | ppick {s : Sys} {k} (b : Bool) : s.p = some (.pick k) → Step S q s [] { s with p := some (k b) }
  /-- the oldest store of the producer reaches memory -/
  | pflush {s : Sys} {b o x r} : s.pb = (b, o, x) :: r → Step S q s [] { s with h := s.h.upd b o x, pb := r }
  /-- `mu_spsc_put` returns -/
  | pret {s : Sys} {r} : s.p = some (.done r) → Step S q s [.ret .producer ⟨r, none⟩] { s with p := none }
  /-- the consumer calls `mu_spsc_get` with the address of a variable of its own -/
  | get {s : Sys} (eb : Base) (eo : Int) : s.c = none → eb.isLit = false → (s.h.at eb eo).isSome = true → ¬ q.cells eb eo →
      Step S q s [.call .consumer (.get eb eo)] { s with c := some (eb, eo, S .mu_spsc_get [.ptr q.b q.o, .ptr eb eo]) }
  /-- the consumer reads -/
  | cread {s : Sys} {eb eo f k v h} : s.c = some (eb, eo, .mem f k) → Act.ReadsOnly f → f s.cview = .ok (v, h) →
      Step S q s [] { s with c := some (eb, eo, k v) }
  /-- the consumer writes, into its buffer -/
  | cwrite {s : Sys} {eb eo b o x k h} : s.c = some (eb, eo, .mem (Act.writes b o x) k) → Act.writes b o x s.cview = .ok (x, h) →
      Step S q s [] { s with cb := s.cb ++ [(b, o, x)], c := some (eb, eo, k x) }
  | cpick {s : Sys} {eb eo k} (b : Bool) : s.c = some (eb, eo, .pick k) → Step S q s [] { s with c := some (eb, eo, k b) }
  /-- the oldest store of the consumer reaches memory -/
  | cflush {s : Sys} {b o x r} : s.cb = (b, o, x) :: r → Step S q s [] { s with h := s.h.upd b o x, cb := r }
  /-- `mu_spsc_get` returns, and the consumer looks at its variable -/
  | cret {s : Sys} {eb eo r} : s.c = some (eb, eo, .done r) →
      Step S q s [.ret .consumer ⟨r, s.cview.at eb eo⟩] { s with c := none }
  /-- something else happens, elsewhere in memory -/
  | other {s : Sys} {h : Heap} : Heap.Only (s.foreign q) s.h h → Step S q s [] { s with h := h }

/-- Any number of steps, and what the threads see. -/
inductive Steps (S : Fn → List CVal → Act CVal) (q : Conc.Place) : Sys → List Ev → Sys → Prop
  | nil (s : Sys) : Steps S q s [] s
  | snoc {s s1 s2 : Sys} {l l' : List Ev} : Steps S q s l s1 → Step S q s1 l' s2 → Steps S q s (l ++ l') s2

/-- What remains begins with no fault: it is a read or a write that can be made. -/
def Fine (h : Heap) : Act CVal → Prop
  | .done _ => True
  | .fail _ => False
  | .mem f _ => (∃ v h', f h = .ok (v, h')) ∧ (Act.ReadsOnly f ∨ ∃ b o x, f = Act.writes b o x)
  | .pick _ => True

/-- Neither thread is about to fault. -/
def Sys.Fine (s : Sys) : Prop :=
  (∀ t, s.p = some t → Tso.Fine s.pview t) ∧ ∀ eb eo t, s.c = some (eb, eo, t) → Tso.Fine s.cview t

end Mu.CS.Tso
