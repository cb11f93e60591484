import Verif.C.SrcAct

/-! # Every order of evaluation

C leaves open in which order the operands of most operators, the two sides of an assignment and the arguments of a call
are evaluated.  `Act` keeps the choice (`Act.pick`); here are the results of all ways to choose. -/

namespace Mu.CS

/-- `t`, started in `h`, can end with `r`: the choices are made in some way, and nothing else happens in memory in between. -/
inductive Act.Out {α : Type} : Act α → Heap → C (α × Heap) → Prop
  | done {a h} : Out (.done a) h (.ok (a, h))
  | fail {e h} : Out (.fail e) h (.error e)
  | mem {f k h v h1 r} : f h = .ok (v, h1) → Out (k v) h1 r → Out (.mem f k) h r
  | fault {f k h e} : f h = .error e → Out (.mem f k) h (.error e)
  | pick {k h r} (b : Bool) : Out (k b) h r → Out (.pick k) h r

/-- The choices do not matter: if one way to choose ends with a result, all ways do and with the same result. -/
def Act.Confluent {α : Type} (t : Act α) : Prop :=
  ∀ h r r', Out t h r → Out t h r' → ∀ x, r = .ok x → r' = .ok x

/-- The choices do not matter in the functions of the user, provided they do not in those of the library. -/
def AExt.Confluent (Y : AExt) : Prop :=
  ∀ S : Fn → List CVal → Act CVal, (∀ f args, (S f args).Confluent) → ∀ f args, (Y.cb S f args).Confluent

end Mu.CS
