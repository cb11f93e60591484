import Verif.Spec.Jems

/-! # Specification: documents emitted in part

Where the calls made so far have got in a document, what text that makes, what is missing. -/

namespace Mu.Jems.Spec

/-- A container that has been opened and not closed: an array with its items so far; an object with
its members so far, either between members or after the key of the next one. -/
inductive Frame where
  | arr (l : List Doc)
  | obj (l : List (List UInt8 × Doc))
  | key (l : List (List UInt8 × Doc)) (k : List UInt8)

/-- How far the calls have got: nothing yet; inside `f`, which is inside the containers `fs` (innermost
first); or a complete document. -/
inductive Sofar where
  | start
  | inside (f : Frame) (fs : List Frame)
  | done (x : Doc)

/-- The innermost open container is the first of the list. -/
def Sofar.of : List Frame → Sofar
  | [] => .start
  | f :: fs => .inside f fs

/-- A complete value is added.  Between the members of an object it has to be a string, the key. -/
def put (x : Doc) : Sofar → Option Sofar
  | .start => some (.done x)
  | .inside (.arr l) fs => some (.inside (.arr (l ++ [x])) fs)
  | .inside (.obj l) fs => match x with
    | .str k => some (.inside (.key l k) fs)
    | _ => none
  | .inside (.key l k) fs => some (.inside (.obj (l ++ [(k, x)])) fs)
  | .done _ => none

/-- A container is opened; not where a key is expected, nor after the document is complete. -/
def enter (f : Frame) : Sofar → Option Sofar
  | .start => some (.inside f [])
  | .inside (.obj _) _ => none
  | .inside g fs => some (.inside f (g :: fs))
  | .done _ => none

/-- The effect of one call on how far we are. -/
inductive Step (P : Plat) (m : Mem) : Sofar → Call → Sofar → Prop
  | item {i x s s'} : Writes P m x [.item i] → put x s = some s' → Step P m s (.item i) s'
  | arrayOpen {s s'} : enter (.arr []) s = some s' → Step P m s (.item .arrayOpen) s'
  | objectOpen {s s'} : enter (.obj []) s = some s' → Step P m s (.item .objectOpen) s'
  | arrayClose {l fs s'} : put (.arr l) (.of fs) = some s' →
      Step P m (.inside (.arr l) fs) .arrayClose s'
  | objectClose {l fs s'} : put (.obj l) (.of fs) = some s' →
      Step P m (.inside (.obj l) fs) .objectClose s'
  | key {p k i l fs s'} : BBuf.IsCstr m p k → Step P m (.inside (.key l k) fs) (.item i) s' →
      Step P m (.inside (.obj l) fs) (.key p i) s'

/-- The effect of several calls. -/
inductive Steps (P : Plat) (m : Mem) : Sofar → List Call → Sofar → Prop
  | nil {s} : Steps P m s [] s
  | cons {s s' s'' c cs} : Step P m s c s' → Steps P m s' cs s'' → Steps P m s (c :: cs) s''

/-- The text of an open container up to here. -/
def frameText : Frame → List UInt8
  | .arr l => 91 :: renderItems true l
  | .obj l => 123 :: renderMembers true l
  | .key l k => 123 :: (renderMembers true l ++ (if l = [] then [] else [44]) ++ quote k)

/-- What has to come before the next value in a container. -/
def frameSep : Frame → List UInt8
  | .arr l => if l = [] then [] else [44]
  | .obj l => if l = [] then [] else [44]
  | .key _ _ => [58]

/-- The text written so far. -/
def Sofar.text : Sofar → List UInt8
  | .start => []
  | .inside f fs => fs.reverse.flatMap (fun g => frameText g ++ frameSep g) ++ frameText f
  | .done x => render x

/-- The bracket that closes a container. -/
def closer : Frame → UInt8
  | .arr _ => 93
  | _ => 125

/-- The text that completes the document: `:null` if a key waits for its value, and the closing
brackets. -/
def Sofar.rest : Sofar → List UInt8
  | .start => []
  | .inside f fs =>
    (match f with | .key _ _ => ascii ":null" | _ => []) ++ closer f :: fs.map closer
  | .done _ => []

/-- The call that closes a container. -/
def closeCall : Frame → Call
  | .arr _ => .arrayClose
  | _ => .objectClose

/-- The calls that complete the document. -/
def Sofar.finish : Sofar → List Call
  | .start => []
  | .inside f fs =>
    (match f with | .key _ _ => [.item .null] | _ => []) ++ closeCall f :: fs.map closeCall
  | .done _ => []

/-- The innermost container as it is when closed now. -/
def fillTop : Frame → Doc
  | .arr l => .arr l
  | .obj l => .obj l
  | .key l k => .obj (l ++ [(k, .null)])

/-- A container whose last item is `x`. -/
def fill (x : Doc) : Frame → Doc
  | .arr l => .arr (l ++ [x])
  | .obj l => .obj l
  | .key l k => .obj (l ++ [(k, x)])

/-- The document that results if everything is closed now. -/
def Sofar.doc : Sofar → Doc
  | .start => .null
  | .inside f fs => fs.foldl fill (fillTop f)
  | .done x => x

/-- `x` is `y` cut off somewhere: the same up to some point, and everything open there closed (with
`null` for the value of a key that has none yet). -/
inductive Cut : Doc → Doc → Prop
  | refl (x : Doc) : Cut x x
  | items (l r : List Doc) : Cut (.arr l) (.arr (l ++ r))
  | item {x y : Doc} (l r : List Doc) : Cut x y → Cut (.arr (l ++ [x])) (.arr (l ++ y :: r))
  | members (l r : List (List UInt8 × Doc)) : Cut (.obj l) (.obj (l ++ r))
  | member {k : List UInt8} {x y : Doc} (l r : List (List UInt8 × Doc)) : Cut x y →
      Cut (.obj (l ++ [(k, x)])) (.obj (l ++ (k, y) :: r))
  | value {k : List UInt8} {y : Doc} (l r : List (List UInt8 × Doc)) :
      Cut (.obj (l ++ [(k, .null)])) (.obj (l ++ (k, y) :: r))

end Mu.Jems.Spec
