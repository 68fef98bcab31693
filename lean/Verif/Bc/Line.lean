import Verif.Bc.Kinematic
import Verif.Contact.Command
import Verif.Mesh.Genesis
import Verif.Expr.Expr

/-!
# Boundary condition lines: `BoundaryCondition::Initialize` (src/nimble_boundary_condition.cc) and
`BoundaryConditionManager::Initialize` (src/nimble_boundary_condition_manager.cc:48-76)
-/

namespace NimbleSM.Bc

open NimbleSM.Parse
open NimbleSM.Fields (Str)
open NimbleSM.Contact (Stream extractWord extractNumber)
open NimbleSM.Genesis (IMap)
open NimbleSM.Expr (Arith Functor)

/-- `find_name_id` (nimble_boundary_condition.cc:53-62). -/
def findNameId (names : IMap Str) (name : Str) : ℤ :=
  match names.find? fun e => e.2 == name with
  | some e => e.1
  | none => -1

/-- `ss >> str` for a string that holds `old`: it keeps `old` if there is no word. -/
def extractInto (old : Str) (s : Stream) : Str × Stream := (if (extractWord s).1 = [] then old else (extractWord s).1, (extractWord s).2)

/-- The exceptions (all `std::invalid_argument`). -/
inductive LineErr where
  | unknownType
  | quotes
  | expression (e : NimbleSM.Expr.Err)
  | coordinate

/-- The members set by `Initialize`; a magnitude is a number or an expression. -/
structure Line (K : Type) where
  type : BcType
  nodeSetId : ℤ
  sideSetId : ℤ
  coordinate : ℕ
  magnitude : K ⊕ Functor K

/-- nimble_boundary_condition.cc:80-94. -/
def lineType (w : Str) : Option BcType :=
  if w = "initial_velocity".toList then some .initialVelocity
  else if w = "prescribed_velocity".toList then some .prescribedVelocity
  else if w = "prescribed_displacement".toList then some .prescribedDisplacement
  else if w = "prescribed_traction".toList then some .prescribedTraction
  else none

/-- nimble_boundary_condition.cc:124-125, 139-147: `coordinate_` from the lower case string. -/
def lineCoordinate (w : Str) : Option ℕ :=
  let w := w.map Char.toLower
  if w = "x".toList then some 0 else if w = "y".toList then some 1 else if w = "z".toList then some 2 else none

/-- nimble_boundary_condition.cc:111-113: `substr(first_pos + 1, last_pos - first_pos - 1)`. -/
def quoted (text : Str) : Str :=
  let first := text.findIdx (· == '"')
  let last := text.length - 1 - text.reverse.findIdx (· == '"')
  (text.drop (first + 1)).take (last - first - 1)

section
variable {K : Type} (A : Arith K)

/-- nimble_boundary_condition.cc:107-121: the magnitude.  The functor is constructed from the text and copy-assigned; a number that is not
there leaves the initial 0.0 (nimble_boundary_condition.h:100). -/
def lineMagnitude (text : Str) (s : Stream) : Except LineErr (K ⊕ Functor K) :=
  let num_quotes := text.count '"'
  if num_quotes = 2 then
    match Functor.ofText A (quoted text) with
    | .error e => .error (.expression e)
    | .ok g =>
      match (⟨none, []⟩ : Functor K).copyAssign A g with
      | (f, none) => .ok (.inr f)
      | (_, some e) => .error (.expression e)
  else if num_quotes = 0 then .ok (.inl (A.ofRat ((extractNumber s).getD 0)))
  else .error .quotes

/-- `Initialize` (nimble_boundary_condition.cc:65-147) on a new object; result: the object and `is_valid`. -/
def initLine (text : Str) (nodeSetNames sideSetNames : IMap Str) : Except LineErr (Line K × Bool) :=
  let (typeString, s) := extractInto "undefined".toList ⟨text, true⟩
  match lineType typeString with
  | none => .error .unknownType
  | some type =>
    let isNeumann := type = .prescribedTraction
    let (setName, s) := extractInto "unknown".toList s
    let (coordinateString, s) := extractInto "undefined".toList s
    match lineMagnitude A text s with
    | .error e => .error e
    | .ok magnitude =>
      let nodeSetId := if isNeumann then -1 else findNameId nodeSetNames setName
      let sideSetId := if isNeumann then findNameId sideSetNames setName else -1
      let isValid := if isNeumann then sideSetId ≠ -1 else nodeSetId ≠ -1
      match lineCoordinate coordinateString with
      | none => .error .coordinate
      | some c => .ok (⟨type, nodeSetId, sideSetId, c, magnitude⟩, isValid)

/-- The loop of the manager (nimble_boundary_condition_manager.cc:71-75), appending to `bcs`; an exception ends it. -/
def initializeAll (nodeSetNames sideSetNames : IMap Str) : List Str → List (Line K) → Except LineErr (List (Line K))
  | [], bcs => .ok bcs
  | text :: texts, bcs =>
    match initLine A text nodeSetNames sideSetNames with
    | .error e => .error e
    | .ok (bc, isValid) => initializeAll nodeSetNames sideSetNames texts (if isValid then bcs ++ [bc] else bcs)

/-- A line as the time integrators see it (Bc.lean).  An expression that is there can be evaluated. -/
def Line.condition [Zero K] (l : Line K) : BoundaryCondition K :=
  { type := l.type
    nodeSetId := l.nodeSetId
    coordinate := l.coordinate
    magnitude :=
      match l.magnitude with
      | .inl c => .inl c
      | .inr f => .inr fun x y z t => (f.eval A x y z t).getD 0 }

end

end NimbleSM.Bc
