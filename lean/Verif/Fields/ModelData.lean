import Verif.Fields.Labels
import Mathlib.Data.Rat.Defs

/-!
# Field registry and output arrays: `src/nimble_model_data.cc`

An abort or exception is `none`.  `std::map<int, Field> data_fields_` always has the keys `0..n-1`
(the key of a new field is the size of the map, line 392), so it is a list and the field id is the
position.  Values are exact (`ℚ`).
-/

namespace NimbleSM.Fields

/-- `std::transform(..., ::tolower)` in the "C" locale. -/
def lower (s : Str) : Str := s.map Char.toLower

/-- nimble_model_data.cc:376-390: the loop of `AssignFieldId` over the known fields, the first of
which has number `i`. Result `none`: abort; `some none`: no field of this name; else its id. -/
def findField (name : Str) (rel : Relation) (len : Length) : ℕ → List Field → Option (Option ℕ)
  | _, [] => some none
  | i, f :: fs =>
    if name = lower f.label then
      if rel = f.relation ∧ len = f.length then some (some i) else none
    else findField name rel len (i + 1) fs

/-- nimble_model_data.cc:370-398 `AssignFieldId`. -/
def assignFieldId (fields : List Field) (f : Field) : Option (ℕ × List Field) :=
  match findField (lower f.label) f.relation f.length 0 fields with
  | none => none
  | some none => some (fields.length, fields ++ [f])
  | some (some i) => some (i, fields)

/-- nimble_model_data.cc:64-71 `GetFieldId`: `none` stands for -1. -/
def getFieldId (fields : List Field) (label : Str) : Option ℕ := go 0 fields
where
  go : ℕ → List Field → Option ℕ
    | _, [] => none
    | i, f :: fs => if f.label = label then some i else go (i + 1) fs

/-- The part of `ModelData` (nimble_model_data.h) these functions work on: `dim_`, `data_fields_`,
`node_data_` (a map from field id to values) and `element_data_fields_` (a map from block id to field
ids). -/
structure State where
  dim : ℕ
  fields : List Field
  nodeData : ℕ → Option (List ℚ)
  elementFields : ℕ → List ℕ

/-- nimble_model_data_base.cc:51-56: the initial state after `SetDimension`. -/
def State.init (dim : ℕ) : State := ⟨dim, [], fun _ => none, fun _ => []⟩

/-- nimble_model_data.cc:79-91 `AllocateNodeData`: new id and state. -/
def allocateNodeData (s : State) (length : Length) (label : Str) (n : ℕ) : Option (ℕ × State) := do
  let (id, fields) ← assignFieldId s.fields ⟨label, .node, length⟩
  let k ← lengthToInt length s.dim
  return (id, { s with fields := fields
                       nodeData := Function.update s.nodeData id (some (List.replicate (n * k) 0)) })

/-- nimble_model_data.cc:125-140 `DeclareElementData`: the ids pushed for the block, and the new
state. -/
def declareElementData (s : State) (block : ℕ) : List (Str × Length) → Option (List ℕ × State)
  | [] => some ([], s)
  | (label, length) :: rest => do
    let (id, fields) ← assignFieldId s.fields ⟨label, .element, length⟩
    let s' : State := { s with
      fields := fields
      elementFields := Function.update s.elementFields block (s.elementFields block ++ [id]) }
    let (ids, s'') ← declareElementData s' block rest
    return (id :: ids, s'')

/-- nimble_model_data.cc:400-414 `GetNodeDataComponent`: the values written; `none` on abort. -/
def nodeDataComponent (s : State) (id component : ℕ) : Option (List ℚ) := do
  let f ← s.fields[id]?
  let nc ← lengthToInt f.length s.dim
  let data ← s.nodeData id
  if component ≥ nc then none
  else (List.range (data.length / nc)).mapM fun i => data[i * nc + component]?

/-- `std::vector::resize` followed by overwriting the first entries through a pointer. -/
def overwrite (old : List ℚ) (n : ℕ) (new : List ℚ) : List ℚ :=
  new ++ ((old.take n ++ List.replicate (n - old.length) 0).drop new.length)

/-- nimble_model_data.cc:112-120: the loop over the components of one field. -/
def outputComponents (s : State) (id : ℕ) (f : Field) (size : ℕ) (want : Str) :
    ℕ → List Str → List ℚ → Option (List ℚ)
  | _, [], arr => some arr
  | i, l :: ls, arr =>
    if l = want then do
      let nc ← lengthToInt f.length s.dim
      let new ← nodeDataComponent s id i
      outputComponents s id f size want (i + 1) ls (overwrite arr (size / nc) new)
    else outputComponents s id f size want (i + 1) ls arr

/-- nimble_model_data.cc:109-121: the loop over `node_data_`, in the order of ids, starting with
id `i` (fields that are not node fields have no entry there). -/
def outputNodeLabel (s : State) (want : Str) : ℕ → List Field → List ℚ → Option (List ℚ)
  | _, [], arr => some arr
  | i, f :: fs, arr =>
    match s.nodeData i with
    | none => outputNodeLabel s want (i + 1) fs arr
    | some data => do
      let arr' ← outputComponents s i f data.length want 0 (componentLabels f.label f.length s.dim) arr
      outputNodeLabel s want (i + 1) fs arr'

/-- nimble_model_data.cc:99-123 `GetNodeDataForOutput`: the array for one output label; `old` is what
the array held before (empty at the first call). -/
def nodeDataForOutput (s : State) (want : Str) (old : List ℚ) : Option (List ℚ) :=
  outputNodeLabel s want 0 s.fields old

/-- nimble_model_data.cc:153-159: the component labels of a block's element data. -/
def blockLabels (s : State) (block : ℕ) : Option (List Str) := do
  let ls ← (s.elementFields block).mapM fun id => do
    let f ← s.fields[id]?
    return componentLabels f.label f.length s.dim
  return ls.flatten

/-- nimble_model_data.cc:150-166: length of a block's element data array. -/
def blockArrayLength (s : State) (block nElem : ℕ) : Option ℕ := do
  let ks ← (s.elementFields block).mapM fun id => do
    let f ← s.fields[id]?
    lengthToInt f.length s.dim
  return ks.sum * nElem

/-- nimble_model_data.cc:199-202: position of the last label equal to the wanted one. -/
def lastIndex (want : Str) : ℕ → List Str → Option ℕ → Option ℕ
  | _, [], acc => acc
  | i, l :: ls, acc => lastIndex want (i + 1) ls (if want = l then some i else acc)

/-- nimble_model_data.cc:193-210 `GetElementDataForOutput` for one block and one output label; `none`
on abort (label not found). -/
def elementDataForOutput (labels : List Str) (data : List ℚ) (want : Str) : Option (List ℚ) := do
  let offset ← lastIndex want 0 labels none
  (List.range (data.length / labels.length)).mapM fun i => data[i * labels.length + offset]?

end NimbleSM.Fields
