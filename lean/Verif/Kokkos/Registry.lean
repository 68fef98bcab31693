import Mathlib.Logic.Function.Basic
import Mathlib.Data.List.Basic
import Mathlib.Data.Int.Basic

/-!
# The field registry of the default model data: `src/nimble_kokkos_model_data.{h,cc}`

`none` is a run that does not continue: a thrown exception (`std::out_of_range` of `at`,
`std::invalid_argument`) or the use of the null pointer that a `dynamic_cast` to the wrong field type
returns.  Host and device copies of a field are created together and kept in parallel lists with equal
indices (`create_mirror_view`); one list stands for both here (their contents are the subject of
`Verif.Kokkos.Coherence`).
-/

namespace NimbleSM.Kokkos.Registry

/-- nimble_kokkos_defs.h `FieldType`: the field classes used by the three allocation functions and the
getters. -/
inductive FType where
  | scalarNode | vectorNode | scalarElem | symTensorElem | fullTensorElem
  | scalarIntPt | vectorIntPt | symTensorIntPt | fullTensorIntPt
  deriving DecidableEq, Repr

/-- nimble_defs.h `Length` (the values the allocation functions distinguish, and another one). -/
inductive Length where
  | scalar | vector | symTensor | fullTensor | other
  deriving DecidableEq, Repr

/-- A `Field<type>`: its type, its number of objects and the contents of its view.  A view is a function
of (object, integration point, entry); scalar and nodal views use the entries they have. -/
structure Fld (K : Type*) where
  type : FType
  num : ℕ
  data : ℕ → ℕ → ℕ → K

/-- A list of fields with the map from field id to position in the list: `device_node_data_` with
`field_id_to_device_node_data_index_`, or the entries of one block. -/
structure Shelf (K : Type*) where
  fields : List (Fld K)
  index : ℕ → Option ℕ

/-- The entries of one block for integration point data: two lists, for the old and the new state, with
one index map (nimble_kokkos_model_data.cc:770-776). -/
structure Shelf2 (K : Type*) where
  fieldsN : List (Fld K)
  fieldsNP1 : List (Fld K)
  index : ℕ → Option ℕ

/-- The data members of `nimble_kokkos::ModelData` that store fields (nimble_kokkos_model_data.h:300-360). -/
structure Md (K : Type*) where
  /-- `field_label_to_field_id_map_` -/
  labels : List (String × ℕ)
  node : Shelf K
  /-- `block_id_to_element_data_index_` -/
  elemBlock : ℤ → Option ℕ
  elem : List (Shelf K)
  /-- `block_id_to_integration_point_data_index_` -/
  iptBlock : ℤ → Option ℕ
  ipt : List (Shelf2 K)

/-- A new model data. -/
def empty {K : Type*} : Md K := ⟨[], ⟨[], fun _ => none⟩, fun _ => none, [], fun _ => none, []⟩

variable {K : Type*}

/-- nimble_kokkos_model_data.h:93-97 `GetFieldId`: `at`. -/
def getFieldId (md : Md K) (label : String) : Option ℕ := md.labels.lookup label

/-- nimble_kokkos_model_data.cc:602-609 (and 649-656, 717-724): the id of a label, registering it if it is
new. -/
def register (md : Md K) (label : String) : Md K × ℕ :=
  match md.labels.lookup label with
  | none => ({ md with labels := (label, md.labels.length) :: md.labels }, md.labels.length)
  | some id => (md, id)

/-- `fields.emplace_back(f); index[field_id] = fields.size() - 1;` -/
def Shelf.add (s : Shelf K) (id : ℕ) (f : Fld K) : Shelf K :=
  { fields := s.fields ++ [f], index := Function.update s.index id (some s.fields.length) }

/-- The field class for nodal data (nimble_kokkos_model_data.cc:611-620). -/
def nodeType : Length → Option FType
  | .scalar => some .scalarNode
  | .vector => some .vectorNode
  | _ => none

/-- The field class for element data (nimble_kokkos_model_data.cc:667-678). -/
def elemType : Length → Option FType
  | .scalar => some .scalarElem
  | .symTensor => some .symTensorElem
  | .fullTensor => some .fullTensorElem
  | _ => none

/-- The field class for integration point data (nimble_kokkos_model_data.cc:736-763): nodal classes for
scalars and vectors. -/
def iptType : Length → Option FType
  | .scalar => some .scalarNode
  | .vector => some .vectorNode
  | .symTensor => some .symTensorIntPt
  | .fullTensor => some .fullTensorIntPt
  | .other => none

/-- nimble_kokkos_model_data.cc:599-643 `AllocateNodeData`; a new Kokkos view is zero. -/
def allocateNodeData [Zero K] (md : Md K) (length : Length) (label : String) (num_objects : ℕ) :
    Option (Md K × ℕ) :=
  let r := register md label
  (nodeType length).map fun t =>
    ({ r.1 with node := r.1.node.add r.2 ⟨t, num_objects, fun _ _ _ => 0⟩ }, r.2)

/-- nimble_kokkos_model_data.cc:646-704 `AllocateElementData`. -/
def allocateElementData [Zero K] (md : Md K) (block_id : ℤ) (length : Length) (label : String)
    (num_objects : ℕ) : Option (Md K × ℕ) :=
  let r := register md label
  let md := r.1
  let md : Md K := match md.elemBlock block_id with
    | none =>
      { md with
        elemBlock := Function.update md.elemBlock block_id (some md.elem.length)
        elem := md.elem ++ [⟨[], fun _ => none⟩] }
    | some _ => md
  (md.elemBlock block_id).bind fun block_index =>
    (md.elem[block_index]?).bind fun shelf =>
      (elemType length).map fun t =>
        ({ md with elem := md.elem.set block_index (shelf.add r.2 ⟨t, num_objects, fun _ _ _ => 0⟩) }, r.2)

/-- The number of entries set from `initial_value` (nimble_kokkos_model_data.cc:791, 815, 841, 868). -/
def numEntries : FType → ℕ
  | .scalarNode => 1
  | .vectorNode => 3
  | .symTensorIntPt => 6
  | _ => 9

/-- nimble_kokkos_model_data.cc:788-797, 812-823, 838-851, 865-878: the contents of both steps.  Entries
beyond `numEntries` are not set; `initial_value.at(i_entry)` throws when it is too short and there is an
element. -/
def initialData [Zero K] (t : FType) (num_objects : ℕ) (initial_value : List K) : Option (ℕ → ℕ → ℕ → K) :=
  if initial_value.isEmpty then some fun _ _ _ => 0
  else if num_objects ≠ 0 ∧ initial_value.length < numEntries t then none
  else some fun i_elem _ i_entry =>
    if i_elem < num_objects ∧ i_entry < numEntries t then (initial_value[i_entry]?).getD 0 else 0

/-- nimble_kokkos_model_data.cc:706-881 `AllocateIntegrationPointData`. -/
def allocateIntegrationPointData [Zero K] (md : Md K) (block_id : ℤ) (length : Length) (label : String)
    (num_objects : ℕ) (initial_value : List K) : Option (Md K × ℕ) :=
  let r := register md label
  let md := r.1
  let md : Md K := match md.iptBlock block_id with
    | none =>
      { md with
        iptBlock := Function.update md.iptBlock block_id (some md.ipt.length)
        ipt := md.ipt ++ [⟨[], [], fun _ => none⟩] }
    | some _ => md
  (md.iptBlock block_id).bind fun block_index =>
    (md.ipt[block_index]?).bind fun shelf =>
      (iptType length).bind fun t =>
        (initialData t num_objects initial_value).map fun d =>
          let f : Fld K := ⟨t, num_objects, d⟩
          ({ md with
              ipt := md.ipt.set block_index
                { fieldsN := shelf.fieldsN ++ [f]
                  fieldsNP1 := shelf.fieldsNP1 ++ [f]
                  index := Function.update shelf.index r.2 (some shelf.fieldsN.length) } }, r.2)

/-- nimble_defs.h `Step`. -/
inductive Step where
  | n | np1
  deriving DecidableEq, Repr

/-- Where a field lives. -/
inductive Place where
  | node
  | elem (block_id : ℤ)
  | ipt (block_id : ℤ) (step : Step)
  deriving DecidableEq

/-- The lookups of the getters before the cast: nimble_kokkos_model_data.cc:1448-1454 (nodes), 1465-1471
(elements), 1542-1554 (integration points). -/
def getField (md : Md K) (p : Place) (field_id : ℕ) : Option (Fld K) :=
  match p with
  | .node => (md.node.index field_id).bind fun i => md.node.fields[i]?
  | .elem b => (md.elemBlock b).bind fun bi => (md.elem[bi]?).bind fun s =>
      (s.index field_id).bind fun i => s.fields[i]?
  | .ipt b .n => (md.iptBlock b).bind fun bi => (md.ipt[bi]?).bind fun s =>
      (s.index field_id).bind fun i => s.fieldsN[i]?
  | .ipt b .np1 => (md.iptBlock b).bind fun bi => (md.ipt[bi]?).bind fun s =>
      (s.index field_id).bind fun i => s.fieldsNP1[i]?

/-- The getters: nimble_kokkos_model_data.cc:1448-1613.  A cast to another type than the field's gives a
null pointer, whose `data()` is then called. -/
def get (md : Md K) (p : Place) (field_id : ℕ) (t : FType) : Option (Fld K) :=
  (getField md p field_id).bind fun f => if f.type = t then some f else none

/-- Replacement of the contents of a field through its view (the views share the storage of the field):
assignment to the entries, or the destination of `Kokkos::deep_copy`. -/
def setData (md : Md K) (p : Place) (field_id : ℕ) (d : ℕ → ℕ → ℕ → K) : Md K :=
  let put : List (Fld K) → ℕ → List (Fld K) := fun l i => l.modify i fun f => { f with data := d }
  match p with
  | .node => match md.node.index field_id with
    | none => md
    | some i => { md with node := { md.node with fields := put md.node.fields i } }
  | .elem b => match md.elemBlock b with
    | none => md
    | some bi => { md with elem := md.elem.modify bi fun s => match s.index field_id with
      | none => s
      | some i => { s with fields := put s.fields i } }
  | .ipt b .n => match md.iptBlock b with
    | none => md
    | some bi => { md with ipt := md.ipt.modify bi fun s => match s.index field_id with
      | none => s
      | some i => { s with fieldsN := put s.fieldsN i } }
  | .ipt b .np1 => match md.iptBlock b with
    | none => md
    | some bi => { md with ipt := md.ipt.modify bi fun s => match s.index field_id with
      | none => s
      | some i => { s with fieldsNP1 := put s.fieldsNP1 i } }

/-- `Kokkos::deep_copy(GetX(block, id, STEP_N), GetX(block, id, STEP_NP1))`. -/
def copyStep (md : Md K) (block_id : ℤ) (field_id : ℕ) (t : FType) : Option (Md K) :=
  (get md (.ipt block_id .n) field_id t).bind fun _ =>
    (get md (.ipt block_id .np1) field_id t).map fun src => setData md (.ipt block_id .n) field_id src.data

/-- nimble_model_data_base.h:65-83 `FieldIds` (the ids of integration point data; `-1` is `none`). -/
structure FieldIds where
  deformation_gradient : ℕ
  stress : ℕ
  unrotated_stress : ℕ
  state_sym_tensor : Option ℕ
  state_full_tensor : Option ℕ
  state_scalar : Option ℕ
  state_vec3D : Option ℕ
  deriving DecidableEq

/-- What `InitializeBlocks` knows of a block: id, number of elements, and whether the material has state
variables (`NumStateVariables() > 0`). -/
structure BlockInfo where
  id : ℤ
  numElem : ℕ
  hasState : Bool

/-- nimble_kokkos_model_data.cc:938-940: the element volume, if the output string contains the word
`volume`. -/
def initVolume [Zero K] (wantVolume : Bool) (b : BlockInfo) (md : Md K) : Option (Md K) :=
  if wantVolume then (allocateElementData md b.id .scalar "volume" b.numElem).map Prod.fst else some md

/-- nimble_kokkos_model_data.cc:942-954: the state variables. -/
def initState [Zero K] (b : BlockInfo) (md : Md K) (ids : FieldIds) : Option (Md K × FieldIds) := do
  let (md, s6) ← allocateIntegrationPointData md b.id .symTensor "state_sym_tensor" b.numElem []
  let (md, s9) ← allocateIntegrationPointData md b.id .fullTensor "state_full_tensor" b.numElem []
  let (md, s1) ← allocateIntegrationPointData md b.id .scalar "state_scalar" b.numElem []
  let (md, s3) ← allocateIntegrationPointData md b.id .vector "state_vec3D" b.numElem []
  some (md, { ids with
    state_sym_tensor := some s6
    state_full_tensor := some s9
    state_scalar := some s1
    state_vec3D := some s3 })

/-- nimble_kokkos_model_data.cc:906-955: the body of the loop over blocks of `InitializeBlocks`;
`wantVolume` is line 938 (the output string contains the word `volume`). -/
def initBlock [Zero K] [One K] (wantVolume : Bool) (b : BlockInfo) (st : Md K × FieldIds) :
    Option (Md K × FieldIds) := do
  let (md, ids) := st
  let (md, dg) ← allocateIntegrationPointData md b.id .fullTensor "deformation_gradient" b.numElem
    [1, 1, 1, 0, 0, 0, 0, 0, 0]
  let (md, _) ← allocateElementData md b.id .fullTensor "deformation_gradient" b.numElem
  let (md, stress) ← allocateIntegrationPointData md b.id .symTensor "stress" b.numElem []
  let (md, unrotated) ← allocateIntegrationPointData md b.id .symTensor "stress" b.numElem []
  let (md, _) ← allocateElementData md b.id .symTensor "stress" b.numElem
  let md ← initVolume wantVolume b md
  let ids := { ids with deformation_gradient := dg, stress := stress, unrotated_stress := unrotated }
  if b.hasState then initState b md ids else some (md, ids)

/-- nimble_kokkos_model_data.cc:892-961 `InitializeBlocks`, the registry part. -/
def initializeBlocks [Zero K] [One K] (wantVolume : Bool) (blocks : List BlockInfo) (md : Md K)
    (ids : FieldIds) : Option (Md K × FieldIds) :=
  blocks.foldlM (fun st b => initBlock wantVolume b st) (md, ids)

/-- nimble_kokkos_model_data.cc:987-993 (and 995-1001, 1003-1009, 1011-1017): a state variable is fetched
as a full tensor whatever its kind, if its id is set. -/
def copyState (md : Md K) (block_id : ℤ) : Option ℕ → Option (Md K)
  | some i => copyStep md block_id i .fullTensorIntPt
  | none => some md

/-- nimble_kokkos_model_data.cc:970-1018: the body of the loop of `UpdateStates`. -/
def updateBlock (ids : FieldIds) (md : Md K) (b : BlockInfo) : Option (Md K) :=
  (copyStep md b.id ids.deformation_gradient .fullTensorIntPt).bind fun md =>
  (copyStep md b.id ids.unrotated_stress .symTensorIntPt).bind fun md =>
  (copyStep md b.id ids.stress .symTensorIntPt).bind fun md =>
  if b.hasState then
    (copyState md b.id ids.state_sym_tensor).bind fun md =>
    (copyState md b.id ids.state_full_tensor).bind fun md =>
    (copyState md b.id ids.state_scalar).bind fun md =>
    copyState md b.id ids.state_vec3D
  else some md

/-- nimble_kokkos_model_data.cc:963-1021 `UpdateStates`. -/
def updateStates (ids : FieldIds) (blocks : List BlockInfo) (md : Md K) : Option (Md K) :=
  blocks.foldlM (updateBlock ids) md

end NimbleSM.Kokkos.Registry
