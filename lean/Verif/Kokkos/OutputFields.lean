import Verif.Kokkos.Registry
import Verif.Fields.Output
import Verif.Parse.Deck

/-!
# Output of the default model data: `ExodusOutputManager` of `src/nimble_kokkos_model_data.cc`

The model data is the table of C96 (`Verif.Kokkos.RegistryProps`): what is stored at a place under a label.
A field id stands for its label (C96: one id per label, for life, different for different labels), so the
columns carry labels where the code carries ids.  Labels are lists of characters.  Host and device copies
are one; the output code copies every field it computes to the host (lines 418, 452, 473, 513, 538).
`none` is a thrown exception, a null pointer, or an access outside a view.
-/

namespace NimbleSM.Kokkos.Output

open NimbleSM.Fields (Str getlineSplit)
open NimbleSM.Deck (atoi)
open NimbleSM.Kokkos.Registry (FType Fld Place Step)

variable {K : Type*}

/-- What is stored at a place under a label. -/
abbrev Tab (K : Type*) := Place → Str → Option (Fld K)

/-- Store a field. -/
def Tab.put (T : Tab K) (p : Place) (l : Str) (f : Fld K) : Tab K :=
  fun q m => if q = p ∧ m = l then some f else T q m

/-- The type of the field stored at a place under a label. -/
def Tab.type (T : Tab K) (p : Place) (l : Str) : Option FType := (T p l).map (·.type)

/-- A getter: the field, if it has the type asked for. -/
def Tab.get (T : Tab K) (p : Place) (l : Str) (t : FType) : Option (Fld K) :=
  (T p l).bind fun f => if f.type = t then some f else none

/-- nimble_kokkos_model_data.cc:1361-1377, 1379-1395, 1397-1420, 1422-1445: the labels of the fields of a
type at a place.  `labels` are the keys of `field_label_to_field_id_map_` in order. -/
def labelsOf (labels : List Str) (T : Tab K) (p : Place) (t : FType) : List Str :=
  labels.filter fun l => decide (T.type p l = some t)

/-- An entry of the parallel arrays `node_data_*` (nimble_kokkos_model_data.cc:95-100). -/
structure NodeCol where
  label : Str
  field : Str
  type : FType
  component : ℕ
  size : ℕ

/-- The extent of the view of a field (`extent(0)`, lines 129 and 144). -/
def Tab.extent (T : Tab K) (p : Place) (l : Str) : ℕ := ((T p l).map (·.num)).getD 0

/-- nimble_kokkos_model_data.cc:124-166: the nodal part of `SpecifyOutputFields`. -/
def nodeColumns (labels : List Str) (T : Tab K) (requested : List Str) : List NodeCol :=
  (requested.flatMap fun r => (labelsOf labels T .node .scalarNode).flatMap fun l =>
    if r = l then [⟨l, l, .scalarNode, 0, T.extent .node l⟩] else [])
  ++ (requested.flatMap fun r => (labelsOf labels T .node .vectorNode).flatMap fun l =>
    if r = l then [⟨l ++ "_x".toList, l, .vectorNode, 0, T.extent .node l⟩,
      ⟨l ++ "_y".toList, l, .vectorNode, 1, T.extent .node l⟩,
      ⟨l ++ "_z".toList, l, .vectorNode, 2, T.extent .node l⟩] else [])

/-- An entry of the parallel arrays `elem_data_*` of a block (nimble_kokkos_model_data.cc:102-108). -/
structure ElemCol where
  label : Str
  iptdata : Str
  edata : Str
  type : FType
  point : ℤ
  component : ℕ
  size : ℕ

/-- nimble_kokkos_model_data.cc:207-216, 284-293: the prefix of a request for one integration point: field
label, flag, index.  `substr(6, …)` throws on shorter labels; the index is read from two characters starting
at position 4. -/
def parseRequest (r : Str) : Option (Str × Bool × ℤ) :=
  if r.take 3 = "ipt".toList then
    if r.length < 6 then none else some (r.drop 6, true, atoi ((r.drop 4).take 2) - 1)
  else some (r, false, -1)

/-- The suffixes of the columns of a symmetric tensor with the components (nimble_kokkos_model_data.cc:227-275). -/
def symComponents : List (Str × ℕ) :=
  [("_xx".toList, 0), ("_yy".toList, 1), ("_zz".toList, 2), ("_xy".toList, 3), ("_yz".toList, 4),
   ("_zx".toList, 5)]

/-- The suffixes of the columns of a full tensor with the components (nimble_kokkos_model_data.cc:306-378). -/
def fullComponents : List (Str × ℕ) :=
  [("_xx".toList, 0), ("_yy".toList, 1), ("_zz".toList, 2), ("_xy".toList, 3), ("_yz".toList, 4),
   ("_zx".toList, 5), ("_yx".toList, 6), ("_zy".toList, 7), ("_xz".toList, 8)]

/-- The state of `SpecifyOutputFields` for one block: model data, columns, labels to be averaged
(`sym_tensor_field_ids_requiring_volume_average_` and the one for full tensors). -/
structure BlockOut (K : Type*) where
  T : Tab K
  cols : List ElemCol
  symAve : List Str
  fullAve : List Str

/-- nimble_kokkos_model_data.cc:217-276, 295-379: one match of a request with a field label.  `sym` selects
the loop. -/
def addTensor [Zero K] (sym : Bool) (block_id : ℤ) (r l : Str) (single : Bool) (index : ℤ) (o : BlockOut K) :
    Option (BlockOut K) :=
  let tIpt : FType := if sym then .symTensorIntPt else .fullTensorIntPt
  let tElem : FType := if sym then .symTensorElem else .fullTensorElem
  (o.T.get (.ipt block_id .np1) l tIpt).map fun f =>
    let edata := if single then r else l
    { T := if single then o.T.put (.elem block_id) r ⟨tElem, f.num, fun _ _ _ => 0⟩ else o.T
      cols := o.cols ++ (if sym then symComponents else fullComponents).map fun sc =>
        ⟨r ++ sc.1, l, edata, tElem, index, sc.2, f.num⟩
      symAve := if sym && !single then o.symAve ++ [l] else o.symAve
      fullAve := if !sym && !single then o.fullAve ++ [l] else o.fullAve }

/-- nimble_kokkos_model_data.cc:181-199: requests for the element volume.  The field must have been allocated
(`GetFieldId` and the getter throw otherwise). -/
def volumeLoop (block_id : ℤ) (requested : List Str) (o : BlockOut K) : Option (BlockOut K) :=
  requested.foldlM (fun o r =>
    if r = "volume".toList then
      (o.T.get (.elem block_id) r .scalarElem).map fun f =>
        { o with cols := o.cols ++ [⟨r, r, r, .scalarElem, -1, 0, f.num⟩] }
    else some o) o

/-- nimble_kokkos_model_data.cc:201-279: symmetric tensors; the request is parsed inside the loop over the
labels. -/
def symLoop [Zero K] (block_id : ℤ) (requested symLabels : List Str) (o : BlockOut K) : Option (BlockOut K) :=
  requested.foldlM (fun o r => symLabels.foldlM (fun o l =>
    (parseRequest r).bind fun (field, single, index) =>
      if field = l then addTensor true block_id r l single index o else some o) o) o

/-- nimble_kokkos_model_data.cc:281-381: full tensors; the request is parsed before the loop over the labels. -/
def fullLoop [Zero K] (block_id : ℤ) (requested fullLabels : List Str) (o : BlockOut K) : Option (BlockOut K) :=
  requested.foldlM (fun o r => (parseRequest r).bind fun (field, single, index) =>
    fullLabels.foldlM (fun o l =>
      if field = l then addTensor false block_id r l single index o else some o) o) o

/-- nimble_kokkos_model_data.cc:180-382: one pass of the loop over blocks. -/
def specifyBlock [Zero K] (labels : List Str) (block_id : ℤ) (requested : List Str) (T : Tab K) :
    Option (BlockOut K) :=
  (volumeLoop block_id requested ⟨T, [], [], []⟩).bind fun o =>
    (symLoop block_id requested (labelsOf labels T (.ipt block_id .np1) .symTensorIntPt) o).bind fun o =>
      fullLoop block_id requested (labelsOf labels T (.ipt block_id .np1) .fullTensorIntPt) o

/-- nimble_kokkos_model_data.cc:168-383: the element part of `SpecifyOutputFields`.  The labels added for
single integration points name element data only, so they do not change the lists of labels of integration
point data (`labels` is not extended here). -/
def specifyBlocks [Zero K] (labels : List Str) (requested : List Str) : List ℤ → Tab K →
    Option (Tab K × List (ℤ × BlockOut K))
  | [], T => some (T, [])
  | b :: bs, T => (specifyBlock labels b requested T).bind fun o =>
      (specifyBlocks labels requested bs o.T).map fun (T', os) => (T', (b, o) :: os)

/-! ## Values -/

/-- The element routines used by the output (`ComputeVolume`, `ComputeVolumeAverageSymTensor`,
`ComputeVolumeAverageFullTensor`, modelled elsewhere): for a block and an element, the volume and the volume
average of values at the integration points.  `numPoints` is the number of integration points stored. -/
structure ElementOps (K : Type*) where
  volume : ℤ → ℕ → K
  average : ℤ → ℕ → (ℕ → K) → K
  numPoints : ℕ

/-- Overwrite the contents of an existing field of type `t`. -/
def Tab.fill (T : Tab K) (p : Place) (l : Str) (t : FType) (d : ℕ → ℕ → ℕ → K) : Option (Tab K) :=
  (T.get p l t).map fun f => T.put p l { f with data := d }

/-- nimble_kokkos_model_data.cc:395-420: element volumes, if the volume was requested. -/
def computeVolume (E : ElementOps K) (wanted : Bool) (blocks : List ℤ) (T : Tab K) : Option (Tab K) :=
  if wanted then
    blocks.foldlM (fun T b => T.fill (.elem b) "volume".toList .scalarElem fun e _ _ => E.volume b e) T
  else some T

/-- nimble_kokkos_model_data.cc:427-475: the extraction for one column. -/
def extractColumn (E : ElementOps K) (b : ℤ) (T : Tab K) (c : ElemCol) : Option (Tab K) :=
  if c.point ≠ -1 then
    if c.type = .symTensorElem then
      (T.get (.ipt b .np1) c.iptdata .symTensorIntPt).bind fun f =>
        if 0 ≤ c.point ∧ c.point < E.numPoints then
          T.fill (.elem b) c.edata .symTensorElem fun e _ i => f.data e c.point.toNat i
        else none
    else if c.type = .fullTensorElem then
      (T.get (.ipt b .np1) c.iptdata .fullTensorIntPt).bind fun f =>
        if 0 ≤ c.point ∧ c.point < E.numPoints then
          T.fill (.elem b) c.edata .fullTensorElem fun e _ i => f.data e c.point.toNat i
        else none
    else some T
  else some T

/-- nimble_kokkos_model_data.cc:490-513, 515-539: the volume average of one field. -/
def averageField (E : ElementOps K) (sym : Bool) (b : ℤ) (T : Tab K) (l : Str) : Option (Tab K) :=
  let tIpt : FType := if sym then .symTensorIntPt else .fullTensorIntPt
  let tElem : FType := if sym then .symTensorElem else .fullTensorElem
  (T.get (.ipt b .np1) l tIpt).bind fun f =>
    T.fill (.elem b) l tElem fun e _ i => E.average b e fun q => f.data e q i

/-- nimble_kokkos_model_data.cc:383-541 `ComputeElementData`. -/
def computeElementData (E : ElementOps K) (wanted : Bool) (os : List (ℤ × BlockOut K)) (T : Tab K) :
    Option (Tab K) :=
  (computeVolume E wanted (os.map (·.1)) T).bind fun T =>
    (os.foldlM (fun T (bo : ℤ × BlockOut K) => bo.2.cols.foldlM (extractColumn E bo.1) T) T).bind fun T =>
      os.foldlM (fun T (bo : ℤ × BlockOut K) => (bo.2.symAve.foldlM (averageField E true bo.1) T).bind fun T =>
        bo.2.fullAve.foldlM (averageField E false bo.1) T) T

/-- nimble_kokkos_model_data.cc:543-558 `GetNodeDataForOutput`: name and values of every column. -/
def nodeOutput (T : Tab K) (cols : List NodeCol) : Option (List (Str × List K)) :=
  cols.mapM fun c => (T.get .node c.field c.type).map fun f =>
    (c.label, (List.range c.size).map fun i => f.data i 0 c.component)

/-- nimble_kokkos_model_data.cc:560-590 `GetElementDataForOutput`, for one block. -/
def elemOutput (b : ℤ) (T : Tab K) (cols : List ElemCol) : Option (List (Str × List K)) :=
  cols.mapM fun c => (T.get (.elem b) c.edata c.type).map fun f =>
    (c.label, (List.range c.size).map fun i => f.data i 0 c.component)

/-- The element output of a run: specification of the fields, computation, extraction of the columns of
every block.  `output_element_volume_` is set when the word is among the requests and there is a block. -/
def elementResults [Zero K] (E : ElementOps K) (labels : List Str) (blocks : List ℤ) (request : Str) (T : Tab K) :
    Option (List (ℤ × List (Str × List K))) :=
  let requested := getlineSplit request
  (specifyBlocks labels requested blocks T).bind fun (T, os) =>
    (computeElementData E (decide ("volume".toList ∈ requested)) os T).bind fun T =>
      os.mapM fun bo => (elemOutput bo.1 T bo.2.cols).map fun r => (bo.1, r)

/-- The nodal output of a run. -/
def nodeResults (labels : List Str) (request : Str) (T : Tab K) : Option (List (Str × List K)) :=
  nodeOutput T (nodeColumns labels T (getlineSplit request))

end NimbleSM.Kokkos.Output
