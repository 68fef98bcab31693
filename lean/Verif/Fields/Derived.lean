import Verif.Fields.BlockData
import Verif.Assembly.Assembly

/-!
# Derived element data (volume and volume averages): `src/nimble_block.cc`

Exact arithmetic; `none` is an exception or an abort.  The element is the hexahedron with eight
integration points (`Verif.Element.Hex`).
-/

namespace NimbleSM.Fields

open NimbleSM.Hex NimbleSM.Assembly

/-- nimble_block_base.h: `vol_ave_labels` (a local of `DetermineDataOffsets`),
`vol_ave_index_to_derived_data_index_` (`operator[]` of an absent key gives 0) and
`vol_ave_volume_offset_` (`none` is -1). -/
structure VolAve where
  labels : List Str
  indexMap : ℕ → ℕ
  volume : Option ℕ

/-- nimble_block.cc:572-580: the loop over the requested derived data, the first of which has
number `i`. -/
def volAveLoop : ℕ → List Str → VolAve → VolAve
  | _, [], s => s
  | i, label :: rest, s =>
    if label = "volume".toList then volAveLoop (i + 1) rest { s with volume := some i }
    else volAveLoop (i + 1) rest
      { s with indexMap := Function.update s.indexMap s.labels.length i, labels := s.labels ++ [label] }

/-- nimble_block.cc:570-580. -/
def volAve (derived : List Str) : VolAve := volAveLoop 0 derived ⟨[], fun _ => 0, none⟩

/-- nimble_block.cc:586-593: the loop over the labels of the first integration point, the first of
which has number `j`, for the volume averaged label `want` with number `i`. -/
def volAveOffsetsOne (want : Str) (i nVol nPerIpt numIpt : ℕ) : ℕ → List Str → (ℕ → ℕ) → Option (ℕ → ℕ)
  | _, [], offs => some offs
  | j, l :: rest, offs => do
    let stripped ← removePrefix l
    let offs' := if want = stripped then
        (List.range numIpt).foldl (fun o p => Function.update o (i + p * nVol) (j + p * nPerIpt)) offs
      else offs
    volAveOffsetsOne want i nVol nPerIpt numIpt (j + 1) rest offs'

/-- nimble_block.cc:584-595: the loop over the volume averaged labels, the first of which has number
`i`. -/
def volAveOffsetsLoop (elemLabels : List Str) (nVol nPerIpt numIpt : ℕ) :
    ℕ → List Str → (ℕ → ℕ) → Option (ℕ → ℕ)
  | _, [], offs => some offs
  | i, want :: rest, offs => do
    let offs' ← volAveOffsetsOne want i nVol nPerIpt numIpt 0 (elemLabels.take nPerIpt) offs
    volAveOffsetsLoop elemLabels nVol nPerIpt numIpt (i + 1) rest offs'

/-- nimble_block.cc:568-595: `vol_ave_offsets_`; `resize` fills with zeros (the function is called once
for a block). -/
def volAveOffsets (elemLabels : List Str) (numIpt : ℕ) (v : VolAve) : Option (ℕ → ℕ) :=
  volAveOffsetsLoop elemLabels v.labels.length (elemLabels.length / numIpt) numIpt 0 v.labels fun _ => 0

variable {K : Type*} [_root_.Field K] [LinearOrder K]

/-- Write `x` into row `c` (`derived_elem_data.at(c)`), column `e`; `nCol` is the number of rows. -/
def putDerived (nCol c e : ℕ) (x : K) (d : ℕ → ℕ → K) : Option (ℕ → ℕ → K) :=
  if c < nCol then some (Function.update d c (Function.update (d c) e x)) else none

/-- nimble_block.cc:490-494: copy the averages of one element, then its volume. -/
def storeDerived (v : VolAve) (nCol e : ℕ) (volume : K) (ave : ℕ → K) (d : ℕ → ℕ → K) :
    Option (ℕ → ℕ → K) := do
  let d' ← (List.range v.labels.length).foldlM (fun d i => putDerived nCol (v.indexMap i) e (ave i) d) d
  match v.volume with
  | none => some d'
  | some c => putDerived nCol c e volume d'

/-- nimble_block.cc:474-494: one iteration of the loop over elements.  `data` is the flat array
`elem_data_np1`, `nPerIpt` the number of data per integration point. -/
def derivedElement (val : K) (b : Blk K) (v : VolAve) (offs : ℕ → ℕ) (nPerIpt nCol : ℕ)
    (reference_coordinates displacement data : ℕ → K) (d : ℕ → ℕ → K) (e : ℕ) : Option (ℕ → ℕ → K) := do
  let cur_coord := gather b e fun k => reference_coordinates k + displacement k
  let nVol := v.labels.length
  let quantities : ℕ → K := fun i => if i < nVol * 8 then data (e * nPerIpt * 8 + offs i) else 0
  let (volume, ave) ← computeVolumeAverage val cur_coord nVol quantities
  storeDerived v nCol e volume ave d

/-- nimble_block.cc:439-497 `ComputeDerivedElementData`, with the bookkeeping of
`DetermineDataOffsets` for the same labels.  `d` is the content of `derived_elem_data` (row, element)
after the two `resize`s, whose new entries are zero. -/
def computeDerivedElementData (val : K) (b : Blk K) (elemLabels derived : List Str)
    (reference_coordinates displacement data : ℕ → K) (d : ℕ → ℕ → K) : Option (ℕ → ℕ → K) :=
  let v := volAve derived
  (volAveOffsets elemLabels 8 v).bind fun offs =>
    if derived.length = 0 then some d
    else (List.range b.numElem).foldlM
      (derivedElement val b v offs (elemLabels.length / 8) derived.length reference_coordinates displacement data) d

end NimbleSM.Fields
