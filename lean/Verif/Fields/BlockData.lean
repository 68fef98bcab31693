import Verif.Fields.ModelData

/-!
# Layout and initial values of a block's element data: `src/nimble_block.cc`

The memory of a data array is a function from index to value.  `none` is an exception or abort.
-/

namespace NimbleSM.Fields

/-- nimble_block.cc:85-108 `GetDataLabelsAndLengths`; `stateLabels` are the material's state variable
labels. -/
def dataLabelsAndLengths (stateLabels : List Str) (numIpt : ℕ) : List (Str × Length) :=
  (List.range numIpt).flatMap fun ipt =>
    ([("deformation_gradient".toList, Length.fullTensor), ("stress".toList, Length.symmetricTensor)] ++
      stateLabels.map fun l => (l, Length.scalar)).map fun p => (addPrefix p.1 ((ipt + 1 : ℕ) : ℤ), p.2)

/-- nimble_model_data.cc:153-159: the component labels of fields with the given labels, in order. -/
def elementLabels (dim : ℕ) (ls : List (Str × Length)) : List Str :=
  ls.flatMap fun p => componentLabels p.1 p.2 dim

/-- nimble_block.cc:168-175: the map from state variable label to initial value (a later entry
overwrites an earlier one). -/
def stateInitials (vars : List (Str × ℚ)) : Str → Option ℚ :=
  vars.foldl (fun m p => Function.update m p.1 (some p.2)) fun _ => none

/-- nimble_block.cc:188-198: the special cases; `v` is the value so far. -/
def specialValue (label iptLabel : Str) (gid : Option ℤ) (v : ℚ) : Option ℚ :=
  if iptLabel = "global_elem_id".toList then gid.map fun g => (g : ℚ)
  else if iptLabel = "ipt_id".toList then (labelToIpt label).map fun n => (n : ℚ)
  else if iptLabel = "deformation_gradient_xx".toList ∨ iptLabel = "deformation_gradient_yy".toList ∨
      iptLabel = "deformation_gradient_zz".toList then some 1
  else some v

/-- nimble_block.cc:185-203: the loop over elements `e, e+1, …` for variable `iVar`; `v` is
`initial_value`, which keeps its value from one element to the next. -/
def initElements (label iptLabel : Str) (gids : List ℤ) (stride iVar : ℕ) :
    ℕ → List ℕ → ℚ → (ℕ → ℚ) → Option (ℕ → ℚ)
  | _, [], _, mem => some mem
  | n, e :: es, v, mem => do
    let v' ← specialValue label iptLabel gids[e]? v
    initElements label iptLabel gids stride iVar n es v' (Function.update mem (e * stride + iVar) v')

/-- nimble_block.cc:177-204: the loop over variables, the first of which has number `i`. -/
def initVariables (vars : List (Str × ℚ)) (gids : List ℤ) (nElem stride : ℕ) :
    ℕ → List Str → (ℕ → ℚ) → Option (ℕ → ℚ)
  | _, [], mem => some mem
  | i, label :: rest, mem => do
    let iptLabel ← removePrefix label
    let v := (stateInitials vars label).getD 0
    let mem' ← initElements label iptLabel gids stride i nElem (List.range nElem) v mem
    initVariables vars gids nElem stride (i + 1) rest mem'

/-- nimble_block.cc:148-204 `InitializeElementData` (both time levels are written alike). -/
def initializeElementData (labels : List Str) (vars : List (Str × ℚ)) (gids : List ℤ) (nElem : ℕ)
    (mem : ℕ → ℚ) : Option (ℕ → ℚ) :=
  initVariables vars gids nElem labels.length 0 labels mem

/-- nimble_block.cc:517-519: all positions of a label. -/
def positions (want : Str) (labels : List Str) : List ℕ :=
  (List.range labels.length).filter fun i => labels[i]? = some want

/-- The loops of nimble_block.cc:514-521, 529-536: offsets of the components of one tensor field. -/
def tensorOffsets (labels : List Str) (name : Str) (length : Length) (dim nComp numIpt : ℕ) :
    Option (List ℕ) := do
  let xs ← (List.range numIpt).mapM fun ipt => do
    let ys ← (List.range nComp).mapM fun c => do
      let l ← componentLabel name length dim c ((ipt + 1 : ℕ) : ℤ)
      return positions l labels
    return ys.flatten
  return xs.flatten

/-- nimble_block.cc:551-559: offsets of the state variables. -/
def stateOffsets (labels : List Str) (stateLabels : List Str) (dim numIpt : ℕ) : Option (List ℕ) := do
  let xs ← (List.range numIpt).mapM fun ipt => do
    let ys ← stateLabels.mapM fun name => do
      let l ← componentLabel name .scalar dim 0 ((ipt + 1 : ℕ) : ℤ)
      return positions l labels
    return ys.flatten
  return xs.flatten

/-- nimble_block.cc:500-567 `DetermineDataOffsets`: offsets of deformation gradients, stresses and
state variables; `none` when an assertion fails.  The volume average bookkeeping (568-) is
`Verif.Fields.Derived`. -/
def determineDataOffsets (labels stateLabels : List Str) (dim numIpt : ℕ) :
    Option (List ℕ × List ℕ × List ℕ) := do
  let nf ← lengthToInt .fullTensor dim
  let ns ← lengthToInt .symmetricTensor dim
  let d ← tensorOffsets labels "deformation_gradient".toList .fullTensor dim nf numIpt
  if d.length ≠ nf * numIpt then none
  else do
    let t ← tensorOffsets labels "stress".toList .symmetricTensor dim ns numIpt
    if t.length ≠ ns * numIpt then none
    else do
      let st ← stateOffsets labels stateLabels dim numIpt
      if st.length ≠ stateLabels.length * numIpt then none else some (d, t, st)

end NimbleSM.Fields
