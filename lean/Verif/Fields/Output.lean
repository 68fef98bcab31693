import Verif.Fields.ModelData

/-!
# Requested output: `ModelData::SpecifyOutputFields` (src/nimble_model_data.cc:215-368)

`none` is an abort or exception.
-/

namespace NimbleSM.Fields

/-- nimble_model_data.cc:219-222: `std::getline(ss, entry, ' ')` until the end. -/
def getlineSplit (s : Str) : List Str :=
  if s = [] then []
  else s.takeWhile (· ≠ ' ') :: getlineSplit (s.drop ((s.takeWhile (· ≠ ' ')).length + 1))
termination_by s.length
decreasing_by
  have : s.length ≠ 0 := fun h => by simp_all
  simp only [List.length_drop]
  omega

/-- nimble_model_data.cc:224-229: the six lists of known names. -/
structure Known where
  nodeNames : List Str
  nodeComponents : List Str
  elementNames : List Str
  elementComponents : List Str
  iptNames : List Str
  iptComponents : List Str

/-- nimble_model_data.cc:232-258: one field is entered into the lists. -/
def Known.add (dim : ℕ) (k : Known) (f : Field) : Option Known :=
  match f.relation with
  | .node =>
    some { k with
      nodeNames := k.nodeNames ++ [f.label]
      nodeComponents := k.nodeComponents ++ componentLabels f.label f.length dim }
  | .element => do
    let p ← hasPrefix f.label
    if p then do
      let r ← removePrefix f.label
      let k' : Known := { k with
        iptNames := k.iptNames ++ [f.label]
        iptComponents := k.iptComponents ++ componentLabels f.label f.length dim }
      if r ∈ k.elementNames then some k'
      else some { k' with
        elementNames := k.elementNames ++ [r]
        elementComponents := k.elementComponents ++ componentLabels r f.length dim }
    else none
  | _ => some k

/-- nimble_model_data.cc:230-259: the loop over all fields. -/
def Known.addAll (dim : ℕ) : List Field → Known → Option Known
  | [], k => some k
  | f :: fs, k => do
    let k' ← k.add dim f
    Known.addAll dim fs k'

/-- The lists the function fills: `output_node_component_labels_`, and per block
`output_element_component_labels_` and `derived_output_element_data_labels_`. -/
structure Outputs where
  node : List Str
  element : ℕ → List Str
  derived : ℕ → List Str

/-- Append to the list of one block. -/
def push (m : ℕ → List Str) (b : ℕ) (l : Str) : ℕ → List Str := Function.update m b (m b ++ [l])

/-- Does the block have a label that becomes `l` without its prefix (nimble_model_data.cc:286-289)?
`none` if removing a prefix throws. -/
def strippedOnBlock (l : Str) : List Str → Option Bool
  | [] => some false
  | x :: xs => do
    let r ← removePrefix x
    let b ← strippedOnBlock l xs
    return decide (l = r) || b

/-- nimble_model_data.cc:284-291: a volume averaged component, for every block that has it. -/
def pushDerivedComponent (l : Str) : List (ℕ × List Str) → (ℕ → List Str) → Option (ℕ → List Str)
  | [], m => some m
  | (b, ls) :: bs, m => do
    let ok ← strippedOnBlock l ls
    pushDerivedComponent l bs (if ok then push m b l else m)

/-- nimble_model_data.cc:298-305: an integration point component, for every block that has it. -/
def pushIptComponent (l : Str) : List (ℕ × List Str) → (ℕ → List Str) → (ℕ → List Str)
  | [], m => m
  | (b, ls) :: bs, m => pushIptComponent l bs (if l ∈ ls then push m b l else m)

/-- nimble_model_data.cc:320-330: append to the derived labels of block `b`, unless already there. -/
def pushDerivedNew (l : Str) (b : ℕ) : List Str → (ℕ → List Str) → Option (ℕ → List Str)
  | [], m => some m
  | x :: xs, m => do
    let r ← removePrefix x
    pushDerivedNew l b xs (if l = r then (if l ∈ m b then m else push m b l) else m)

/-- nimble_model_data.cc:317-331: … for all blocks. -/
def pushDerivedAll (l : Str) : List (ℕ × List Str) → (ℕ → List Str) → Option (ℕ → List Str)
  | [], m => some m
  | (b, ls) :: bs, m => do
    let m' ← pushDerivedNew l b ls m
    pushDerivedAll l bs m'

/-- nimble_model_data.cc:316-332: … for all components. -/
def pushDerivedComponents : List Str → List (ℕ × List Str) → (ℕ → List Str) → Option (ℕ → List Str)
  | [], _, m => some m
  | l :: ls, bs, m => do
    let m' ← pushDerivedAll l bs m
    pushDerivedComponents ls bs m'

/-- nimble_model_data.cc:347-349: append once per equal label on the block. -/
def pushEqual (l : Str) (b : ℕ) : List Str → (ℕ → List Str) → (ℕ → List Str)
  | [], m => m
  | x :: xs, m => pushEqual l b xs (if l = x then push m b l else m)

/-- nimble_model_data.cc:344-350: … for all blocks. -/
def pushEqualAll (l : Str) : List (ℕ × List Str) → (ℕ → List Str) → (ℕ → List Str)
  | [], m => m
  | (b, ls) :: bs, m => pushEqualAll l bs (pushEqual l b ls m)

/-- nimble_model_data.cc:343-351: … for all components. -/
def pushEqualComponents : List Str → List (ℕ × List Str) → (ℕ → List Str) → (ℕ → List Str)
  | [], _, m => m
  | l :: ls, bs, m => pushEqualComponents ls bs (pushEqualAll l bs m)

/-- nimble_model_data.cc:356-358. -/
def pushVolume (l : Str) : List (ℕ × List Str) → (ℕ → List Str) → (ℕ → List Str)
  | [], m => m
  | (b, _) :: bs, m => pushVolume l bs (push m b l)

/-- nimble_model_data.cc:262-367: one requested name. -/
def request (dim : ℕ) (fields : List Field) (blocks : List (ℕ × List Str)) (k : Known) (o : Outputs) (r : Str) :
    Option Outputs :=
  if r ∈ k.nodeComponents then some { o with node := o.node ++ [r] }
  else if r ∈ k.nodeNames then do
    let len ← labelToLength r fields
    return { o with node := o.node ++ componentLabels r len dim }
  else if r ∈ k.elementComponents then do
    let m ← pushDerivedComponent r blocks o.derived
    return { o with derived := m }
  else if r ∈ k.iptComponents then some { o with element := pushIptComponent r blocks o.element }
  else if r ∈ k.elementNames then do
    let len ← labelToLength r fields
    let m ← pushDerivedComponents (componentLabels r len dim) blocks o.derived
    return { o with derived := m }
  else if r ∈ k.iptNames then do
    let len ← labelToLength r fields
    return { o with element := pushEqualComponents (componentLabels r len dim) blocks o.element }
  else if r = "volume".toList then some { o with derived := pushVolume r blocks o.derived }
  else none

/-- nimble_model_data.cc:262-367: the loop over requests. -/
def requestAll (dim : ℕ) (fields : List Field) (blocks : List (ℕ × List Str)) (k : Known) :
    List Str → Outputs → Option Outputs
  | [], o => some o
  | r :: rs, o => do
    let o' ← request dim fields blocks k o r
    requestAll dim fields blocks k rs o'

/-- nimble_model_data.cc:215-368 `SpecifyOutputFields`.  `blocks` is `element_component_labels_`. -/
def specifyOutputFields (dim : ℕ) (fields : List Field) (blocks : List (ℕ × List Str)) (text : Str) :
    Option Outputs := do
  let k ← Known.addAll dim fields ⟨[], [], [], [], [], []⟩
  requestAll dim fields blocks k (getlineSplit text) ⟨[], fun _ => [], fun _ => []⟩

end NimbleSM.Fields
