import Verif.Fields.RegistryProps
import Mathlib.Algebra.Order.Ring.Rat
import Mathlib.Tactic.Ring

/-!
# Output arrays: property C36
-/

namespace NimbleSM.Fields

theorem mapM_some {α β : Type} (l : List α) (f : α → Option β) (g : α → β)
    (h : ∀ x ∈ l, f x = some (g x)) : l.mapM f = some (l.map g) := by
  induction l with
  | nil => rfl
  | cons a l ih =>
    rw [List.mapM_cons, h a (by simp), ih fun x hx => h x (by simp [hx])]
    rfl

theorem overwrite_full (old new : List ℚ) : overwrite old new.length new = new := by
  unfold overwrite
  rw [List.drop_eq_nil_of_le, List.append_nil]
  simp only [List.length_append, List.length_take, List.length_replicate]
  omega

/-- The values of component `c` in a list of `n` groups of `nc` values. -/
def componentOf (data : List ℚ) (n nc c : ℕ) : List ℚ :=
  (List.range n).map fun i => data.getD (i * nc + c) 0

theorem gather_component (data : List ℚ) {n nc c : ℕ} (hc : c < nc) (hlen : data.length = n * nc) :
    (List.range (data.length / nc)).mapM (fun i => data[i * nc + c]?) = some (componentOf data n nc c) := by
  rw [hlen, Nat.mul_div_cancel _ (by omega)]
  refine mapM_some _ _ _ fun i hi => ?_
  rw [List.mem_range] at hi
  have hlt : i * nc + c < data.length := by
    rw [hlen]
    calc i * nc + c < i * nc + nc := by omega
      _ = (i + 1) * nc := by ring
      _ ≤ n * nc := Nat.mul_le_mul_right _ hi
  rw [List.getD_eq_getElem?_getD, List.getElem?_eq_getElem hlt]
  rfl

/-- Every node data array belongs to a registered node field and holds a whole number of entities. -/
def WellFormed (s : State) : Prop :=
  ∀ id data, s.nodeData id = some data → ∃ f n nc, s.fields[id]? = some f ∧ f.relation = .node ∧
    lengthToInt f.length s.dim = some nc ∧ data.length = n * nc

theorem outputComponents_ne (s : State) (id : ℕ) (f : Field) (size : ℕ) (want : Str) (i : ℕ) (ls : List Str)
    (arr : List ℚ) (h : want ∉ ls) : outputComponents s id f size want i ls arr = some arr := by
  induction ls generalizing i with
  | nil => rfl
  | cons l ls ih =>
    rw [List.mem_cons, not_or] at h
    rw [outputComponents, if_neg (Ne.symm h.1)]
    exact ih _ h.2

theorem outputComponents_hit (s : State) (id : ℕ) (f : Field) (size : ℕ) (want : Str) (nc : ℕ) (new : List ℚ)
    (hnc : lengthToInt f.length s.dim = some nc) (hlen : new.length = size / nc)
    (i : ℕ) (ls : List Str) (arr : List ℚ) (c : ℕ) (hc : ls[c]? = some want)
    (huniq : ∀ c', ls[c']? = some want → c' = c) (hnew : nodeDataComponent s id (i + c) = some new) :
    outputComponents s id f size want i ls arr = some new := by
  induction ls generalizing i c arr with
  | nil => simp at hc
  | cons l ls ih =>
    cases c with
    | zero =>
      rw [List.getElem?_cons_zero, Option.some_inj] at hc
      rw [outputComponents, if_pos hc, hnc]
      have hnew' : nodeDataComponent s id i = some new := hnew
      simp only [Option.bind_eq_bind, Option.bind_some, hnew']
      rw [← hlen, overwrite_full]
      refine outputComponents_ne _ _ _ _ _ _ _ _ fun hm => ?_
      obtain ⟨k, hk, he⟩ := List.mem_iff_getElem.mp hm
      have := huniq (k + 1) (by rw [List.getElem?_cons_succ, List.getElem?_eq_getElem hk, he])
      omega
    | succ c =>
      have hl : ¬ l = want := fun hl => by
        have := huniq 0 (by rw [List.getElem?_cons_zero, hl])
        omega
      rw [outputComponents, if_neg hl]
      refine ih (i + 1) arr c (by simpa using hc) (fun c' hc' => ?_) (by rw [← hnew]; congr 1; omega)
      have := huniq (c' + 1) (by simpa using hc')
      omega

theorem outputNodeLabel_none (s : State) (want : Str) (i : ℕ) (fs : List Field) (arr : List ℚ)
    (h : ∀ j f, fs[j]? = some f → s.nodeData (i + j) ≠ none → want ∉ componentLabels f.label f.length s.dim) :
    outputNodeLabel s want i fs arr = some arr := by
  induction fs generalizing i with
  | nil => rfl
  | cons f fs ih =>
    have hrest := ih (i + 1) fun j g hg hn => h (j + 1) g (by simpa using hg) (by
      rwa [show i + (j + 1) = i + 1 + j by omega])
    rw [outputNodeLabel]
    cases hd : s.nodeData i with
    | none => exact hrest
    | some data =>
      simp only []
      rw [outputComponents_ne _ _ _ _ _ _ _ _ (h 0 f rfl (by simp [hd]))]
      exact hrest

theorem outputNodeLabel_hit (s : State) (want : Str) (i : ℕ) (fs : List Field) (arr : List ℚ)
    (k : ℕ) (f : Field) (data new : List ℚ) (hf : fs[k]? = some f) (hdata : s.nodeData (i + k) = some data)
    (hother : ∀ j g, fs[j]? = some g → j ≠ k → s.nodeData (i + j) ≠ none →
      want ∉ componentLabels g.label g.length s.dim)
    (hhit : ∀ arr, outputComponents s (i + k) f data.length want 0 (componentLabels f.label f.length s.dim) arr
      = some new) :
    outputNodeLabel s want i fs arr = some new := by
  induction fs generalizing i arr k with
  | nil => simp at hf
  | cons g fs ih =>
    cases k with
    | zero =>
      rw [List.getElem?_cons_zero, Option.some_inj] at hf
      subst hf
      rw [outputNodeLabel]
      have hd' : s.nodeData i = some data := hdata
      simp only [hd']
      rw [show outputComponents s i g _ _ _ _ _ = some new from hhit arr]
      show outputNodeLabel s want (i + 1) fs new = some new
      refine outputNodeLabel_none _ _ _ _ _ fun j g' hg' hn => hother (j + 1) g' (by simpa using hg') (by omega) ?_
      rwa [show i + (j + 1) = i + 1 + j by omega]
    | succ k =>
      have hrest : ∀ arr, outputNodeLabel s want (i + 1) fs arr = some new := fun arr => by
        refine ih (i + 1) arr k (by simpa using hf) (by rw [← hdata]; congr 1; omega)
          (fun j g' hg' hjk hn => hother (j + 1) g' (by simpa using hg') (by omega) (by
            rwa [show i + (j + 1) = i + 1 + j by omega])) ?_
        intro arr
        rw [← hhit arr]; congr 1; omega
      rw [outputNodeLabel]
      cases hd : s.nodeData i with
      | none => exact hrest arr
      | some d =>
        simp only []
        rw [outputComponents_ne _ _ _ _ _ _ _ _ (hother 0 g rfl (by omega) (by simp [hd]))]
        exact hrest arr

/-- C36 (nodes): in every well-formed state the array written for the label of component `c` of a node
field holds, for each of the `n` nodes, exactly the stored value of that component — whatever the array
held before — provided the label names no other node data. -/
theorem nodeDataForOutput_values (s : State) {id n nc c : ℕ} {f : Field} {data : List ℚ} {want : Str}
    (hf : s.fields[id]? = some f) (hdata : s.nodeData id = some data)
    (hnc : lengthToInt f.length s.dim = some nc) (hlen : data.length = n * nc) (hc : c < nc)
    (hwant : (componentLabels f.label f.length s.dim)[c]? = some want)
    (huniq : ∀ id' f' c', s.fields[id']? = some f' → s.nodeData id' ≠ none →
      (componentLabels f'.label f'.length s.dim)[c']? = some want → id' = id ∧ c' = c)
    (old : List ℚ) :
    nodeDataForOutput s want old = some ((List.range n).map fun node => data.getD (node * nc + c) 0) := by
  have hcomp : nodeDataComponent s id c = some (componentOf data n nc c) := by
    unfold nodeDataComponent
    rw [hf]
    simp only [Option.bind_eq_bind, Option.bind_some, hnc, hdata]
    rw [if_neg (by omega)]
    exact gather_component data hc hlen
  have hcl : (componentOf data n nc c).length = data.length / nc := by
    rw [hlen, Nat.mul_div_cancel _ (by omega), componentOf, List.length_map, List.length_range]
  refine outputNodeLabel_hit s want 0 s.fields old id f data _ hf (by rw [Nat.zero_add]; exact hdata) ?_ ?_
  · intro j g hg hj hn hm
    obtain ⟨c', hc', he⟩ := List.mem_iff_getElem.mp hm
    exact hj (huniq j g c' hg (by rwa [Nat.zero_add] at hn) (by rw [List.getElem?_eq_getElem hc', he])).1
  · intro arr
    refine outputComponents_hit s (0 + id) f data.length want nc _ hnc hcl 0 _ arr c hwant (fun c' hc' => ?_) ?_
    · exact (huniq id f c' hf (by simp [hdata]) hc').2
    · rw [Nat.zero_add, Nat.zero_add]; exact hcomp

theorem WellFormed.node {s : State} (h : WellFormed s) {id : ℕ} {f : Field} {data : List ℚ}
    (hf : s.fields[id]? = some f) (hdata : s.nodeData id = some data) :
    f.relation = .node ∧ ∃ n nc, lengthToInt f.length s.dim = some nc ∧ data.length = n * nc := by
  obtain ⟨f', n, nc, h1, h2, h3, h4⟩ := h id data hdata
  rw [hf, Option.some_inj] at h1
  subst h1
  exact ⟨h2, n, nc, h3, h4⟩

/-! ## Reachable states are well formed -/

theorem prefix_getElem? {α : Type} {a b : List α} (h : a <+: b) {i : ℕ} {x : α} (hx : a[i]? = some x) :
    b[i]? = some x := by
  obtain ⟨t, rfl⟩ := h
  obtain ⟨hi, he⟩ := List.getElem?_eq_some_iff.mp hx
  rw [List.getElem?_append_left hi]; exact hx

theorem assignFieldId_field {F F' : List Field} {d : Field} {id : ℕ} (h : assignFieldId F d = some (id, F')) :
    F <+: F' ∧ ∃ f, F'[id]? = some f ∧ f.relation = d.relation ∧ f.length = d.length := by
  unfold assignFieldId at h
  by_cases hd : d.key ∈ F.map Field.key
  · obtain ⟨f, h1, h2, h3⟩ := findField_mem d.key d.relation d.length 0 F hd
    rw [show findField (lower d.label) d.relation d.length 0 F = _ from h3] at h
    by_cases hc : d.relation = f.relation ∧ d.length = f.length
    · rw [if_pos hc] at h
      simp only [Option.some_inj, Prod.mk.injEq] at h
      rw [← h.1, ← h.2, Nat.zero_add]
      exact ⟨List.prefix_rfl, f, h1, hc.1.symm, hc.2.symm⟩
    · rw [if_neg hc] at h; cases h
  · rw [show findField (lower d.label) d.relation d.length 0 F = _ from findField_not_mem d.key _ _ 0 F hd] at h
    simp only [Option.some_inj, Prod.mk.injEq] at h
    rw [← h.1, ← h.2]
    exact ⟨List.prefix_append _ _, d, by simp, rfl, rfl⟩

theorem WellFormed.mono {s s' : State} (h : WellFormed s) (hf : s.fields <+: s'.fields)
    (hd : s'.nodeData = s.nodeData) (hdim : s'.dim = s.dim) : WellFormed s' := by
  intro id data hdata
  rw [hd] at hdata
  obtain ⟨f, n, nc, h1, h2, h3, h4⟩ := h id data hdata
  exact ⟨f, n, nc, prefix_getElem? hf h1, h2, by rw [hdim]; exact h3, h4⟩

theorem declareElementData_wf (block : ℕ) (ls : List (Str × Length)) (s s' : State) (ids : List ℕ)
    (hrun : declareElementData s block ls = some (ids, s')) (h : WellFormed s) : WellFormed s' := by
  induction ls generalizing s ids with
  | nil =>
    simp only [declareElementData, Option.some_inj, Prod.mk.injEq] at hrun
    rw [← hrun.2]; exact h
  | cons p ls ih =>
    obtain ⟨label, length⟩ := p
    rw [declareElementData] at hrun
    cases ha : assignFieldId s.fields ⟨label, .element, length⟩ with
    | none => rw [ha] at hrun; cases hrun
    | some r =>
      obtain ⟨id, F'⟩ := r
      rw [ha] at hrun
      simp only [Option.bind_eq_bind, Option.bind_some] at hrun
      cases hd : declareElementData { s with
          fields := F'
          elementFields := Function.update s.elementFields block (s.elementFields block ++ [id]) } block ls with
      | none => rw [hd] at hrun; cases hrun
      | some r =>
        obtain ⟨ids', s''⟩ := r
        rw [hd] at hrun
        have he : s'' = s' := (Prod.mk.inj (Option.some.inj hrun)).2
        subst he
        exact ih _ _ hd (h.mono (assignFieldId_field ha).1 rfl rfl)

theorem op_wf (op : Op) (s s' : State) (ids : List ℕ) (hrun : op.run s = some (ids, s'))
    (h : WellFormed s) : WellFormed s' := by
  cases op with
  | element block ls => exact declareElementData_wf block ls s s' ids hrun h
  | node length label n =>
    rw [Op.run, allocateNodeData] at hrun
    cases ha : assignFieldId s.fields ⟨label, .node, length⟩ with
    | none => rw [ha] at hrun; cases hrun
    | some r =>
      obtain ⟨id, F'⟩ := r
      rw [ha] at hrun
      cases hk : lengthToInt length s.dim with
      | none => simp [hk] at hrun
      | some k =>
        simp only [Option.bind_eq_bind, Option.bind_some, hk] at hrun
        have he := (Prod.mk.inj (Option.some.inj hrun)).2
        obtain ⟨hpre, f, hf, hrel, hlen⟩ := assignFieldId_field ha
        rw [← he]
        intro id' data hdata
        by_cases hid : id' = id
        · subst hid
          simp only [Function.update_self, Option.some_inj] at hdata
          refine ⟨f, n, k, hf, hrel, ?_, ?_⟩
          · rw [hlen]; exact hk
          · rw [← hdata, List.length_replicate]
        · simp only [Function.update_of_ne hid] at hdata
          obtain ⟨g, n', nc, h1, h2, h3, h4⟩ := h id' data hdata
          exact ⟨g, n', nc, prefix_getElem? hpre h1, h2, h3, h4⟩

/-- Every state reached by a history of declarations is well formed.  (Writing values into the node
arrays does not change their lengths, so it stays so.) -/
theorem history_wellFormed {dim : ℕ} {ops : List Op} {ids : List ℕ} {s : State}
    (h : runOps (State.init dim) ops = some (ids, s)) : WellFormed s := by
  suffices ∀ (ops : List Op) (s0 s : State) (ids : List ℕ), WellFormed s0 → runOps s0 ops = some (ids, s) →
      WellFormed s from this ops _ s ids (fun _ _ hd => by cases hd) h
  intro ops
  induction ops with
  | nil =>
    intro s0 s ids hw hr
    rw [runOps, Option.some_inj, Prod.mk.injEq] at hr
    rw [← hr.2]; exact hw
  | cons op ops ih =>
    intro s0 s ids hw hr
    rw [runOps] at hr
    cases ho : op.run s0 with
    | none => rw [ho] at hr; cases hr
    | some r =>
      obtain ⟨i1, s1⟩ := r
      rw [ho] at hr
      simp only [Option.bind_eq_bind, Option.bind_some] at hr
      cases hr' : runOps s1 ops with
      | none => rw [hr'] at hr; cases hr
      | some r =>
        obtain ⟨i2, s2⟩ := r
        rw [hr'] at hr
        have he : s2 = s := (Prod.mk.inj (Option.some.inj hr)).2
        subst he
        exact ih s1 _ i2 (op_wf op s0 s1 i1 ho hw) hr'

/-- C36 (nodes), for reachable registries: take any history of declarations and any values in the node
arrays (of the allocated lengths).  The output array for a component label that names one component of
one node field holds that component of every node. -/
theorem history_nodeDataForOutput {dim : ℕ} {ops : List Op} {ids : List ℕ} {s s' : State}
    (h : runOps (State.init dim) ops = some (ids, s))
    (hfields : s'.fields = s.fields) (hdim : s'.dim = s.dim)
    (hsizes : ∀ id, (s'.nodeData id).map List.length = (s.nodeData id).map List.length)
    {id c : ℕ} {f : Field} {data : List ℚ} {want : Str}
    (hf : s'.fields[id]? = some f) (hdata : s'.nodeData id = some data)
    (hwant : (componentLabels f.label f.length s'.dim)[c]? = some want)
    (huniq : ∀ id' f' c', s'.fields[id']? = some f' → s'.nodeData id' ≠ none →
      (componentLabels f'.label f'.length s'.dim)[c']? = some want → id' = id ∧ c' = c)
    (old : List ℚ) :
    ∃ n nc, lengthToInt f.length dim = some nc ∧ data.length = n * nc ∧ c < nc ∧
      nodeDataForOutput s' want old = some ((List.range n).map fun node => data.getD (node * nc + c) 0) := by
  have hw := history_wellFormed h
  have hdim0 := (history_inv h).2
  have hs := hsizes id
  rw [hdata] at hs
  obtain ⟨d0, hd0, hl⟩ := Option.map_eq_some_iff.mp hs.symm
  obtain ⟨-, n, nc, h1, h2⟩ := hw.node (hfields ▸ hf) hd0
  have hlen : data.length = n * nc := by rw [← hl, h2]
  have hcomp : c < nc := by
    obtain ⟨hlt, -⟩ := List.getElem?_eq_some_iff.mp hwant
    have hdd : s.dim = 2 ∨ s.dim = 3 := by
      by_contra hn
      rw [not_or] at hn
      simp [lengthToInt, hn.1, hn.2] at h1
    have hdef : Defined f.length := by
      intro hu
      rcases hdd with hd | hd <;> simp [lengthToInt, hd, hu] at h1
    have := componentLabels_length f.label f.length hdef hdd
    rw [h1, Option.some_inj] at this
    rw [this, ← hdim]; exact hlt
  exact ⟨n, nc, hdim0 ▸ h1, hlen, hcomp,
    nodeDataForOutput_values s' hf hdata (hdim ▸ h1) hlen hcomp hwant huniq old⟩

/-! ## Element output -/

theorem lastIndex_ne (want : Str) (i : ℕ) (ls : List Str) (acc : Option ℕ) (h : want ∉ ls) :
    lastIndex want i ls acc = acc := by
  induction ls generalizing i with
  | nil => rfl
  | cons l ls ih =>
    rw [List.mem_cons, not_or] at h
    rw [lastIndex, if_neg h.1]
    exact ih _ h.2

theorem lastIndex_hit (want : Str) (i : ℕ) (ls : List Str) (acc : Option ℕ) (p : ℕ) (hp : ls[p]? = some want)
    (hnd : ls.Nodup) : lastIndex want i ls acc = some (i + p) := by
  induction ls generalizing i p acc with
  | nil => simp at hp
  | cons l ls ih =>
    rw [List.nodup_cons] at hnd
    cases p with
    | zero =>
      rw [List.getElem?_cons_zero, Option.some_inj] at hp
      rw [lastIndex, if_pos hp.symm, lastIndex_ne _ _ _ _ (hp ▸ hnd.1)]
      rfl
    | succ p =>
      rw [lastIndex, ih (i + 1) _ p (by simpa using hp) hnd.2]
      congr 1; omega

/-- C36 (elements): with distinct component labels on the block, the output array for the label at
position `p` holds, for each of the `n` elements, the value stored at position `p` of that element. -/
theorem elementDataForOutput_values {labels : List Str} (hnd : labels.Nodup) {p : ℕ} {want : Str}
    (hp : labels[p]? = some want) {data : List ℚ} {n : ℕ} (hlen : data.length = n * labels.length) :
    elementDataForOutput labels data want =
      some ((List.range n).map fun e => data.getD (e * labels.length + p) 0) := by
  unfold elementDataForOutput
  rw [lastIndex_hit want 0 labels none p hp hnd]
  simp only [Option.bind_eq_bind, Option.bind_some, Nat.zero_add]
  obtain ⟨hlt, -⟩ := List.getElem?_eq_some_iff.mp hp
  exact gather_component data hlt hlen

/-- C36 (elements): a label that is not on the block aborts. -/
theorem elementDataForOutput_unknown {labels : List Str} {want : Str} (h : want ∉ labels) (data : List ℚ) :
    elementDataForOutput labels data want = none := by
  unfold elementDataForOutput
  rw [lastIndex_ne _ _ _ _ h]; rfl

example : elementDataForOutput ["a".toList, "b".toList] [1, 2, 3, 4, 5, 6] "b".toList = some [2, 4, 6] := by
  decide +kernel

/-- The node fields NimbleSM allocates (nimble_data_manager.cc / explicit and quasistatic runs), with
values written into the displacement. -/
def exampleOps : List Op :=
  [.node .scalar "lumped_mass".toList 2, .node .vector "reference_coordinate".toList 2,
   .node .vector "displacement".toList 2, .node .vector "velocity".toList 2,
   .element 1 [("ipt01_stress".toList, .symmetricTensor)]]

/-- The registry after `exampleOps`. -/
def exampleState : State := ((runOps (State.init 3) exampleOps).getD ([], State.init 3)).2

/-- … with displacements 1..6. -/
def exampleState' : State :=
  { exampleState with nodeData := Function.update exampleState.nodeData 2 (some [1, 2, 3, 4, 5, 6]) }

example : runOps (State.init 3) exampleOps = some ([0, 1, 2, 3, 4], exampleState) := rfl
example : nodeDataForOutput exampleState' "displacement_y".toList [7, 7, 7] = some [2, 5] := by decide +kernel

/-- Two node fields may share a component label (`a` as a vector and `a_x` as a scalar); then the
array holds the one declared last.  This is why the uniqueness hypothesis is needed. -/
theorem nodeDataForOutput_collision :
    nodeDataForOutput ⟨3, [⟨"a".toList, .node, .vector⟩, ⟨"a_x".toList, .node, .scalar⟩],
      fun i => if i = 0 then some [1, 2, 3] else if i = 1 then some [9] else none, fun _ => []⟩
      "a_x".toList [] = some [9] := by decide +kernel

/-! ## Array sizes of the element data -/

/-- The element data array of a block holds one value per element and component label. -/
theorem blockArrayLength_eq (s : State) (block nElem : ℕ) (hd : s.dim = 2 ∨ s.dim = 3) {labels : List Str}
    (hl : blockLabels s block = some labels)
    (hdef : ∀ f ∈ s.fields, Defined f.length) :
    blockArrayLength s block nElem = some (labels.length * nElem) := by
  unfold blockLabels at hl
  unfold blockArrayLength
  generalize hids : s.elementFields block = fids at hl ⊢
  clear hids
  suffices ∀ (ids : List ℕ) (ls : List (List Str)),
      (ids.mapM fun id => (do
        let f ← s.fields[id]?
        return componentLabels f.label f.length s.dim : Option (List Str))) = some ls →
      (ids.mapM fun id => (do
        let f ← s.fields[id]?
        lengthToInt f.length s.dim : Option ℕ)) = some (ls.map List.length) by
    simp only [Option.bind_eq_bind] at hl ⊢
    obtain ⟨ls, h1, h2⟩ := Option.bind_eq_some_iff.mp hl
    have h3 := this fids ls h1
    simp only [Option.bind_eq_bind] at h3
    rw [h3]
    simp only [pure, Option.some_inj] at h2
    simp [← h2, List.length_flatten]
  intro ids
  induction ids with
  | nil => intro ls h; cases h; rfl
  | cons i ids ih =>
    intro ls h
    rw [List.mapM_cons] at h ⊢
    simp only [Option.bind_eq_bind] at h ih ⊢
    obtain ⟨l, h1, h2⟩ := Option.bind_eq_some_iff.mp h
    obtain ⟨f, hf, h3⟩ := Option.bind_eq_some_iff.mp h1
    obtain ⟨ls', h4, h5⟩ := Option.bind_eq_some_iff.mp h2
    simp only [pure, Option.some_inj] at h3 h5
    rw [hf]
    simp only [Option.bind_some]
    rw [componentLabels_length f.label f.length (hdef f (List.mem_of_getElem? hf)) hd, h3, Option.bind_some,
      ih ls' h4]
    simp [← h5]

end NimbleSM.Fields
