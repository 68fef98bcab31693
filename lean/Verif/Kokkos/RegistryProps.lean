import Verif.Kokkos.Registry

/-!
# Fields of the default model data are independent named stores (C96)

Specification: a table from (place, label) to a field.  Allocation puts a new field in the table, a write
replaces the contents of one entry, nothing else changes.  `registry_refines`: for every history of
allocations and writes that does not stop the run, looking a label up in the model data gives the entry of
the table.
-/

namespace NimbleSM.Kokkos.Registry

variable {K : Type*}

/-! ## Histories -/

/-- Calls of the public interface. -/
inductive Op (K : Type*) where
  | allocNode (length : Length) (label : String) (num : ℕ)
  | allocElem (block_id : ℤ) (length : Length) (label : String) (num : ℕ)
  | allocIpt (block_id : ℤ) (length : Length) (label : String) (num : ℕ) (initial : List K)
  /-- Obtain the view of a field with the getter for type `t` and replace its contents. -/
  | write (p : Place) (label : String) (t : FType) (data : ℕ → ℕ → ℕ → K)

/-- One call on the model data. -/
def step [Zero K] (md : Md K) : Op K → Option (Md K)
  | .allocNode len l n => (allocateNodeData md len l n).map Prod.fst
  | .allocElem b len l n => (allocateElementData md b len l n).map Prod.fst
  | .allocIpt b len l n v => (allocateIntegrationPointData md b len l n v).map Prod.fst
  | .write p l t d => (getFieldId md l).bind fun id => (get md p id t).map fun _ => setData md p id d

/-- A history of calls. -/
def run [Zero K] (ops : List (Op K)) (md : Md K) : Option (Md K) := ops.foldlM step md

/-- Looking a label up: `GetFieldId`, then the getter for type `t`. -/
def read (md : Md K) (p : Place) (label : String) (t : FType) : Option (Fld K) :=
  (getFieldId md label).bind fun id => get md p id t

/-! ## Specification -/

/-- The table: what is stored at a place under a label. -/
abbrev Table (K : Type*) := Place → String → Option (Fld K)

/-- Put an entry. -/
def Table.put (T : Table K) (p : Place) (l : String) (f : Fld K) : Table K :=
  fun q m => if q = p ∧ m = l then some f else T q m

/-- The number of entries of an object of each class. -/
def entriesOf : FType → ℕ
  | .scalarNode => 1 | .scalarElem => 1 | .scalarIntPt => 1
  | .vectorNode => 3 | .vectorIntPt => 3
  | .symTensorElem => 6 | .symTensorIntPt => 6
  | .fullTensorElem => 9 | .fullTensorIntPt => 9

/-- The field classes by place and length; at integration points scalars and vectors get the classes of
nodal data. -/
def classAt : Place → Length → Option FType
  | .node, .scalar => some .scalarNode
  | .node, .vector => some .vectorNode
  | .elem _, .scalar => some .scalarElem
  | .elem _, .symTensor => some .symTensorElem
  | .elem _, .fullTensor => some .fullTensorElem
  | .ipt _ _, .scalar => some .scalarNode
  | .ipt _ _, .vector => some .vectorNode
  | .ipt _ _, .symTensor => some .symTensorIntPt
  | .ipt _ _, .fullTensor => some .fullTensorIntPt
  | _, _ => none

/-- Contents of a new field: every element has the given initial entries (zero without initial value). -/
def fresh [Zero K] (t : FType) (n : ℕ) (v : List K) : Fld K :=
  ⟨t, n, fun e _ i => if e < n ∧ i < entriesOf t then v.getD i 0 else 0⟩

/-- The effect of a call on the table. -/
def Table.step [Zero K] (T : Table K) : Op K → Table K
  | .allocNode len l n => match classAt .node len with
    | some t => T.put .node l (fresh t n [])
    | none => T
  | .allocElem b len l n => match classAt (.elem b) len with
    | some t => T.put (.elem b) l (fresh t n [])
    | none => T
  | .allocIpt b len l n v => match classAt (.ipt b .n) len with
    | some t => (T.put (.ipt b .n) l (fresh t n v)).put (.ipt b .np1) l (fresh t n v)
    | none => T
  | .write p l _ d => match T p l with
    | some f => T.put p l { f with data := d }
    | none => T

/-- The table after a history. -/
def Table.run [Zero K] (ops : List (Op K)) (T : Table K) : Table K := ops.foldl Table.step T

/-- The table with nothing in it. -/
def noFields : Table K := fun _ _ => none

/-- The allocation calls that are accepted, and the writes to existing fields of the right type. -/
def Table.accepts (T : Table K) : Op K → Prop
  | .allocNode len _ _ => (classAt .node len).isSome
  | .allocElem b len _ _ => (classAt (.elem b) len).isSome
  | .allocIpt b len _ n v => ∃ t, classAt (.ipt b .n) len = some t ∧ (v = [] ∨ n = 0 ∨ entriesOf t ≤ v.length)
  | .write p l t _ => ∃ f, T p l = some f ∧ f.type = t

theorem entriesOf_eq {t : FType} {len : Length} (h : iptType len = some t) : entriesOf t = numEntries t := by
  cases len <;> cases h <;> rfl
theorem classAt_node (len : Length) : classAt .node len = nodeType len := by cases len <;> rfl
theorem classAt_elem (b : ℤ) (len : Length) : classAt (.elem b) len = elemType len := by cases len <;> rfl
theorem classAt_ipt (b : ℤ) (s : Step) (len : Length) : classAt (.ipt b s) len = iptType len := by
  cases len <;> rfl

/-! ## Well-formedness -/

/-- Contents of a shelf. -/
def sget (fields : List (Fld K)) (index : ℕ → Option ℕ) (id : ℕ) : Option (Fld K) :=
  (index id).bind fun i => fields[i]?

structure IdxOK (len : ℕ) (index : ℕ → Option ℕ) (n : ℕ) : Prop where
  lt : ∀ {id i}, index id = some i → i < len ∧ id < n
  inj : ∀ {a b i}, index a = some i → index b = some i → a = b

structure LabOK (L : List (String × ℕ)) : Prop where
  lt : ∀ {l i}, L.lookup l = some i → i < L.length
  inj : ∀ {a b i}, L.lookup a = some i → L.lookup b = some i → a = b

structure WF (md : Md K) : Prop where
  lab : LabOK md.labels
  node : IdxOK md.node.fields.length md.node.index md.labels.length
  eblk : ∀ b i, md.elemBlock b = some i → i < md.elem.length
  einj : ∀ a b i, md.elemBlock a = some i → md.elemBlock b = some i → a = b
  elem : ∀ s ∈ md.elem, IdxOK s.fields.length s.index md.labels.length
  iblk : ∀ b i, md.iptBlock b = some i → i < md.ipt.length
  iinj : ∀ a b i, md.iptBlock a = some i → md.iptBlock b = some i → a = b
  ipt : ∀ s ∈ md.ipt, IdxOK s.fieldsN.length s.index md.labels.length ∧ s.fieldsNP1.length = s.fieldsN.length

theorem IdxOK.mono {len index n m} (h : IdxOK len index n) (hnm : n ≤ m) : IdxOK len index m :=
  ⟨fun e => ⟨(h.lt e).1, lt_of_lt_of_le (h.lt e).2 hnm⟩, h.inj⟩

theorem wf_empty : WF (empty : Md K) := by
  refine ⟨⟨?_, ?_⟩, ⟨?_, ?_⟩, ?_, ?_, ?_, ?_, ?_, ?_⟩ <;> simp [empty]

theorem IdxOK.add {len index n id} (h : IdxOK len index n) (hid : id < n) :
    IdxOK (len + 1) (Function.update index id (some len)) n := by
  refine ⟨?_, ?_⟩
  · intro a i e
    by_cases ha : a = id
    · subst ha; simp at e; omega
    · rw [Function.update_of_ne ha] at e
      have := h.lt e; omega
  · intro a b i ea eb
    by_cases ha : a = id <;> by_cases hb : b = id
    · rw [ha, hb]
    · subst ha; rw [Function.update_of_ne hb] at eb; simp at ea
      have := (h.lt eb).1; omega
    · subst hb; rw [Function.update_of_ne ha] at ea; simp at eb
      have := (h.lt ea).1; omega
    · rw [Function.update_of_ne ha] at ea; rw [Function.update_of_ne hb] at eb
      exact h.inj ea eb

theorem sget_add {fields : List (Fld K)} {index n id f} (h : IdxOK fields.length index n) (a : ℕ) :
    sget (fields ++ [f]) (Function.update index id (some fields.length)) a
      = if a = id then some f else sget fields index a := by
  unfold sget
  by_cases ha : a = id
  · subst ha; simp
  · rw [Function.update_of_ne ha, if_neg ha]
    cases e : index a with
    | none => rfl
    | some i =>
      have := (h.lt e).1
      simp [List.getElem?_append_left this]

theorem sget_modify {fields : List (Fld K)} {index n id i d} (h : IdxOK fields.length index n)
    (hi : index id = some i) (a : ℕ) :
    sget (fields.modify i fun f => { f with data := d }) index a
      = if a = id then (sget fields index a).map (fun f => { f with data := d }) else sget fields index a := by
  unfold sget
  by_cases ha : a = id
  · subst ha; rw [hi]; simp [List.getElem?_modify]
  · rw [if_neg ha]
    cases e : index a with
    | none => rfl
    | some j =>
      have : i ≠ j := fun hij => ha (h.inj e (hij ▸ hi))
      simp [List.getElem?_modify, this]

/-! ## Registration -/

theorem register_wf {md : Md K} (h : WF md) (l : String) :
    WF (register md l).1 ∧ getFieldId (register md l).1 l = some (register md l).2
      ∧ (∀ m, m ≠ l → getFieldId (register md l).1 m = getFieldId md m)
      ∧ (∀ p id, getField (register md l).1 p id = getField md p id)
      ∧ (∀ m i, getFieldId md m = some i → getFieldId (register md l).1 m = some i)
      ∧ (getFieldId md l = none → ∀ p, getField md p (register md l).2 = none) := by
  unfold register getFieldId
  cases e : md.labels.lookup l with
  | some id => exact ⟨h, e, fun _ _ => rfl, fun _ _ => rfl, fun _ _ h => h, fun h => by simp at h⟩
  | none =>
    have hl : ∀ m, ((l, md.labels.length) :: md.labels).lookup m
        = if m = l then some md.labels.length else md.labels.lookup m := by
      intro m
      by_cases hm : m = l
      · simp [hm, List.lookup_cons]
      · have : (m == l) = false := by simpa using hm
        simp [List.lookup_cons, this, hm]
    refine ⟨⟨⟨?_, ?_⟩, h.node.mono (by simp), h.eblk, h.einj, fun s hs => (h.elem s hs).mono (by simp), h.iblk,
      h.iinj, fun s hs => ⟨(h.ipt s hs).1.mono (by simp), (h.ipt s hs).2⟩⟩, by simp, ?_, ?_, ?_, ?_⟩
    · intro m i hm
      simp only [hl] at hm
      split at hm
      · simp at hm; simp; omega
      · have := h.lab.lt hm; simp; omega
    · intro a b i ha hb
      simp only [hl] at ha hb
      split at ha <;> split at hb
      · simp_all
      · simp at ha; have := h.lab.lt hb; omega
      · simp at hb; have := h.lab.lt ha; omega
      · exact h.lab.inj ha hb
    · intro m hm; simp [hl, hm]
    · intro p id
      cases p with
      | node => rfl
      | elem b => rfl
      | ipt b s => cases s <;> rfl
    · intro m i hm
      have : m ≠ l := by rintro rfl; rw [e] at hm; cases hm
      simp [hl, this, hm]
    · intro _ p
      cases p with
      | node =>
        cases hi : md.node.index md.labels.length with
        | none => simp [getField, hi]
        | some i => have := (h.node.lt hi).2; omega
      | elem b =>
        cases hb : md.elemBlock b with
        | none => simp [getField, hb]
        | some bi =>
          have hlt := h.eblk _ _ hb
          have hs := h.elem md.elem[bi] (List.getElem_mem hlt)
          cases hi : md.elem[bi].index md.labels.length with
          | none => simp [getField, hb, hlt, hi]
          | some i => have := (hs.lt hi).2; omega
      | ipt b s =>
        cases hb : md.iptBlock b with
        | none => cases s <;> simp [getField, hb]
        | some bi =>
          have hlt := h.iblk _ _ hb
          have hs := (h.ipt md.ipt[bi] (List.getElem_mem hlt)).1
          cases hi : md.ipt[bi].index md.labels.length with
          | none => cases s <;> simp [getField, hb, hlt, hi]
          | some i => have := (hs.lt hi).2; omega

/-! ## Allocation and writes at the level of ids -/

theorem allocNode_spec [Zero K] {md md' : Md K} (h : WF md) {len l n id}
    (e : allocateNodeData md len l n = some (md', id)) :
    WF md' ∧ id = (register md l).2 ∧ md'.labels = (register md l).1.labels ∧
    ∃ t, nodeType len = some t ∧ ∀ p a, getField md' p a
      = if p = .node ∧ a = id then some ⟨t, n, fun _ _ _ => 0⟩ else getField md p a := by
  obtain ⟨hw, hid, -, hg, -, -⟩ := register_wf h l
  unfold allocateNodeData at e
  simp only [Option.map_eq_some_iff, Prod.mk.injEq] at e
  obtain ⟨t, ht, rfl, rfl⟩ := e
  have hlt := hw.lab.lt hid
  refine ⟨⟨hw.lab, ?_, hw.eblk, hw.einj, hw.elem, hw.iblk, hw.iinj, hw.ipt⟩, rfl, rfl, t, ht, ?_⟩
  · simpa [Shelf.add] using hw.node.add hlt
  · intro p a
    rw [← hg p a]
    cases p with
    | node =>
      simpa [getField, Shelf.add, sget] using
        sget_add (id := (register md l).2) (f := ⟨t, n, fun _ _ _ => 0⟩) hw.node a
    | elem b => simp [getField]
    | ipt b s => cases s <;> simp [getField]

/-- The part of `allocateElementData` that finds or creates the entry of the block. -/
def elemSlot (md : Md K) (block_id : ℤ) : Md K := match md.elemBlock block_id with
    | none =>
      { md with
        elemBlock := Function.update md.elemBlock block_id (some md.elem.length)
        elem := md.elem ++ [⟨[], fun _ => none⟩] }
    | some _ => md

def iptSlot (md : Md K) (block_id : ℤ) : Md K := match md.iptBlock block_id with
    | none =>
      { md with
        iptBlock := Function.update md.iptBlock block_id (some md.ipt.length)
        ipt := md.ipt ++ [⟨[], [], fun _ => none⟩] }
    | some _ => md

theorem elemSlot_spec {md : Md K} (h : WF md) (b : ℤ) :
    WF (elemSlot md b) ∧ (elemSlot md b).labels = md.labels ∧
    (∃ bi, (elemSlot md b).elemBlock b = some bi ∧ bi < (elemSlot md b).elem.length) ∧
    ∀ p a, getField (elemSlot md b) p a = getField md p a := by
  unfold elemSlot
  cases e : md.elemBlock b with
  | some bi => exact ⟨h, rfl, ⟨bi, e, h.eblk _ _ e⟩, fun _ _ => rfl⟩
  | none =>
    refine ⟨⟨h.lab, h.node, ?_, ?_, ?_, h.iblk, h.iinj, h.ipt⟩, rfl, ⟨md.elem.length, by simp, by simp⟩, ?_⟩
    · intro c i hc
      by_cases hcb : c = b
      · subst hcb; simp at hc; simp; omega
      · simp only [Function.update_of_ne hcb] at hc
        have := h.eblk _ _ hc; simp; omega
    · intro a c i ha hc
      by_cases hab : a = b <;> by_cases hcb : c = b
      · rw [hab, hcb]
      · subst hab; simp only [Function.update_of_ne hcb] at hc; simp at ha
        have := h.eblk _ _ hc; omega
      · subst hcb; simp only [Function.update_of_ne hab] at ha; simp at hc
        have := h.eblk _ _ ha; omega
      · simp only [Function.update_of_ne hab] at ha; simp only [Function.update_of_ne hcb] at hc
        exact h.einj _ _ _ ha hc
    · intro s hs
      simp only [List.mem_append, List.mem_singleton] at hs
      rcases hs with hs | rfl
      · exact h.elem s hs
      · exact ⟨by simp, by simp⟩
    · intro p a
      cases p with
      | node => rfl
      | ipt c s => cases s <;> rfl
      | elem c =>
        by_cases hcb : c = b
        · subst hcb; simp [getField, e]
        · simp only [getField, Function.update_of_ne hcb]
          cases hc : md.elemBlock c with
          | none => rfl
          | some i => simp [List.getElem?_append_left (h.eblk _ _ hc)]

theorem iptSlot_spec {md : Md K} (h : WF md) (b : ℤ) :
    WF (iptSlot md b) ∧ (iptSlot md b).labels = md.labels ∧
    (∃ bi, (iptSlot md b).iptBlock b = some bi ∧ bi < (iptSlot md b).ipt.length) ∧
    ∀ p a, getField (iptSlot md b) p a = getField md p a := by
  unfold iptSlot
  cases e : md.iptBlock b with
  | some bi => exact ⟨h, rfl, ⟨bi, e, h.iblk _ _ e⟩, fun _ _ => rfl⟩
  | none =>
    refine ⟨⟨h.lab, h.node, h.eblk, h.einj, h.elem, ?_, ?_, ?_⟩, rfl, ⟨md.ipt.length, by simp, by simp⟩, ?_⟩
    · intro c i hc
      by_cases hcb : c = b
      · subst hcb; simp at hc; simp; omega
      · simp only [Function.update_of_ne hcb] at hc
        have := h.iblk _ _ hc; simp; omega
    · intro a c i ha hc
      by_cases hab : a = b <;> by_cases hcb : c = b
      · rw [hab, hcb]
      · subst hab; simp only [Function.update_of_ne hcb] at hc; simp at ha
        have := h.iblk _ _ hc; omega
      · subst hcb; simp only [Function.update_of_ne hab] at ha; simp at hc
        have := h.iblk _ _ ha; omega
      · simp only [Function.update_of_ne hab] at ha; simp only [Function.update_of_ne hcb] at hc
        exact h.iinj _ _ _ ha hc
    · intro s hs
      simp only [List.mem_append, List.mem_singleton] at hs
      rcases hs with hs | rfl
      · exact h.ipt s hs
      · exact ⟨⟨by simp, by simp⟩, rfl⟩
    · intro p a
      cases p with
      | node => rfl
      | elem c => rfl
      | ipt c s =>
        by_cases hcb : c = b
        · subst hcb; cases s <;> simp [getField, e]
        · cases s <;> simp only [getField, Function.update_of_ne hcb] <;>
          cases hc : md.iptBlock c with
          | none => rfl
          | some i => simp [List.getElem?_append_left (h.iblk _ _ hc)]

theorem allocElem_spec [Zero K] {md md' : Md K} (h : WF md) {b len l n id}
    (e : allocateElementData md b len l n = some (md', id)) :
    WF md' ∧ id = (register md l).2 ∧ md'.labels = (register md l).1.labels ∧
    ∃ t, elemType len = some t ∧ ∀ p a, getField md' p a
      = if p = .elem b ∧ a = id then some ⟨t, n, fun _ _ _ => 0⟩ else getField md p a := by
  obtain ⟨hw, hid, -, hg, -, -⟩ := register_wf h l
  obtain ⟨hw2, hlab, ⟨bi, hbi, hlt⟩, hg2⟩ := elemSlot_spec hw b
  change ((elemSlot (register md l).1 b).elemBlock b).bind (fun block_index =>
    ((elemSlot (register md l).1 b).elem[block_index]?).bind fun shelf =>
      (elemType len).map fun t =>
        (Md.mk (elemSlot (register md l).1 b).labels (elemSlot (register md l).1 b).node
          (elemSlot (register md l).1 b).elemBlock
          ((elemSlot (register md l).1 b).elem.set block_index
            (shelf.add (register md l).2 ⟨t, n, fun _ _ _ => 0⟩))
          (elemSlot (register md l).1 b).iptBlock (elemSlot (register md l).1 b).ipt,
          (register md l).2)) = _ at e
  have hidlt := hw.lab.lt hid
  rw [← hlab] at hidlt ⊢
  have hg3 : ∀ p a, getField (elemSlot (register md l).1 b) p a = getField md p a :=
    fun p a => (hg2 p a).trans (hg p a)
  generalize elemSlot (register md l).1 b = m at *
  generalize (register md l).2 = id' at *
  simp only [hbi, Option.bind_some, List.getElem?_eq_getElem hlt, Option.map_eq_some_iff, Prod.mk.injEq] at e
  obtain ⟨t, ht, rfl, rfl⟩ := e
  have hs := hw2.elem m.elem[bi] (List.getElem_mem hlt)
  refine ⟨⟨hw2.lab, hw2.node, ?_, hw2.einj, ?_, hw2.iblk, hw2.iinj, hw2.ipt⟩, rfl, rfl, t, ht, ?_⟩
  · intro c i hc; simpa using hw2.eblk _ _ hc
  · intro s hs'
    rcases List.mem_or_eq_of_mem_set hs' with hs' | rfl
    · exact hw2.elem s hs'
    · simpa [Shelf.add] using hs.add hidlt
  · intro p a
    rw [← hg3 p a]
    cases p with
    | node => simp [getField]
    | ipt c s => cases s <;> simp [getField]
    | elem c =>
      by_cases hcb : c = b
      · subst hcb
        simpa [getField, hbi, hlt, Shelf.add, sget] using
          sget_add (id := id') (f := ⟨t, n, fun _ _ _ => 0⟩) hs a
      · simp only [getField, Place.elem.injEq, hcb, false_and, if_false]
        cases hc : m.elemBlock c with
        | none => rfl
        | some i =>
          have : bi ≠ i := fun hii => hcb (hw2.einj _ _ _ hc (hii ▸ hbi))
          simp [List.getElem?_set, this]

theorem allocIpt_spec [Zero K] {md md' : Md K} (h : WF md) {b len l n v id}
    (e : allocateIntegrationPointData md b len l n v = some (md', id)) :
    WF md' ∧ id = (register md l).2 ∧ md'.labels = (register md l).1.labels ∧
    ∃ t d, iptType len = some t ∧ initialData t n v = some d ∧ ∀ p a, getField md' p a
      = if (p = .ipt b .n ∨ p = .ipt b .np1) ∧ a = id then some ⟨t, n, d⟩ else getField md p a := by
  obtain ⟨hw, hid, -, hg, -, -⟩ := register_wf h l
  obtain ⟨hw2, hlab, ⟨bi, hbi, hlt⟩, hg2⟩ := iptSlot_spec hw b
  change ((iptSlot (register md l).1 b).iptBlock b).bind (fun block_index =>
    ((iptSlot (register md l).1 b).ipt[block_index]?).bind fun shelf =>
      (iptType len).bind fun t => (initialData t n v).map fun d =>
        (Md.mk (iptSlot (register md l).1 b).labels (iptSlot (register md l).1 b).node
          (iptSlot (register md l).1 b).elemBlock (iptSlot (register md l).1 b).elem
          (iptSlot (register md l).1 b).iptBlock
          ((iptSlot (register md l).1 b).ipt.set block_index
            (Shelf2.mk (shelf.fieldsN ++ [⟨t, n, d⟩]) (shelf.fieldsNP1 ++ [⟨t, n, d⟩])
              (Function.update shelf.index (register md l).2 (some shelf.fieldsN.length)))),
          (register md l).2)) = _ at e
  have hidlt := hw.lab.lt hid
  rw [← hlab] at hidlt ⊢
  have hg3 : ∀ p a, getField (iptSlot (register md l).1 b) p a = getField md p a :=
    fun p a => (hg2 p a).trans (hg p a)
  generalize iptSlot (register md l).1 b = m at *
  generalize (register md l).2 = id' at *
  simp only [hbi, Option.bind_some, List.getElem?_eq_getElem hlt, Option.map_eq_some_iff, Prod.mk.injEq,
    Option.bind_eq_some_iff] at e
  obtain ⟨t, ht, d, hd, rfl, rfl⟩ := e
  obtain ⟨hs, hslen⟩ := hw2.ipt m.ipt[bi] (List.getElem_mem hlt)
  refine ⟨⟨hw2.lab, hw2.node, hw2.eblk, hw2.einj, hw2.elem, ?_, hw2.iinj, ?_⟩, rfl, rfl, t, d, ht, hd, ?_⟩
  · intro c i hc; simpa using hw2.iblk _ _ hc
  · intro s hs'
    rcases List.mem_or_eq_of_mem_set hs' with hs' | rfl
    · exact hw2.ipt s hs'
    · exact ⟨by simpa using hs.add hidlt, by simp [hslen]⟩
  · intro p a
    rw [← hg3 p a]
    cases p with
    | node => simp [getField]
    | elem c => simp [getField]
    | ipt c s =>
      by_cases hcb : c = b
      · subst hcb
        have hs' := hs
        rw [← hslen] at hs'
        cases s
        · simpa [getField, hbi, hlt, sget] using sget_add (id := id') (f := ⟨t, n, d⟩) hs a
        · have := sget_add (id := id') (f := ⟨t, n, d⟩) hs' a
          rw [hslen] at this
          simpa [getField, hbi, hlt, sget] using this
      · have hne : ¬ (Place.ipt c s = Place.ipt b .n ∨ Place.ipt c s = Place.ipt b .np1) := by
          rintro (hs' | hs') <;> · cases hs'; exact hcb rfl
        simp only [hne, false_and, if_false]
        cases hc : m.iptBlock c with
        | none => cases s <;> simp [getField, hc]
        | some i =>
          have : bi ≠ i := fun hii => hcb (hw2.iinj _ _ _ hc (hii ▸ hbi))
          cases s <;> simp [getField, hc, List.getElem?_set, this]

theorem setData_spec {md : Md K} (h : WF md) (p : Place) (id : ℕ) (d : ℕ → ℕ → ℕ → K) :
    WF (setData md p id d) ∧ (setData md p id d).labels = md.labels ∧
    ∀ q a, getField (setData md p id d) q a
      = if q = p ∧ a = id then (getField md p id).map (fun f => { f with data := d }) else getField md q a := by
  cases p with
  | node =>
    cases e : md.node.index id with
    | none =>
      refine ⟨by simpa [setData, e] using h, by simp [setData, e], ?_⟩
      intro q a
      by_cases hq : q = .node ∧ a = id
      · obtain ⟨rfl, rfl⟩ := hq; simp [setData, e, getField]
      · simp [setData, e, hq]
    | some i =>
      refine ⟨⟨?_, ?_, ?_, ?_, ?_, ?_, ?_, ?_⟩, by simp [setData, e], ?_⟩
      any_goals first
          | simpa [setData, e] using h.lab
          | simpa [setData, e] using h.node
          | simpa [setData, e] using h.eblk
          | simpa [setData, e] using h.einj
          | simpa [setData, e] using h.elem
          | simpa [setData, e] using h.iblk
          | simpa [setData, e] using h.iinj
          | simpa [setData, e] using h.ipt
      intro q a
      cases q with
      | node =>
        have := sget_modify (d := d) h.node e a
        by_cases ha : a = id
        · subst ha; simpa [setData, e, getField, sget] using this
        · simpa [setData, e, getField, sget, ha] using this
      | elem c => simp [setData, e, getField]
      | ipt c s => cases s <;> simp [setData, e, getField]
  | elem b =>
    cases hb : md.elemBlock b with
    | none =>
      refine ⟨by simpa [setData, hb] using h, by simp [setData, hb], ?_⟩
      intro q a
      by_cases hq : q = .elem b ∧ a = id
      · obtain ⟨rfl, rfl⟩ := hq; simp [setData, hb, getField]
      · simp [setData, hb, hq]
    | some bi =>
      have hlt := h.eblk _ _ hb
      have hs := h.elem md.elem[bi] (List.getElem_mem hlt)
      refine ⟨⟨?_, ?_, ?_, ?_, ?_, ?_, ?_, ?_⟩, by simp [setData, hb], ?_⟩
      any_goals first
          | simpa [setData, hb] using h.lab
          | simpa [setData, hb] using h.node
          | simpa [setData, hb] using h.eblk
          | simpa [setData, hb] using h.einj
          | simpa [setData, hb] using h.iblk
          | simpa [setData, hb] using h.iinj
          | simpa [setData, hb] using h.ipt
      · intro s hs'
        simp only [setData, hb] at hs' ⊢
        obtain ⟨j, hj, rfl⟩ := List.getElem_of_mem hs'
        have hj' : j < md.elem.length := by simpa using hj
        rw [List.getElem_modify]
        split
        · subst_vars
          split
          · exact h.elem _ (List.getElem_mem hj')
          · simpa using h.elem _ (List.getElem_mem hj')
        · exact h.elem _ (List.getElem_mem hj')
      · intro q a
        cases q with
        | node => simp [setData, hb, getField]
        | ipt c s => cases s <;> simp [setData, hb, getField]
        | elem c =>
          by_cases hcb : c = b
          · subst hcb
            cases e : md.elem[bi].index id with
            | none =>
              by_cases ha : a = id
              · subst ha; simp [setData, hb, getField, hlt, e]
              · simp [setData, hb, getField, hlt, e, ha]
            | some i =>
              have := sget_modify (d := d) hs e a
              by_cases ha : a = id
              · subst ha; simpa [setData, hb, getField, hlt, e, sget] using this
              · simpa [setData, hb, getField, hlt, e, sget, ha] using this
          · simp only [Place.elem.injEq, hcb, false_and, if_false]
            cases hc : md.elemBlock c with
            | none => simp [setData, hb, getField, hc]
            | some j =>
              have : bi ≠ j := fun hii => hcb (h.einj _ _ _ hc (hii ▸ hb))
              simp [setData, hb, getField, hc, List.getElem?_modify, this]
  | ipt b s =>
    cases hb : md.iptBlock b with
    | none =>
      cases s <;>
      · refine ⟨by simpa [setData, hb] using h, by simp [setData, hb], ?_⟩
        intro q a
        split
        · rename_i hq; obtain ⟨rfl, rfl⟩ := hq; simp [setData, hb, getField]
        · simp [setData, hb]
    | some bi =>
      have hlt := h.iblk _ _ hb
      obtain ⟨hs, hslen⟩ := h.ipt md.ipt[bi] (List.getElem_mem hlt)
      have hs' := hs
      rw [← hslen] at hs'
      cases s <;>
      · refine ⟨⟨?_, ?_, ?_, ?_, ?_, ?_, ?_, ?_⟩, by simp [setData, hb], ?_⟩
        any_goals first
          | simpa [setData, hb] using h.lab
          | simpa [setData, hb] using h.node
          | simpa [setData, hb] using h.eblk
          | simpa [setData, hb] using h.einj
          | simpa [setData, hb] using h.elem
          | simpa [setData, hb] using h.iblk
          | simpa [setData, hb] using h.iinj
        · intro s hs'
          simp only [setData, hb] at hs' ⊢
          obtain ⟨j, hj, rfl⟩ := List.getElem_of_mem hs'
          have hj' : j < md.ipt.length := by simpa using hj
          rw [List.getElem_modify]
          split
          · subst_vars
            split
            · exact h.ipt _ (List.getElem_mem hj')
            · simpa using h.ipt _ (List.getElem_mem hj')
          · exact h.ipt _ (List.getElem_mem hj')
        · intro q a
          cases q with
          | node => simp [setData, hb, getField]
          | elem c => simp [setData, hb, getField]
          | ipt c s =>
            by_cases hcb : c = b
            · subst hcb
              cases e : md.ipt[bi].index id with
              | none =>
                by_cases ha : a = id
                · subst ha; cases s <;> simp [setData, hb, getField, hlt, e]
                · cases s <;> simp [setData, hb, getField, hlt, e, ha]
              | some i =>
                have h1 := sget_modify (d := d) hs e a
                have h2 := sget_modify (d := d) hs' e a
                by_cases ha : a = id
                · subst ha
                  cases s
                  · first
                      | simpa [setData, hb, getField, hlt, e, sget] using h1
                      | simp [setData, hb, getField, hlt, e, sget]
                  · first
                      | simpa [setData, hb, getField, hlt, e, sget] using h2
                      | simp [setData, hb, getField, hlt, e, sget]
                · cases s
                  · first
                      | simpa [setData, hb, getField, hlt, e, sget, ha] using h1
                      | simp [setData, hb, getField, hlt, e, sget, ha]
                  · first
                      | simpa [setData, hb, getField, hlt, e, sget, ha] using h2
                      | simp [setData, hb, getField, hlt, e, sget, ha]
            · simp only [Place.ipt.injEq, hcb, false_and, if_false]
              cases hc : md.iptBlock c with
              | none => cases s <;> simp [setData, hb, getField, hc]
              | some j =>
                have : bi ≠ j := fun hii => hcb (h.iinj _ _ _ hc (hii ▸ hb))
                cases s <;> simp [setData, hb, getField, hc, List.getElem?_modify, this]

/-! ## The refinement -/

/-- The model data represents the table. -/
def Rep (md : Md K) (T : Table K) : Prop :=
  WF md ∧ ∀ p l, ((getFieldId md l).bind fun id => getField md p id) = T p l

theorem rep_empty : Rep (empty : Md K) noFields :=
  ⟨wf_empty, fun p l => by simp [empty, getFieldId, noFields]⟩

theorem fresh_nil [Zero K] (t : FType) (n : ℕ) : (⟨t, n, fun _ _ _ => 0⟩ : Fld K) = fresh t n [] := by
  simp [fresh]

theorem initialData_fresh [Zero K] {t : FType} {n : ℕ} {v : List K} {d : ℕ → ℕ → ℕ → K} {len : Length}
    (ht : iptType len = some t) (h : initialData t n v = some d) : (⟨t, n, d⟩ : Fld K) = fresh t n v := by
  unfold initialData at h
  split at h
  · rename_i hv
    cases v with
    | nil => cases h; simp [fresh]
    | cons a w => simp at hv
  · split at h
    · cases h
    · cases h; simp [fresh, entriesOf_eq ht, List.getD_eq_getElem?_getD]

theorem initialData_isSome [Zero K] {t : FType} {len : Length} (ht : iptType len = some t) (n : ℕ) (v : List K) :
    (initialData t n v).isSome ↔ (v = [] ∨ n = 0 ∨ entriesOf t ≤ v.length) := by
  rw [entriesOf_eq ht]
  unfold initialData
  split
  · rename_i hv; simp at hv; simp [hv]
  · rename_i hv
    simp at hv
    split
    · rename_i h; simp [hv, h.1]; omega
    · rename_i h; simp [hv]; omega

/-- After registering `l` and storing `f` at the places `P`, the lookup gives `f` there. -/
theorem rep_alloc {md md' : Md K} {T : Table K} (hR : Rep md T) (l : String) (f : Fld K) (P : Place → Prop)
    [DecidablePred P] (hw : WF md') (hl : md'.labels = (register md l).1.labels)
    (hg : ∀ p a, getField md' p a = if P p ∧ a = (register md l).2 then some f else getField md p a) :
    Rep md' (fun p m => if P p ∧ m = l then some f else T p m) := by
  obtain ⟨hw0, hid, hother, -, hkeep, hnone⟩ := register_wf hR.1 l
  refine ⟨hw, fun p m => ?_⟩
  have hgid : ∀ m, getFieldId md' m = getFieldId (register md l).1 m := fun m => by simp [getFieldId, hl]
  rw [hgid]
  beta_reduce
  by_cases hm : m = l
  · subst hm
    rw [hid, ← hR.2 p m]
    simp only [Option.bind_some, hg, and_true]
    split
    · rfl
    · cases e : getFieldId md m with
      | none => simpa using hnone e p
      | some i =>
        have : i = (register md m).2 := by
          have := hkeep m i e; rw [hid] at this; exact (Option.some.inj this).symm
        simp [this]
  · rw [hother m hm, ← hR.2 p m]
    simp only [hm, and_false, if_false]
    cases e : getFieldId md m with
    | none => rfl
    | some i =>
      have hne : i ≠ (register md l).2 := by
        rintro rfl
        exact hm (hw0.lab.inj ((hother m hm).trans e) hid)
      simp [hg, hne]

theorem step_rep [Zero K] {md md' : Md K} {T : Table K} (hR : Rep md T) {op : Op K}
    (e : step md op = some md') : Rep md' (T.step op) := by
  cases op with
  | allocNode len l n =>
    simp only [step, Option.map_eq_some_iff, Prod.exists, exists_and_right, exists_eq_right] at e
    obtain ⟨id, e⟩ := e
    obtain ⟨hw, rfl, hl, t, ht, hg⟩ := allocNode_spec hR.1 e
    have := rep_alloc hR l (fresh t n []) (fun p => p = .node) hw hl (by simpa [fresh_nil] using hg)
    simp only [Table.step, classAt_node, classAt_elem, ht]
    exact this
  | allocElem b len l n =>
    simp only [step, Option.map_eq_some_iff, Prod.exists, exists_and_right, exists_eq_right] at e
    obtain ⟨id, e⟩ := e
    obtain ⟨hw, rfl, hl, t, ht, hg⟩ := allocElem_spec hR.1 e
    have := rep_alloc hR l (fresh t n []) (fun p => p = .elem b) hw hl (by simpa [fresh_nil] using hg)
    simp only [Table.step, classAt_node, classAt_elem, ht]
    exact this
  | allocIpt b len l n v =>
    simp only [step, Option.map_eq_some_iff, Prod.exists, exists_and_right, exists_eq_right] at e
    obtain ⟨id, e⟩ := e
    obtain ⟨hw, rfl, hl, t, d, ht, hd, hg⟩ := allocIpt_spec hR.1 e
    rw [initialData_fresh ht hd] at hg
    have := rep_alloc hR l (fresh t n v) (fun p => p = .ipt b .n ∨ p = .ipt b .np1) hw hl hg
    have hT : T.step (.allocIpt b len l n v)
        = fun p m => if (p = .ipt b .n ∨ p = .ipt b .np1) ∧ m = l then some (fresh t n v) else T p m := by
      funext p m
      simp only [Table.step, classAt_ipt, ht, Table.put]
      by_cases h1 : m = l <;> by_cases h2 : p = .ipt b .n <;> by_cases h3 : p = .ipt b .np1 <;> simp [h1, h2, h3]
    rw [hT]
    exact this
  | write p l t d =>
    simp only [step, Option.bind_eq_some_iff, Option.map_eq_some_iff] at e
    obtain ⟨id, hid, f, hf, rfl⟩ := e
    simp only [get, Option.bind_eq_some_iff] at hf
    obtain ⟨f', hf', -⟩ := hf
    obtain ⟨hw, hl, hg⟩ := setData_spec hR.1 p id d
    have hT : T p l = some f' := by rw [← hR.2 p l, hid]; simpa using hf'
    refine ⟨hw, fun q m => ?_⟩
    have hgid : getFieldId (setData md p id d) m = getFieldId md m := by simp [getFieldId, hl]
    rw [hgid]
    simp only [Table.step, hT, Table.put]
    by_cases hm : m = l
    · subst hm
      rw [hid]
      by_cases hq : q = p
      · subst hq; simp [hg, hf']
      · simp only [Option.bind_some, hg, hq, false_and, if_false]
        rw [← hR.2 q m, hid]; rfl
    · rw [← hR.2 q m]
      simp only [hm, and_false, if_false]
      cases e : getFieldId md m with
      | none => rfl
      | some i =>
        have hne : i ≠ id := by
          rintro rfl
          exact hm (hR.1.lab.inj e hid)
        simp [hg, hne]

theorem step_isSome [Zero K] {md : Md K} {T : Table K} (hR : Rep md T) (op : Op K) :
    (step md op).isSome ↔ T.accepts op := by
  cases op with
  | allocNode len l n => simp [step, allocateNodeData, Table.accepts, classAt_node]
  | allocElem b len l n =>
    obtain ⟨-, -, ⟨bi, hbi, hlt⟩, -⟩ := elemSlot_spec (register_wf hR.1 l).1 b
    have : allocateElementData md b len l n = ((elemSlot (register md l).1 b).elemBlock b).bind (fun block_index =>
      ((elemSlot (register md l).1 b).elem[block_index]?).bind fun shelf =>
      (elemType len).map fun t =>
        (Md.mk (elemSlot (register md l).1 b).labels (elemSlot (register md l).1 b).node
          (elemSlot (register md l).1 b).elemBlock
          ((elemSlot (register md l).1 b).elem.set block_index
            (shelf.add (register md l).2 ⟨t, n, fun _ _ _ => 0⟩))
          (elemSlot (register md l).1 b).iptBlock (elemSlot (register md l).1 b).ipt,
          (register md l).2)) := rfl
    simp [step, this, hbi, hlt, Table.accepts, classAt_elem]
  | allocIpt b len l n v =>
    obtain ⟨-, -, ⟨bi, hbi, hlt⟩, -⟩ := iptSlot_spec (register_wf hR.1 l).1 b
    have : allocateIntegrationPointData md b len l n v = ((iptSlot (register md l).1 b).iptBlock b).bind
      (fun block_index => ((iptSlot (register md l).1 b).ipt[block_index]?).bind fun shelf =>
      (iptType len).bind fun t => (initialData t n v).map fun d =>
        (Md.mk (iptSlot (register md l).1 b).labels (iptSlot (register md l).1 b).node
          (iptSlot (register md l).1 b).elemBlock (iptSlot (register md l).1 b).elem
          (iptSlot (register md l).1 b).iptBlock
          ((iptSlot (register md l).1 b).ipt.set block_index
            (Shelf2.mk (shelf.fieldsN ++ [⟨t, n, d⟩]) (shelf.fieldsNP1 ++ [⟨t, n, d⟩])
              (Function.update shelf.index (register md l).2 (some shelf.fieldsN.length)))),
          (register md l).2)) := rfl
    simp only [step, this, hbi, hlt, Table.accepts, classAt_ipt, Option.bind_some, List.getElem?_eq_getElem]
    cases ht : iptType len with
    | none => simp
    | some t => simp [← initialData_isSome ht]
  | write p l t d =>
    simp only [step, Table.accepts, ← hR.2 p l, get]
    cases getFieldId md l with
    | none => simp
    | some id =>
      cases hf : getField md p id with
      | none => simp [hf]
      | some f => by_cases h : f.type = t <;> simp [h, hf]

theorem run_rep [Zero K] (ops : List (Op K)) : ∀ {md md' : Md K} {T : Table K}, Rep md T →
    run ops md = some md' → Rep md' (Table.run ops T) := by
  induction ops with
  | nil => intro md md' T hR e; cases e; exact hR
  | cons op ops ih =>
    intro md md' T hR e
    simp only [run, List.foldlM_cons, Option.bind_eq_bind, Option.bind_eq_some_iff] at e
    obtain ⟨m, hm, e⟩ := e
    exact ih (step_rep hR hm) e

/-- Every history is accepted by the model data exactly when each of its calls is acceptable for the table
at that point. -/
def Table.acceptsAll [Zero K] : List (Op K) → Table K → Prop
  | [], _ => True
  | op :: ops, T => T.accepts op ∧ Table.acceptsAll ops (T.step op)

/-- **C96.**  For every history of allocations and writes that runs to its end, in any order, with any
labels, blocks and lengths, looking a label up with the getter for a type gives the entry of the table with
that type. -/
theorem registry_refines [Zero K] (ops : List (Op K)) (md : Md K) (h : run ops empty = some md)
    (p : Place) (l : String) (t : FType) :
    read md p l t = (Table.run ops noFields p l).filter (fun f => f.type = t) := by
  have hR := run_rep ops rep_empty h
  rw [← hR.2 p l, read]
  cases getFieldId md l with
  | none => rfl
  | some id =>
    simp only [Option.bind_some, get]
    cases getField md p id with
    | none => rfl
    | some f => by_cases hf : f.type = t <;> simp [Option.filter, hf]

/-- **C96.**  Which histories run to their end. -/
theorem registry_accepts [Zero K] (ops : List (Op K)) :
    (run ops (empty : Md K)).isSome ↔ Table.acceptsAll ops noFields := by
  suffices h : ∀ (md : Md K) (T : Table K), Rep md T → ((run ops md).isSome ↔ Table.acceptsAll ops T) from
    h _ _ rep_empty
  induction ops with
  | nil => intro md T _; simp [run, Table.acceptsAll]
  | cons op ops ih =>
    intro md T hR
    rw [Table.acceptsAll, ← step_isSome hR]
    cases e : step md op with
    | none => simp [run, e]
    | some m =>
      have := ih m _ (step_rep hR e)
      simpa [run, e] using this

/-! ## Ids -/

theorem step_id [Zero K] {md md' : Md K} {T : Table K} (hR : Rep md T) {op : Op K}
    (e : step md op = some md') {l : String} {i : ℕ} (hi : getFieldId md l = some i) :
    getFieldId md' l = some i := by
  cases op with
  | allocNode len m n =>
    simp only [step, Option.map_eq_some_iff, Prod.exists, exists_and_right, exists_eq_right] at e
    obtain ⟨id, e⟩ := e
    obtain ⟨-, -, hl, -⟩ := allocNode_spec hR.1 e
    simpa [getFieldId, hl] using (register_wf hR.1 m).2.2.2.2.1 l i hi
  | allocElem b len m n =>
    simp only [step, Option.map_eq_some_iff, Prod.exists, exists_and_right, exists_eq_right] at e
    obtain ⟨id, e⟩ := e
    obtain ⟨-, -, hl, -⟩ := allocElem_spec hR.1 e
    simpa [getFieldId, hl] using (register_wf hR.1 m).2.2.2.2.1 l i hi
  | allocIpt b len m n v =>
    simp only [step, Option.map_eq_some_iff, Prod.exists, exists_and_right, exists_eq_right] at e
    obtain ⟨id, e⟩ := e
    obtain ⟨-, -, hl, -⟩ := allocIpt_spec hR.1 e
    simpa [getFieldId, hl] using (register_wf hR.1 m).2.2.2.2.1 l i hi
  | write p m t d =>
    simp only [step, Option.bind_eq_some_iff, Option.map_eq_some_iff] at e
    obtain ⟨id, hid, f, hf, rfl⟩ := e
    simpa [getFieldId, (setData_spec hR.1 p id d).2.1] using hi

/-- **C96.**  A label keeps its id for life: later allocations (of this or other labels) and writes never
change it. -/
theorem field_id_stable [Zero K] (ops ops' : List (Op K)) (md md' : Md K) (h : run ops empty = some md)
    (h' : run ops' md = some md') (l : String) (i : ℕ) (hi : getFieldId md l = some i) :
    getFieldId md' l = some i := by
  have hR := run_rep ops rep_empty h
  generalize Table.run ops noFields = T at hR
  clear h
  induction ops' generalizing md T with
  | nil => cases h'; exact hi
  | cons op ops' ih =>
    simp only [run, List.foldlM_cons, Option.bind_eq_bind, Option.bind_eq_some_iff] at h'
    obtain ⟨m, hm, h'⟩ := h'
    exact ih m h' (step_id hR hm hi) _ (step_rep hR hm)

/-- **C96.**  Different labels have different ids. -/
theorem field_id_injective [Zero K] (ops : List (Op K)) (md : Md K) (h : run ops empty = some md)
    (l m : String) (i : ℕ) (hl : getFieldId md l = some i) (hm : getFieldId md m = some i) : l = m :=
  (run_rep ops rep_empty h).1.lab.inj hl hm

/-- **C96.**  The id that an allocation returns is the id under which the label is found afterwards. -/
theorem allocate_returns_id [Zero K] (ops : List (Op K)) (md md' : Md K) (h : run ops empty = some md)
    (len : Length) (l : String) (n : ℕ) (b : ℤ) (v : List K) (i : ℕ)
    (ha : allocateNodeData md len l n = some (md', i) ∨ allocateElementData md b len l n = some (md', i) ∨
      allocateIntegrationPointData md b len l n v = some (md', i)) :
    getFieldId md' l = some i := by
  have hW := (run_rep ops rep_empty h).1
  have key : i = (register md l).2 ∧ md'.labels = (register md l).1.labels := by
    rcases ha with ha | ha | ha
    · have := allocNode_spec hW ha; exact ⟨this.2.1, this.2.2.1⟩
    · have := allocElem_spec hW ha; exact ⟨this.2.1, this.2.2.1⟩
    · have := allocIpt_spec hW ha; exact ⟨this.2.1, this.2.2.1⟩
  have := (register_wf hW l).2.1
  simpa [getFieldId, key.2, key.1] using this

/-- **C96.**  An unknown label is never found: `GetFieldId` throws. -/
theorem unknown_label_throws [Zero K] (ops : List (Op K)) (md : Md K) (h : run ops empty = some md)
    (l : String) (hl : ∀ op ∈ ops, match op with
      | .allocNode _ m _ => m ≠ l
      | .allocElem _ _ m _ => m ≠ l
      | .allocIpt _ _ m _ _ => m ≠ l
      | .write _ _ _ _ => True) : getFieldId md l = none := by
  suffices hh : ∀ (m : Md K) (T : Table K), Rep m T → getFieldId m l = none → run ops m = some md →
      getFieldId md l = none from hh _ _ rep_empty (by simp [empty, getFieldId]) h
  clear h
  induction ops with
  | nil => intro m T _ hn e; cases e; exact hn
  | cons op ops ih =>
    intro m T hR hn e
    simp only [run, List.foldlM_cons, Option.bind_eq_bind, Option.bind_eq_some_iff] at e
    obtain ⟨m', hm', e⟩ := e
    refine ih (fun o ho => hl o (List.mem_cons_of_mem _ ho)) m' _ (step_rep hR hm') ?_ e
    have h0 := hl op List.mem_cons_self
    cases op with
    | allocNode len a n =>
      simp only [step, Option.map_eq_some_iff, Prod.exists, exists_and_right, exists_eq_right] at hm'
      obtain ⟨id, hm'⟩ := hm'
      obtain ⟨-, -, hlb, -⟩ := allocNode_spec hR.1 hm'
      simpa [getFieldId, hlb] using ((register_wf hR.1 a).2.2.1 l (Ne.symm h0)).trans hn
    | allocElem b len a n =>
      simp only [step, Option.map_eq_some_iff, Prod.exists, exists_and_right, exists_eq_right] at hm'
      obtain ⟨id, hm'⟩ := hm'
      obtain ⟨-, -, hlb, -⟩ := allocElem_spec hR.1 hm'
      simpa [getFieldId, hlb] using ((register_wf hR.1 a).2.2.1 l (Ne.symm h0)).trans hn
    | allocIpt b len a n v =>
      simp only [step, Option.map_eq_some_iff, Prod.exists, exists_and_right, exists_eq_right] at hm'
      obtain ⟨id, hm'⟩ := hm'
      obtain ⟨-, -, hlb, -⟩ := allocIpt_spec hR.1 hm'
      simpa [getFieldId, hlb] using ((register_wf hR.1 a).2.2.1 l (Ne.symm h0)).trans hn
    | write p a t d =>
      simp only [step, Option.bind_eq_some_iff, Option.map_eq_some_iff] at hm'
      obtain ⟨id, hid, f, hf, rfl⟩ := hm'
      simpa [getFieldId, (setData_spec hR.1 p id d).2.1] using hn

/-! ## What the getters can never return -/

theorem table_ipt_types [Zero K] (ops : List (Op K)) (T : Table K)
    (hT : ∀ b s l f, T (.ipt b s) l = some f → f.type ≠ .scalarIntPt ∧ f.type ≠ .vectorIntPt) :
    ∀ b s l f, Table.run ops T (.ipt b s) l = some f → f.type ≠ .scalarIntPt ∧ f.type ≠ .vectorIntPt := by
  induction ops generalizing T with
  | nil => exact hT
  | cons op ops ih =>
    refine ih _ ?_
    intro b s l f hf
    cases op with
    | allocNode len m n =>
      simp only [Table.step, classAt_node, classAt_elem, classAt_ipt] at hf
      cases ht : nodeType len with
      | some t => simp only [ht, Table.put, reduceCtorEq, false_and, if_false] at hf; exact hT b s l f hf
      | none => rw [ht] at hf; exact hT b s l f hf
    | allocElem c len m n =>
      simp only [Table.step, classAt_node, classAt_elem, classAt_ipt] at hf
      cases ht : elemType len with
      | some t => simp only [ht, Table.put, reduceCtorEq, false_and, if_false] at hf; exact hT b s l f hf
      | none => rw [ht] at hf; exact hT b s l f hf
    | allocIpt c len m n v =>
      simp only [Table.step, classAt_node, classAt_elem, classAt_ipt] at hf
      cases ht : iptType len with
      | none => rw [ht] at hf; exact hT b s l f hf
      | some t =>
        have htt : t ≠ .scalarIntPt ∧ t ≠ .vectorIntPt := by
          cases len <;> simp [iptType] at ht <;> subst ht <;> simp
        simp only [ht, Table.put] at hf
        split at hf
        · cases hf; exact htt
        · split at hf
          · cases hf; exact htt
          · exact hT b s l f hf
    | write p m t d =>
      simp only [Table.step, classAt_node, classAt_elem, classAt_ipt] at hf
      cases hg : T p m with
      | none => rw [hg] at hf; exact hT b s l f hf
      | some g =>
        simp only [hg, Table.put] at hf
        split at hf
        · rename_i hq
          cases hf
          obtain ⟨rfl, rfl⟩ := hq
          exact hT b s l g hg
        · exact hT b s l f hf

/-- **C96, a limit.**  Scalar and vector integration-point data can be allocated, but after no history does
`GetDeviceScalarIntegrationPointData` or `GetDeviceVectorIntegrationPointData` return a view: the fields are
created with the classes for nodal data. -/
theorem scalar_vector_ipt_never_readable [Zero K] (ops : List (Op K)) (md : Md K) (h : run ops empty = some md)
    (b : ℤ) (s : Step) (l : String) :
    read md (.ipt b s) l .scalarIntPt = none ∧ read md (.ipt b s) l .vectorIntPt = none := by
  rw [registry_refines ops md h, registry_refines ops md h]
  have := table_ipt_types ops noFields (by simp [noFields]) b s l
  cases e : Table.run ops noFields (.ipt b s) l with
  | none => simp
  | some f => have := this f e; simp [Option.filter, this.1, this.2]

/-- The views of a label allocated twice at a place: the second allocation replaces the first, with its
contents (used for `stress` in `InitializeBlocks`). -/
theorem reallocation_replaces [Zero K] (ops : List (Op K)) (md md' : Md K) (h : run ops empty = some md)
    (b : ℤ) (len : Length) (t : FType) (ht : iptType len = some t) (l : String) (n : ℕ) (v : List K)
    (h' : step md (.allocIpt b len l n v) = some md') (s : Step) :
    read md' (.ipt b s) l t = some (fresh t n v) := by
  have h2 : run (ops ++ [.allocIpt b len l n v]) empty = some md' := by
    simp only [run] at h
    simp [run, List.foldlM_append, h, h']
  rw [registry_refines _ _ h2, Table.run, List.foldl_append]
  cases s <;> simp [Table.step, classAt_ipt, ht, Table.put, Option.filter, fresh]

/-! ## Non-vacuity -/

/-- A history with two blocks, a shared label, a re-allocation and writes. -/
def exOps : List (Op ℤ) :=
  [.allocNode .vector "displacement" 4, .allocIpt 1 .symTensor "stress" 2 [], .allocElem 1 .symTensor "stress" 2,
   .allocIpt 2 .symTensor "stress" 3 [1, 2, 3, 4, 5, 6],
   .write (.ipt 2 .np1) "stress" .symTensorIntPt (fun e q i => e + q + i),
   .write .node "displacement" .vectorNode (fun e _ _ => e)]

example : (run exOps empty).isSome = true := by decide +kernel
example : ((run exOps empty).bind fun md => (read md (.ipt 2 .np1) "stress" .symTensorIntPt).map fun f => f.data 2 7 5)
    = some 14 := by decide +kernel
example : ((run exOps empty).bind fun md => (read md (.ipt 2 .n) "stress" .symTensorIntPt).map fun f => f.data 2 7 5)
    = some 6 := by decide +kernel
example : ((run exOps empty).bind fun md => (read md (.ipt 1 .np1) "stress" .symTensorIntPt).map fun f => f.data 1 7 5)
    = some 0 := by decide +kernel
/-- A wrong type stops the run. -/
example : (run (exOps ++ [.write (.elem 1) "stress" .fullTensorElem (fun _ _ _ => 0)]) empty).isSome = false := by
  decide +kernel

end NimbleSM.Kokkos.Registry
