import Verif.Mesh.Genesis
import Mathlib.Algebra.Order.Field.Rat
import Mathlib.Tactic.Linarith
import Mathlib.Tactic.Ring
import Mathlib.Tactic.NormNum

/-!
# Lookups in a mesh (C58) and its bounding box (C87)
-/

namespace NimbleSM.Genesis

open NimbleSM.Fields (Str)

variable {K : Type}

/-! ## Maps -/

theorem IMap.get_nil {T : Type} (k : ℤ) : IMap.get ([] : IMap T) k = none := rfl

theorem IMap.get_cons {T : Type} (p : ℤ × T) (m : IMap T) (k : ℤ) : IMap.get (p :: m) k = if p.1 = k then some p.2 else IMap.get m k := by
  unfold IMap.get
  rw [List.find?_cons]
  by_cases h : p.1 = k
  · simp [h]
  · rw [if_neg h, show (p.1 == k) = false by simpa using h]

theorem IMap.get_set {T : Type} (k : ℤ) (v : T) (m : IMap T) (k' : ℤ) : (IMap.set k v m).get k' = if k' = k then some v else m.get k' := by
  induction m with
  | nil =>
    rw [IMap.set, IMap.get_cons, IMap.get_nil]
    simp only [eq_comm]
  | cons p m ih =>
    obtain ⟨a, b⟩ := p
    rw [IMap.set]
    by_cases h1 : k < a
    · rw [if_pos h1, IMap.get_cons]
      by_cases h : k' = k
      · simp [h]
      · rw [if_neg (by simpa [eq_comm] using h), if_neg h]
    · rw [if_neg h1]
      by_cases h2 : k = a
      · subst h2
        rw [if_pos rfl, IMap.get_cons, IMap.get_cons]
        by_cases h : k' = k
        · simp [h]
        · rw [if_neg h, if_neg (by simpa [eq_comm] using h), if_neg (by simpa [eq_comm] using h)]
      · rw [if_neg h2, IMap.get_cons, IMap.get_cons, ih]
        by_cases h : k' = k
        · subst h
          simp [Ne.symm h2]
        · simp [h]

/-- The entries are in the order of their keys. -/
def IMap.Sorted {T : Type} (m : IMap T) : Prop := m.Pairwise fun p q => p.1 < q.1

theorem IMap.mem_set {T : Type} {k : ℤ} {v : T} {m : IMap T} {p : ℤ × T} (h : p ∈ IMap.set k v m) : p = (k, v) ∨ p ∈ m := by
  induction m with
  | nil => simpa [IMap.set] using h
  | cons q m ih =>
    obtain ⟨a, b⟩ := q
    rw [IMap.set] at h
    split_ifs at h with h1 h2
    · simpa using h
    · rcases List.mem_cons.mp h with h | h
      · exact Or.inl h
      · exact Or.inr (by simp [h])
    · rcases List.mem_cons.mp h with h | h
      · exact Or.inr (by simp [h])
      · rcases ih h with h | h
        · exact Or.inl h
        · exact Or.inr (by simp [h])

/-- `operator[]` keeps the order. -/
theorem IMap.Sorted.set {T : Type} {m : IMap T} (h : m.Sorted) (k : ℤ) (v : T) : (IMap.set k v m).Sorted := by
  induction m with
  | nil => exact List.pairwise_singleton _ _
  | cons q m ih =>
    obtain ⟨a, b⟩ := q
    obtain ⟨ha, hm⟩ := List.pairwise_cons.mp h
    rw [IMap.set]
    split_ifs with h1 h2
    · refine List.pairwise_cons.mpr ⟨?_, h⟩
      intro p hp
      rcases List.mem_cons.mp hp with rfl | hp
      · exact h1
      · exact h1.trans (ha p hp)
    · subst h2
      exact List.pairwise_cons.mpr ⟨ha, hm⟩
    · refine List.pairwise_cons.mpr ⟨?_, ih hm⟩
      intro p hp
      rcases IMap.mem_set hp with rfl | hp
      · show a < k; omega
      · exact ha p hp

theorem IMap.get_of_mem {T : Type} {m : IMap T} (h : m.Sorted) {k : ℤ} {v : T} (hm : (k, v) ∈ m) : m.get k = some v := by
  induction m with
  | nil => cases hm
  | cons q m ih =>
    obtain ⟨ha, hs⟩ := List.pairwise_cons.mp h
    rw [IMap.get_cons]
    rcases List.mem_cons.mp hm with rfl | hm
    · simp
    · rw [if_neg (by have := ha _ hm; simp only at this; omega)]
      exact ih hs hm

theorem IMap.mem_of_get {T : Type} {m : IMap T} {k : ℤ} {v : T} (h : m.get k = some v) : (k, v) ∈ m := by
  induction m with
  | nil => cases h
  | cons q m ih =>
    rw [IMap.get_cons] at h
    split_ifs at h with hk
    · obtain ⟨a, b⟩ := q
      simp only [Option.some.injEq] at h
      subst hk h; simp
    · exact List.mem_cons_of_mem _ (ih h)

/-! ## C58 -/

/-- The block `id` is on this processor and has this name. -/
def Mesh.Named (m : Mesh K) (id : ℤ) (name : Str) : Prop := m.blockNames.get id = some name

/-- Block `name` is on this processor. -/
def Mesh.Present (m : Mesh K) (name : Str) : Prop := ∃ id, m.Named id name

theorem hasBlock_iff {m : Mesh K} (hs : m.blockNames.Sorted) (name : Str) : m.hasBlock name = true ↔ m.Present name := by
  unfold Mesh.hasBlock
  rw [List.any_eq_true]
  constructor
  · rintro ⟨⟨id, n⟩, hm, hn⟩
    simp only [beq_iff_eq] at hn
    subst hn
    exact ⟨id, IMap.get_of_mem hs hm⟩
  · rintro ⟨id, h⟩
    exact ⟨_, IMap.mem_of_get h, by simp⟩

/-- `GetBlockId` returns a block of that name, the one with the smallest id, and throws only if there is none. -/
theorem get_block_id {m : Mesh K} (hs : m.blockNames.Sorted) (name : Str) :
    (∀ id, m.getBlockId name = some id ↔ (m.Named id name ∧ ∀ id', m.Named id' name → id ≤ id')) ∧
    (m.getBlockId name = none ↔ ¬m.Present name) := by
  have key : ∀ (l : IMap Str), IMap.Sorted l → ∀ id, ((l.find? fun e => e.2 == name).map Prod.fst = some id ↔
      (IMap.get l id = some name ∧ ∀ id', IMap.get l id' = some name → id ≤ id')) := by
    intro l
    induction l with
    | nil => intro _ id; simp [IMap.get_nil]
    | cons p l ih =>
      intro hl id
      obtain ⟨a, b⟩ := p
      obtain ⟨ha, hl'⟩ := List.pairwise_cons.mp hl
      have hlt : ∀ id', IMap.get l id' = some name → a < id' := fun id' h => ha _ (IMap.mem_of_get h)
      rw [List.find?_cons]
      by_cases hb : b = name
      · subst hb
        simp only [beq_self_eq_true, Option.map_some, Option.some.injEq, IMap.get_cons]
        constructor
        · rintro rfl
          refine ⟨by simp, fun id' h => ?_⟩
          split_ifs at h with h'
          · exact h'.le
          · exact (hlt id' h).le
        · rintro ⟨h1, h2⟩
          have := h2 a (by simp)
          split_ifs at h1 with h'
          · exact h'
          · have := hlt id h1; omega
      · have : (b == name) = false := by simpa using hb
        simp only [this]
        rw [ih hl' id]
        simp only [IMap.get_cons]
        constructor
        · rintro ⟨h1, h2⟩
          have h3 := hlt id h1
          refine ⟨by rw [if_neg (by omega)]; exact h1, fun id' h => ?_⟩
          split_ifs at h with h'
          · simp only [Option.some.injEq] at h; exact absurd h hb
          · exact h2 id' h
        · rintro ⟨h1, h2⟩
          split_ifs at h1 with h'
          · simp only [Option.some.injEq] at h1; exact absurd h1 hb
          · exact ⟨h1, fun id' h => h2 id' (by rw [if_neg (by have := hlt id' h; omega)]; exact h)⟩
  refine ⟨key m.blockNames hs, ?_⟩
  rw [← hasBlock_iff hs, Mesh.getBlockId, Option.map_eq_none_iff, List.find?_eq_none, Mesh.hasBlock, List.any_eq_true]
  push Not
  rfl

theorem blockNamesLoop_spec {m : Mesh K} (hs : m.blockNames.Sorted) (names : List Str) : ∀ ids,
    ∃ more, m.blockNamesLoop names ids = some (ids ++ more) ∧ more = names.filterMap m.getBlockId := by
  induction names with
  | nil => intro ids; exact ⟨[], by simp [Mesh.blockNamesLoop], rfl⟩
  | cons name names ih =>
    intro ids
    rw [Mesh.blockNamesLoop]
    by_cases h : m.hasBlock name = true
    · rw [if_pos h]
      cases hg : m.getBlockId name with
      | none => exact absurd ((hasBlock_iff hs name).mp h) ((get_block_id hs name).2.mp hg)
      | some id =>
        obtain ⟨more, h1, h2⟩ := ih (ids ++ [id])
        refine ⟨id :: more, by simp only [h1]; simp, by rw [h2, List.filterMap_cons_some hg]⟩
    · rw [if_neg h]
      obtain ⟨more, h1, h2⟩ := ih ids
      have hg : m.getBlockId name = none := (get_block_id hs name).2.mpr (fun hp => h ((hasBlock_iff hs name).mpr hp))
      exact ⟨more, h1, by rw [h2, List.filterMap_cons_none hg]⟩

theorem blockNames_eq {m : Mesh K} (hs : m.blockNames.Sorted) (names : List Str) :
    m.blockNamesToOnProcessorBlockIds names = some (names.filterMap m.getBlockId) := by
  obtain ⟨more, h1, h2⟩ := blockNamesLoop_spec hs names []
  rw [Mesh.blockNamesToOnProcessorBlockIds, h1, h2, List.nil_append]

open Classical in
/-- **C58 (partial).**  In a mesh whose block names are distinct, the list for `names` consists of the ids of those blocks of
`names` that are on this processor, in the order of `names`.  Missing: names of blocks the mesh does not have are not rejected
(`unknown_block_ignored`), and of several blocks with the same name only one is found (`duplicate_name_dropped`). -/
theorem block_lookup_partial (m : Mesh K) (hs : m.blockNames.Sorted)
    (hd : ∀ id id' name, m.Named id name → m.Named id' name → id = id') (names : List Str) :
    ∃ ids, m.blockNamesToOnProcessorBlockIds names = some ids ∧
      ids.map m.blockNames.get = (names.filter fun n => m.Present n).map some ∧
      ∀ id, id ∈ ids ↔ ∃ name ∈ names, m.Named id name := by
  refine ⟨_, blockNames_eq hs names, ?_, ?_⟩
  · induction names with
    | nil => rfl
    | cons name names ih =>
      cases hg : m.getBlockId name with
      | none =>
        rw [List.filterMap_cons_none hg, List.filter_cons_of_neg (by simpa using (get_block_id hs name).2.mp hg), ih]
      | some id =>
        have hn := (((get_block_id hs name).1 id).mp hg).1
        rw [List.filterMap_cons_some hg, List.filter_cons_of_pos (by simpa using ⟨id, hn⟩), List.map_cons, List.map_cons, ih]
        rw [show m.blockNames.get id = some name from hn]
  · intro id
    rw [List.mem_filterMap]
    constructor
    · rintro ⟨name, hn, hg⟩
      exact ⟨name, hn, (((get_block_id hs name).1 id).mp hg).1⟩
    · rintro ⟨name, hn, hg⟩
      exact ⟨name, hn, ((get_block_id hs name).1 id).mpr ⟨hg, fun id' h => (hd id id' name hg h).le⟩⟩

/-- **C58 fails: unknown names are not rejected.**  A name that no block has changes nothing, on any mesh, at any place of any list. -/
theorem unknown_block_ignored (m : Mesh K) (hs : m.blockNames.Sorted) (name : Str) (h : ¬m.Present name) (before after : List Str) :
    m.blockNamesToOnProcessorBlockIds (before ++ name :: after) = m.blockNamesToOnProcessorBlockIds (before ++ after) ∧
      m.blockNamesToOnProcessorBlockIds (before ++ name :: after) ≠ none := by
  have hg := (get_block_id hs name).2.mpr h
  rw [blockNames_eq hs, blockNames_eq hs]
  simp [List.filterMap_append, List.filterMap_cons_none hg]

/-- **C58 fails: blocks with the same name.**  Only the block with the smallest id is ever found. -/
theorem duplicate_name_dropped (m : Mesh K) (hs : m.blockNames.Sorted) (id id' : ℤ) (name : Str) (h : m.Named id name)
    (h' : m.Named id' name) (hlt : id < id') (names : List Str) (ids : List ℤ)
    (hids : m.blockNamesToOnProcessorBlockIds names = some ids) : id' ∉ ids := by
  rw [blockNames_eq hs] at hids
  simp only [Option.some.injEq] at hids
  subst hids
  rw [List.mem_filterMap]
  rintro ⟨n, -, hg⟩
  obtain ⟨h1, h2⟩ := ((get_block_id hs n).1 id').mp hg
  have : n = name := by
    unfold Mesh.Named at h1 h'
    rw [h1] at h'
    simpa using h'
  subst this
  have := h2 id h
  omega

/-- A mesh with three blocks. -/
def demoNames : Mesh ℚ := { blockNames := [(1, "left".toList), (5, "right".toList), (7, "tool".toList)] }

example : demoNames.blockNames.Sorted := by
  unfold IMap.Sorted demoNames; decide

example : demoNames.blockNamesToOnProcessorBlockIds ["tool".toList, "lift".toList, "left".toList] = some [7, 1] := by decide +kernel

example : ¬demoNames.Present "lift".toList := by
  have hs : demoNames.blockNames.Sorted := by unfold IMap.Sorted demoNames; decide
  rw [← hasBlock_iff hs]
  decide +kernel

/-- The names of `demoNames` are distinct. -/
example : ∀ id id' name, demoNames.Named id name → demoNames.Named id' name → id = id' := by
  intro id id' name h h'
  have a := IMap.mem_of_get h
  have b := IMap.mem_of_get h'
  simp only [demoNames, List.mem_cons, List.not_mem_nil, or_false, Prod.mk.injEq] at a b
  have h12 : "left".toList ≠ "right".toList := by decide
  have h13 : "left".toList ≠ "tool".toList := by decide
  have h23 : "right".toList ≠ "tool".toList := by decide
  rcases a with ⟨rfl, rfl⟩ | ⟨rfl, rfl⟩ | ⟨rfl, rfl⟩ <;> rcases b with ⟨rfl, h⟩ | ⟨rfl, h⟩ | ⟨rfl, h⟩ <;>
    first | rfl | exact absurd h (by decide)

/-- Two blocks with the same name. -/
example : ({ blockNames := [(2, "a".toList), (9, "a".toList)] } : Mesh ℚ).blockNamesToOnProcessorBlockIds ["a".toList, "a".toList] =
    some [2, 2] := by decide +kernel

/-! ## Largest node id -/

/-- `GetMaxNodeGlobalId` is the largest id of a mesh with nodes (ids are not negative). -/
theorem max_node_global_id (m : Mesh K) (hne : m.nodeGid ≠ []) (h0 : ∀ id ∈ m.nodeGid, 0 ≤ id) :
    m.getMaxNodeGlobalId ∈ m.nodeGid ∧ ∀ id ∈ m.nodeGid, id ≤ m.getMaxNodeGlobalId := by
  have key : ∀ (l : List ℤ) (a : ℤ), let r := l.foldl (fun mx id => if id > mx then id else mx) a
      (r = a ∨ r ∈ l) ∧ a ≤ r ∧ ∀ id ∈ l, id ≤ r := by
    intro l
    induction l with
    | nil => intro a; simp
    | cons x l ih =>
      intro a
      obtain ⟨h1, h2, h3⟩ := ih (if x > a then x else a)
      simp only [List.foldl_cons]
      refine ⟨?_, ?_, ?_⟩
      · rcases h1 with h1 | h1
        · rw [h1]; split_ifs <;> simp
        · exact Or.inr (List.mem_cons_of_mem _ h1)
      · refine le_trans ?_ h2; split_ifs <;> omega
      · intro id hid
        rcases List.mem_cons.mp hid with rfl | hid
        · refine le_trans ?_ h2; split_ifs <;> omega
        · exact h3 id hid
  obtain ⟨h1, h2, h3⟩ := key m.nodeGid (-1)
  refine ⟨?_, h3⟩
  rcases h1 with h1 | h1
  · obtain ⟨x, hx⟩ := List.exists_mem_of_ne_nil _ hne
    have := h3 x hx
    have := h0 x hx
    have h1' : m.getMaxNodeGlobalId = -1 := h1
    have h3' : x ≤ m.getMaxNodeGlobalId := h3 x hx
    omega
  · exact h1

/-! ## C87: bounding box -/

section Box
variable [Field K] [LinearOrder K] [IsStrictOrderedRing K]

omit [IsStrictOrderedRing K] in
theorem boxLoop_spec (l : List K) : ∀ b : K × K, (boxLoop l b).1 ≤ b.1 ∧ b.2 ≤ (boxLoop l b).2 ∧
    (∀ x ∈ l, (boxLoop l b).1 ≤ x ∧ x ≤ (boxLoop l b).2) ∧ ((boxLoop l b).1 = b.1 ∨ (boxLoop l b).1 ∈ l) ∧
    ((boxLoop l b).2 = b.2 ∨ (boxLoop l b).2 ∈ l) := by
  induction l with
  | nil => intro b; simp [boxLoop]
  | cons x l ih =>
    intro b
    rw [boxLoop]
    obtain ⟨h1, h2, h3, h4, h5⟩ := ih (if x < b.1 then x else b.1, if x > b.2 then x else b.2)
    simp only at h1 h2 h4 h5
    have a1 : (if x < b.1 then x else b.1) ≤ b.1 := by split_ifs with h <;> [exact h.le; exact le_rfl]
    have a2 : (if x < b.1 then x else b.1) ≤ x := by split_ifs with h <;> [exact le_rfl; exact not_lt.mp h]
    have a3 : b.2 ≤ (if x > b.2 then x else b.2) := by split_ifs with h <;> [exact le_of_lt h; exact le_rfl]
    have a4 : x ≤ (if x > b.2 then x else b.2) := by split_ifs with h <;> [exact le_rfl; exact not_lt.mp h]
    refine ⟨h1.trans a1, a3.trans h2, ?_, ?_, ?_⟩
    · intro y hy
      rcases List.mem_cons.mp hy with rfl | hy
      · exact ⟨h1.trans a2, a4.trans h2⟩
      · exact h3 y hy
    · rcases h4 with h4 | h4
      · rw [h4]; split_ifs <;> simp
      · exact Or.inr (List.mem_cons_of_mem _ h4)
    · rcases h5 with h5 | h5
      · rw [h5]; split_ifs <;> simp
      · exact Or.inr (List.mem_cons_of_mem _ h5)

/-- `(lo, hi)` is the smallest interval that contains `l`. -/
def IsRange (l : List K) (b : K × K) : Prop := b.1 ∈ l ∧ b.2 ∈ l ∧ ∀ x ∈ l, b.1 ≤ x ∧ x ≤ b.2

theorem boxLoop_range (big : K) (l : List K) (hne : l ≠ []) (hb : ∀ x ∈ l, -big ≤ x ∧ x ≤ big) : IsRange l (boxLoop l (big, -1 * big)) := by
  obtain ⟨h1, h2, h3, h4, h5⟩ := boxLoop_spec l (big, -1 * big)
  obtain ⟨x, hx⟩ := List.exists_mem_of_ne_nil _ hne
  simp only at h1 h2 h4 h5
  refine ⟨?_, ?_, h3⟩
  · rcases h4 with h4 | h4
    · have : x = big := le_antisymm (hb x hx).2 (h4 ▸ (h3 x hx).1)
      rw [h4, ← this]; exact hx
    · exact h4
  · rcases h5 with h5 | h5
    · have : x = -1 * big := le_antisymm (h5 ▸ (h3 x hx).2) (by have := (hb x hx).1; linarith)
      rw [h5, ← this]; exact hx
    · exact h5

/-- **C87.**  The bounding box of a mesh with nodes is the smallest box that contains them, and its centre is the middle of the box.
`big` is the largest finite `double`, so that every finite coordinate meets the bounds. -/
theorem bounding_box (big : K) (m : Mesh K) (hx : m.x ≠ []) (hy : m.y.length = m.x.length) (hz : m.z.length = m.x.length)
    (hb : ∀ c, c ∈ m.x ∨ c ∈ m.y ∨ c ∈ m.z → -big ≤ c ∧ c ≤ big) :
    let b := m.boundingBox big
    IsRange m.x b.1 ∧ IsRange m.y b.2.1 ∧ IsRange m.z b.2.2 ∧
      ∃ c, m.boundingBoxCenter big = c ∧ c.1 - b.1.1 = b.1.2 - c.1 ∧ c.2.1 - b.2.1.1 = b.2.1.2 - c.2.1 ∧ c.2.2 - b.2.2.1 = b.2.2.2 - c.2.2 := by
  have hl := List.length_pos_iff.mpr hx
  refine ⟨boxLoop_range big _ hx fun c hc => hb c (Or.inl hc),
    boxLoop_range big _ (List.ne_nil_of_length_pos (by omega)) fun c hc => hb c (Or.inr (Or.inl hc)),
    boxLoop_range big _ (List.ne_nil_of_length_pos (by omega)) fun c hc => hb c (Or.inr (Or.inr hc)), _, rfl, ?_, ?_, ?_⟩ <;>
  · simp only [Mesh.boundingBoxCenter]; ring

/-- A mesh without nodes has an inverted box, and its centre is the origin. -/
theorem bounding_box_empty (big : K) (m : Mesh K) (hx : m.x = []) (hy : m.y = []) (hz : m.z = []) :
    m.boundingBox big = ((big, -big), (big, -big), (big, -big)) ∧ m.boundingBoxCenter big = (0, 0, 0) := by
  constructor
  · simp [Mesh.boundingBox, hx, hy, hz, boxLoop]
  · simp [Mesh.boundingBoxCenter, Mesh.boundingBox, hx, hy, hz, boxLoop]

end Box

/-- A box of three nodes. -/
def demoBox : Mesh ℚ := { x := [1, -2, 4], y := [0, 0, 0], z := [5, 7, 6] }

example : demoBox.boundingBox 1000 = ((-2, 4), (0, 0), (5, 7)) ∧ demoBox.boundingBoxCenter 1000 = (1, 0, 6) := by decide +kernel

example : demoBox.x ≠ [] ∧ demoBox.y.length = demoBox.x.length ∧ ∀ c, c ∈ demoBox.x ∨ c ∈ demoBox.y ∨ c ∈ demoBox.z → -1000 ≤ c ∧ c ≤ 1000 := by
  refine ⟨by simp [demoBox], rfl, ?_⟩
  intro c
  simp only [demoBox, List.mem_cons, List.not_mem_nil, or_false]
  rintro ((rfl | rfl | rfl) | (rfl | rfl | rfl) | rfl | rfl | rfl) <;> norm_num

/-! ## Meshes built from arrays -/

/-- A mesh initialised from arrays is three-dimensional: the element type of a block follows from the number of nodes per element. -/
theorem element_type_of_data {K : Type} (nodeGid : List ℤ) (x y z : List K) (elemGid blockIds : List ℤ) (blockNames : IMap Str)
    (blockElemGids : IMap (List ℤ)) (nodesPerElem : IMap ℤ) (conn : IMap (List ℤ)) (b n : ℤ) (hn : nodesPerElem.get b = some n) :
    let m := Mesh.ofData nodeGid x y z elemGid blockIds blockNames blockElemGids nodesPerElem conn
    (n = 1 → m.getElementType b = some "SPHERE".toList) ∧ (n = 3 → m.getElementType b = some "TRIANGLE".toList) ∧
    (n = 4 → m.getElementType b = some "TETRA".toList) ∧ (n = 8 → m.getElementType b = some "HEX".toList) ∧
    (n ≠ 1 → n ≠ 3 → n ≠ 4 → n ≠ 8 → m.getElementType b = none) := by
  intro m
  have e : m.getElementType b = (nodesPerElem.get b).bind fun n =>
      if n = 1 then some "SPHERE".toList
      else if n = 3 then some "TRIANGLE".toList
      else if n = 4 then some "TETRA".toList
      else if n = 8 then some "HEX".toList
      else none := rfl
  rw [e, hn, Option.bind_some]
  refine ⟨?_, ?_, ?_, ?_, ?_⟩
  · rintro rfl; rfl
  · rintro rfl; rfl
  · rintro rfl; rfl
  · rintro rfl; rfl
  · intro h1 h2 h3 h4
    rw [if_neg h1, if_neg h2, if_neg h3, if_neg h4]

/-- ... and the look-ups return the arrays it was given. -/
theorem of_data_lookup {K : Type} (nodeGid : List ℤ) (x y z : List K) (elemGid blockIds : List ℤ) (blockNames : IMap Str)
    (blockElemGids : IMap (List ℤ)) (nodesPerElem : IMap ℤ) (conn : IMap (List ℤ)) (b : ℤ) :
    let m := Mesh.ofData nodeGid x y z elemGid blockIds blockNames blockElemGids nodesPerElem conn
    m.getBlockName b = blockNames.get b ∧ m.getNumNodesPerElement b = nodesPerElem.get b ∧
    (∀ name, m.hasBlock name = true ↔ ∃ e ∈ blockNames, e.2 = name) ∧
    ∀ (c : List ℤ) (n : ℤ), conn.get b = some c → nodesPerElem.get b = some n → n ≠ 0 →
      m.getNumElementsInBlock b = some (Int.tdiv c.length n) := by
  refine ⟨rfl, rfl, fun name => by simp [Mesh.hasBlock, Mesh.ofData], ?_⟩
  intro c n hc hn h0
  show (conn.get b).bind (fun c => (nodesPerElem.get b).bind fun n =>
    if c.length > 0 then (if n = 0 then none else some (Int.tdiv c.length n)) else some 0) = _
  rw [hc, hn, Option.bind_some, Option.bind_some]
  by_cases h : c.length > 0
  · rw [if_pos h, if_neg h0]
  · have : c = [] := by cases c with
      | nil => rfl
      | cons _ _ => simp at h
    subst this
    simp

example : (Mesh.ofData [1, 2, 3] [(0 : ℚ), 1, 0] [0, 0, 1] [0, 0, 0] [1] [7] [(7, "tri".toList)] [(7, [1])] [(7, 3)] [(7, [0, 1, 2])]).getElementType 7
    = some "TRIANGLE".toList := by decide +kernel

end NimbleSM.Genesis
