import Verif.Contact.SubmodelProps
import Verif.Mpi.ReductionProps

/-!
# C86: which rank owns a contact node
-/

namespace NimbleSM.Contact

open NimbleSM.Mpi

/-! ## Specification -/

/-- The contact manager `m` of a rank with global node ids `ids` has a contact node for global node `g`. -/
def HasContactNode (m : Manager ℝ) (ids : List Int) (g : Int) : Prop := ∃ e ∈ m.nodes, ids[meshNode m e.node1]? = some g

/-- Global node `g` belongs to a face of the list (local node numbers of a rank with global ids `ids`). -/
def OnFaces (faces : List Face) (ids : List Int) (g : Int) : Prop := ∃ f ∈ faces, ∃ a ∈ f.nodes, ids[a]? = some g

/-- `r` is the smallest rank that holds global node `g`. -/
def IsOwner {R : ℕ} (ids : Fin R → List Int) (r : Fin R) (g : Int) : Prop := g ∈ ids r ∧ ∀ r', g ∈ ids r' → r ≤ r'

/-! ## Proof -/

theorem mem_ghostedNodes {R : ℕ} (rank : Fin R) (out : List (ℕ × Fin R)) (a : ℕ) :
    a ∈ ghostedNodes rank (out.map Prod.fst) (out.map fun p => (p.2 : ℕ)) ↔ ∃ m, (a, m) ∈ out ∧ m ≠ rank := by
  unfold ghostedNodes
  simp only [List.length_map, List.mem_filterMap, List.mem_range]
  constructor
  · rintro ⟨i, hi, h⟩
    rw [List.getD_eq_getElem _ _ (by simpa using hi), List.getD_eq_getElem _ _ (by simpa using hi)] at h
    simp only [List.getElem_map] at h
    by_cases hr : (out[i].2 : ℕ) = rank
    · simp [hr] at h
    · simp only [ne_eq, hr, not_false_eq_true, if_true, Option.some.injEq] at h
      refine ⟨out[i].2, ?_, fun e => hr (by rw [e])⟩
      rw [← h]
      exact List.getElem_mem hi
  · rintro ⟨m, hm, hne⟩
    obtain ⟨i, hi, he⟩ := List.getElem_of_mem hm
    refine ⟨i, hi, ?_⟩
    rw [List.getD_eq_getElem _ _ (by simpa using hi), List.getD_eq_getElem _ _ (by simpa using hi)]
    simp only [List.getElem_map, he]
    rw [if_pos]
    intro e
    exact hne (Fin.ext e)

/-- **C86.**  After `CreateContactEntities` on all ranks, with the ghost list of `GetPartitionBoundaryNodeLocalIds`, a rank has a
contact node for a global node exactly if it is the smallest rank that holds the node and the node is on its own part of the
secondary skin; it has it once. -/
theorem contact_node_owner {R : ℕ} (ids : Fin R → List Int) (hn : ∀ r, (ids r).Nodup) (cl : Fin R → List Clique)
    (hcl : ∀ r, generateReductionInfo ids r = some (cl r)) (r : Fin R) {out : List (ℕ × Fin R)} (hout : getAllIndices cl r = some out)
    {penalty : ℝ} {X : ℕ → Fin 3 → ℝ} {nodeGid : ℕ → ℕ} {offset : ℕ} {primary secondary : List Face}
    (h4 : ∀ f ∈ primary ++ secondary, f.nodes.length = 4) (hin : ∀ f ∈ secondary, ∀ a ∈ f.nodes, a < (ids r).length)
    {m : Manager ℝ} (h : createEntities penalty X nodeGid offset primary secondary
      (ghostedNodes r (out.map Prod.fst) (out.map fun p => (p.2 : ℕ))) = some m) :
    (∀ g, HasContactNode m (ids r) g ↔ IsOwner ids r g ∧ OnFaces secondary (ids r) g) ∧
    (m.nodes.map fun e => (ids r)[meshNode m e.node1]?).Nodup := by
  obtain ⟨out', ho, hnd, hspec⟩ := partition_boundary_spec ids hn cl hcl r
  rw [hout, Option.some.injEq] at ho
  subst ho
  obtain ⟨m', hm', -, -, -, -, -, -, hnodup, hmem, -⟩ := submodel_spec penalty X nodeGid offset primary secondary
    (ghostedNodes r (out.map Prod.fst) (out.map fun p => (p.2 : ℕ))) h4
  rw [h, Option.some.injEq] at hm'
  subst hm'
  -- owned local nodes
  have howned : ∀ a (ha : a < (ids r).length),
      a ∉ ghostedNodes r (out.map Prod.fst) (out.map fun p => (p.2 : ℕ)) ↔ IsOwner ids r (ids r)[a] := by
    intro a ha
    rw [mem_ghostedNodes]
    constructor
    · intro hno
      refine ⟨List.getElem_mem ha, fun r' hr' => ?_⟩
      by_contra hlt
      -- the smallest rank holding the node
      have hne : (Finset.univ.filter fun q : Fin R => (ids r)[a] ∈ ids q).Nonempty := ⟨r, by simp⟩
      obtain ⟨q, hq, hmin⟩ := Finset.exists_min_image _ id hne
      simp only [Finset.mem_filter, Finset.mem_univ, true_and, id] at hq hmin
      refine hno ⟨q, (hspec a q).mpr ⟨ha, ⟨r', fun e => hlt (e ▸ le_refl _), hr'⟩, hq, fun q' hq' => hmin q' hq'⟩, ?_⟩
      intro e
      have := hmin r' hr'
      rw [e] at this
      exact hlt this
    · rintro ⟨-, hmin⟩ ⟨q, hq, hne⟩
      obtain ⟨ha', -, hq', hqmin⟩ := (hspec a q).mp hq
      exact hne (le_antisymm (hqmin r (List.getElem_mem ha)) (hmin q hq'))
  have hdom : ∀ e ∈ m.nodes, meshNode m e.node1 < (ids r).length := by
    intro e he
    obtain ⟨-, f, hf, ha⟩ := (hmem _).mp (List.mem_map_of_mem (f := fun e => meshNode m e.node1) he)
    exact hin f hf _ ha
  constructor
  · intro g
    constructor
    · rintro ⟨e, he, hg⟩
      have hlt := hdom e he
      obtain ⟨hgh, f, hf, ha⟩ := (hmem _).mp (List.mem_map_of_mem (f := fun e => meshNode m e.node1) he)
      have hg' : (ids r)[meshNode m e.node1] = g := by
        rw [List.getElem?_eq_getElem hlt, Option.some.injEq] at hg; exact hg
      exact ⟨hg' ▸ (howned _ hlt).mp hgh, f, hf, _, ha, hg⟩
    · rintro ⟨hown, f, hf, a, ha, hg⟩
      have hlt := hin f hf a ha
      have hg' : (ids r)[a] = g := by
        rw [List.getElem?_eq_getElem hlt, Option.some.injEq] at hg; exact hg
      have := (hmem a).mpr ⟨(howned a hlt).mpr (hg' ▸ hown), f, hf, ha⟩
      obtain ⟨e, he, hea⟩ := List.mem_map.mp this
      exact ⟨e, he, by rw [hea]; exact hg⟩
  · have heq : (m.nodes.map fun e => (ids r)[meshNode m e.node1]?) = (m.nodes.map fun e => meshNode m e.node1).map fun a => (ids r)[a]? := by
      rw [List.map_map]; rfl
    rw [heq]
    refine List.Nodup.map_on ?_ hnodup
    intro x hx y hy hxy
    obtain ⟨e, he, rfl⟩ := List.mem_map.mp hx
    obtain ⟨e', he', rfl⟩ := List.mem_map.mp hy
    rw [List.getElem?_eq_getElem (hdom e he), List.getElem?_eq_getElem (hdom e' he'), Option.some.injEq] at hxy
    exact (List.Nodup.getElem_inj_iff (hn r)).mp hxy

/-- The contact managers `m` of all ranks, built by `CreateContactEntities` from the skins of the ranks. -/
def CreatedOnAllRanks {R : ℕ} (ids : Fin R → List Int) (primary secondary : Fin R → List Face) (m : Fin R → Manager ℝ) : Prop :=
  ∃ cl : Fin R → List Clique, ∀ r, generateReductionInfo ids r = some (cl r) ∧ ∃ out, getAllIndices cl r = some out ∧
    ∃ (penalty : ℝ) (X : ℕ → Fin 3 → ℝ) (nodeGid : ℕ → ℕ) (offset : ℕ), createEntities penalty X nodeGid offset (primary r) (secondary r)
      (ghostedNodes r (out.map Prod.fst) (out.map fun p => (p.2 : ℕ))) = some (m r)

/-- Faces are quadrilaterals of local nodes. -/
def FacesOk {R : ℕ} (ids : Fin R → List Int) (primary secondary : Fin R → List Face) : Prop :=
  ∀ r, ∀ f ∈ primary r ++ secondary r, f.nodes.length = 4 ∧ ∀ a ∈ f.nodes, a < (ids r).length

theorem created_exists {R : ℕ} (ids : Fin R → List Int) (hn : ∀ r, (ids r).Nodup) (primary secondary : Fin R → List Face)
    (hok : FacesOk ids primary secondary) : ∃ m, CreatedOnAllRanks ids primary secondary m := by
  obtain ⟨cl, hcl⟩ := initialize_succeeds ids hn
  have : ∀ r, ∃ m, ∃ out, getAllIndices cl r = some out ∧
      ∃ (penalty : ℝ) (X : ℕ → Fin 3 → ℝ) (nodeGid : ℕ → ℕ) (offset : ℕ), createEntities penalty X nodeGid offset (primary r) (secondary r)
      (ghostedNodes r (out.map Prod.fst) (out.map fun p => (p.2 : ℕ))) = some m := by
    intro r
    obtain ⟨out, ho, -⟩ := partition_boundary_spec ids hn cl hcl r
    obtain ⟨m, hm, -⟩ := submodel_spec 1 (fun _ _ => 0) (fun a => a) 0 (primary r) (secondary r)
      (ghostedNodes r (out.map Prod.fst) (out.map fun p => (p.2 : ℕ))) (fun f hf => (hok r f hf).1)
    exact ⟨m, out, ho, _, _, _, _, hm⟩
  choose m hm using this
  exact ⟨m, cl, fun r => ⟨hcl r, hm r⟩⟩

/-- **C86 (partial).**  No global node has contact nodes on two ranks; and a node of the secondary skin has a contact node on the
smallest rank that holds it, provided it is on that rank's own part of the secondary skin.  Missing: nodes for which the proviso
fails, see `contact_node_missing`. -/
theorem contact_node_unique_partial {R : ℕ} (ids : Fin R → List Int) (hn : ∀ r, (ids r).Nodup) (primary secondary : Fin R → List Face)
    (hok : FacesOk ids primary secondary) (m : Fin R → Manager ℝ) (hm : CreatedOnAllRanks ids primary secondary m) (g : Int) :
    (∀ r r', HasContactNode (m r) (ids r) g → HasContactNode (m r') (ids r') g → r = r') ∧
    (∀ r, HasContactNode (m r) (ids r) g ↔ IsOwner ids r g ∧ OnFaces (secondary r) (ids r) g) ∧
    (∀ r, ((m r).nodes.map fun e => (ids r)[meshNode (m r) e.node1]?).Nodup) := by
  obtain ⟨cl, hcl⟩ := hm
  have key : ∀ r, (∀ g, HasContactNode (m r) (ids r) g ↔ IsOwner ids r g ∧ OnFaces (secondary r) (ids r) g) ∧
      ((m r).nodes.map fun e => (ids r)[meshNode (m r) e.node1]?).Nodup := by
    intro r
    obtain ⟨-, out, ho, p, X, ng, off, hc⟩ := hcl r
    exact contact_node_owner ids hn cl (fun r => (hcl r).1) r ho (fun f hf => (hok r f hf).1)
      (fun f hf => (hok r f (List.mem_append_right _ hf)).2) hc
  refine ⟨fun r r' h h' => ?_, fun r => (key r).1 g, fun r => (key r).2⟩
  obtain ⟨⟨h1, h2⟩, -⟩ := ((key r).1 g).mp h
  obtain ⟨⟨h1', h2'⟩, -⟩ := ((key r').1 g).mp h'
  exact le_antisymm (h2 r' h1') (h2' r h1)

/-- Global node ids: both ranks hold the nodes 4, 5, 6, 7. -/
def sharedIds : Fin 2 → List Int := ![[0, 1, 2, 3, 4, 5, 6, 7], [4, 5, 6, 7, 8, 9, 10, 11]]

/-- Rank 0 has one element that is in no contact block; rank 1 has one element, of the secondary block. -/
def sharedSkin : Fin 2 → List Face :=
  ![[], [⟨[0, 3, 2, 1], 2, 4⟩, ⟨[0, 1, 5, 4], 2, 0⟩, ⟨[0, 4, 7, 3], 2, 3⟩, ⟨[1, 2, 6, 5], 2, 1⟩, ⟨[2, 3, 7, 6], 2, 2⟩, ⟨[4, 5, 6, 7], 2, 5⟩]]

/-- The secondary skin above is the one computed by `SkinBlocks` for the element. -/
example : skinBlocks [{ numElem := 1, numNodePerElem := 8, conn := fun a => a, elemGids := fun _ => 1 }] = some (sharedSkin 1) := by
  decide +kernel

/-- **C86 fails in general.**  Global nodes 4 to 7 are on the secondary skin, but neither rank has a contact node for them: rank 1 leaves
them to rank 0, the smallest rank that holds them, where they are not on the secondary skin.  So contact does not see them. -/
theorem contact_node_missing : FacesOk sharedIds (fun _ => []) sharedSkin ∧ (∀ r, (sharedIds r).Nodup) ∧
    (∃ m, CreatedOnAllRanks sharedIds (fun _ => []) sharedSkin m) ∧ OnFaces (sharedSkin 1) (sharedIds 1) 4 ∧
    ∀ m, CreatedOnAllRanks sharedIds (fun _ => []) sharedSkin m → ∀ r, ¬ HasContactNode (m r) (sharedIds r) 4 := by
  have hn : ∀ r, (sharedIds r).Nodup := by decide
  have hok : FacesOk sharedIds (fun _ => []) sharedSkin := by
    intro r; fin_cases r
    · intro f hf; simp [sharedSkin] at hf
    · decide +kernel
  refine ⟨hok, hn, created_exists _ hn _ _ hok, ⟨⟨[0, 3, 2, 1], 2, 4⟩, by decide, 0, by decide, by decide⟩, ?_⟩
  intro m hm r
  rw [(contact_node_unique_partial sharedIds hn _ sharedSkin hok m hm 4).2.1 r]
  rintro ⟨⟨-, hown⟩, hon⟩
  have := hown 0 (by decide)
  fin_cases r
  · obtain ⟨f, hf, -⟩ := hon
    simp [sharedSkin] at hf
  · simp at this

end NimbleSM.Contact
