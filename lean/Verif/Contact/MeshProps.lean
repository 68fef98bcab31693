import Verif.Contact.SubmodelProps
import Verif.Element.HexProps

/-!
# From the mesh to the contact forces: C09, C81 for every mesh, and C85 (contact faces point outwards)
-/

namespace NimbleSM.Contact



/-- `SkinBlocks` on both block lists, then `CreateContactEntities` on one rank (nimble_contact_manager.cc:184-392): nothing is
removed by `RemoveInternalSkinFaces` and no node is ghosted.  `offset` is the largest global node id. -/
noncomputable def contactModel (penalty : ℝ) (X : ℕ → Fin 3 → ℝ) (nodeGid : ℕ → ℕ) (offset : ℕ) (primaryBlocks secondaryBlocks : List MeshBlock) :
    Option (Manager ℝ) := do
  let primary ← skinBlocks primaryBlocks
  let secondary ← skinBlocks secondaryBlocks
  createEntities penalty X nodeGid offset primary secondary []

variable {penalty : ℝ} {X : ℕ → Fin 3 → ℝ} {nodeGid : ℕ → ℕ} {offset : ℕ} {primaryBlocks secondaryBlocks : List MeshBlock}

theorem skin_length {blocks : List MeshBlock} {skin : List Face} (h : skinBlocks blocks = some skin) : ∀ f ∈ skin, f.nodes.length = 4 :=
  fun f hf => (face_length ((mem_skin h f).mp hf).1).1

theorem skins_length {primary secondary : List Face} (hp : skinBlocks primaryBlocks = some primary)
    (hs : skinBlocks secondaryBlocks = some secondary) : ∀ f ∈ primary ++ secondary, f.nodes.length = 4 := by
  intro f hf
  rcases List.mem_append.mp hf with h | h
  · exact skin_length hp f h
  · exact skin_length hs f h

/-- The contact model exists exactly if both block lists can be skinned. -/
theorem contactModel_exists (penalty : ℝ) (X : ℕ → Fin 3 → ℝ) (nodeGid : ℕ → ℕ) (offset : ℕ) (primaryBlocks secondaryBlocks : List MeshBlock) :
    contactModel penalty X nodeGid offset primaryBlocks secondaryBlocks ≠ none ↔
      (∀ f ∈ allFaces primaryBlocks, occurrences (allFaces primaryBlocks) f ≤ 2) ∧
      (∀ f ∈ allFaces secondaryBlocks, occurrences (allFaces secondaryBlocks) f ≤ 2) := by
  have hno : ∀ blocks : List MeshBlock, (∀ f ∈ allFaces blocks, occurrences (allFaces blocks) f ≤ 2) ↔ skinBlocks blocks ≠ none := by
    intro blocks
    rw [Ne, (skinBlocks_spec blocks).1]
    push Not
    rfl
  rw [hno, hno]
  unfold contactModel
  cases hp : skinBlocks primaryBlocks with
  | none => simp
  | some primary =>
    cases hs : skinBlocks secondaryBlocks with
    | none => simp
    | some secondary =>
      obtain ⟨m, hm, -⟩ := submodel_spec penalty X nodeGid offset primary secondary [] (skins_length hp hs)
      simp [hm]

theorem contactModel_split {m : Manager ℝ} (h : contactModel penalty X nodeGid offset primaryBlocks secondaryBlocks = some m) :
    ∃ primary secondary, skinBlocks primaryBlocks = some primary ∧ skinBlocks secondaryBlocks = some secondary ∧
      createEntities penalty X nodeGid offset primary secondary [] = some m := by
  unfold contactModel at h
  cases hp : skinBlocks primaryBlocks with
  | none => simp [hp] at h
  | some primary =>
    cases hs : skinBlocks secondaryBlocks with
    | none => simp [hp, hs] at h
    | some secondary =>
      simp only [hp, hs, Option.bind_eq_bind, Option.bind_some] at h
      exact ⟨primary, secondary, rfl, rfl, h⟩

theorem cross_eq (a b : Fin 3 → ℝ) : crossProduct a b = Tensor.crossProduct a b := by
  rw [cross_apply]; rfl

/-- **C09, C81.**  For every mesh, block selection, penalty and displacement: if the contact model can be built, contact forces
exist exactly for a positive penalty, they sum to zero, have no moment, and vanish at all nodes outside the skins of the
selected blocks. -/
theorem mesh_contact_balance {m : Manager ℝ} (h : contactModel penalty X nodeGid offset primaryBlocks secondaryBlocks = some m)
    (disp : ℕ → Fin 3 → ℝ) :
    ((∃ F, ContactForce m disp F) ↔ 0 < penalty) ∧
    ∀ F, ContactForce m disp F →
      (∀ a, F a ≠ 0 → ∃ f, (f ∈ allFaces primaryBlocks ∧ occurrences (allFaces primaryBlocks) f = 1 ∨
        f ∈ allFaces secondaryBlocks ∧ occurrences (allFaces secondaryBlocks) f = 1) ∧ a ∈ f.nodes) ∧
      ∀ T : Finset ℕ, (∀ a, F a ≠ 0 → a ∈ T) → (∀ d, ∑ a ∈ T, F a d = 0) ∧
        ∀ q : Fin 3 → ℝ, ∑ a ∈ T, crossProduct (fun d => X a d + disp a d - q d) (F a) = 0 := by
  obtain ⟨primary, secondary, hp, hs, hc⟩ := contactModel_split h
  have h4 := skins_length hp hs
  have hwf := created_wellFormed h4 hc
  obtain ⟨m', hm', hpen, -, hids, -⟩ := submodel_spec penalty X nodeGid offset primary secondary [] h4
  rw [hc, Option.some.injEq] at hm'
  subst hm'
  refine ⟨⟨fun ⟨F, hF⟩ => hpen ▸ hF.1, fun hpos => contactForce_exists m (hpen ▸ hpos) disp⟩, fun F hF => ?_⟩
  have hzero : ∀ a, a ∉ m.nodeIds → F a = 0 := by
    intro a ha
    obtain ⟨-, ops, all, -, -, rfl⟩ := hF
    exact getForces_other _ hwf.nodup _ _ a ha
  have hsup : ∀ a, F a ≠ 0 → a ∈ m.nodeIds := fun a ha => by
    by_contra hn; exact ha (hzero a hn)
  refine ⟨fun a ha => ?_, fun T hT => ?_⟩
  · obtain ⟨f, hf, haf⟩ := (hids a).mp (hsup a ha)
    rcases List.mem_append.mp hf with hf | hf
    · exact ⟨f, Or.inl ((mem_skin hp f).mp hf), haf⟩
    · exact ⟨f, Or.inr ((mem_skin hs f).mp hf), haf⟩
  · have hU : ∀ a ∈ m.nodeIds, a ∈ T ∪ m.nodeIds.toFinset := fun a ha => Finset.mem_union_right _ (List.mem_toFinset.mpr ha)
    have hout : ∀ a ∈ T ∪ m.nodeIds.toFinset, a ∉ T → F a = 0 := by
      intro a _ ha
      by_contra hne
      exact ha (hT a hne)
    constructor
    · intro d
      rw [Finset.sum_subset Finset.subset_union_left (fun a ha hn => by rw [hout a ha hn]; rfl)]
      exact contact_resultant_zero hwf F hF _ hU d
    · intro q
      rw [Finset.sum_subset (Finset.subset_union_left (s₂ := m.nodeIds.toFinset)) (fun a ha hn => by rw [hout a ha hn, map_zero])]
      have := contact_moment_zero hwf F hF _ hU q
      rw [← this]
      exact Finset.sum_congr rfl fun a _ => cross_eq _ _

/-! ## C85: contact faces point outwards -/

theorem triple_map (A : Matrix (Fin 3) (Fin 3) ℝ) (u v w : Fin 3 → ℝ) :
    dot (crossProduct (A.mulVec u) (A.mulVec v)) (A.mulVec w) = A.det * dot (crossProduct u v) w := by
  rw [Matrix.det_fin_three]
  simp only [dot, cross_apply, Matrix.mulVec, dotProduct, Fin.sum_univ_three, Matrix.cons_val_zero, Matrix.cons_val_one, Matrix.cons_val]
  ring

theorem faceTable_lt (o : Fin 6) (k : Fin 4) : (faceTable.getD o []).getD k 0 < 8 := by revert o k; decide

/-- Corner `k` of face `o` of the reference cube. -/
noncomputable def faceCorner (o : Fin 6) (k : Fin 4) : Fin 3 → ℝ := Hex.corner (K := ℝ) ⟨(faceTable.getD o []).getD k 0, faceTable_lt o k⟩

/-- The reference cube: the triangles `(corner t, corner t+1, midpoint)` have the triple product 2 with the vertices. -/
theorem reference_outward (o : Fin 6) (t : Fin 4) (v : Fin 3 → ℝ)
    (hv : v = faceCorner o t ∨ v = faceCorner o (t + 1) ∨
      v = fun d => (faceCorner o 0 d + faceCorner o 1 d + faceCorner o 2 d + faceCorner o 3 d) / 4) :
    dot (crossProduct (fun d => faceCorner o (t + 1) d - faceCorner o t d)
      (fun d => (faceCorner o 0 d + faceCorner o 1 d + faceCorner o 2 d + faceCorner o 3 d) / 4 - faceCorner o t d)) v = 2 := by
  fin_cases o <;> fin_cases t <;> rcases hv with rfl | rfl | rfl <;>
    simp [dot, cross_apply, faceCorner, Hex.corner, faceTable] <;> norm_num

/-- The vertices of face `o` of a parallelepiped with centre `c` and half edges the columns of `A`, and their barycentre,
triangle by triangle: the cross product points away from `c`. -/
theorem outward_core (c : Fin 3 → ℝ) (A : Matrix (Fin 3) (Fin 3) ℝ) (o : Fin 6) (t : Fin 4) (x : Fin 4 → Fin 3 → ℝ)
    (hx : ∀ k : Fin 4, x k = c + A.mulVec (faceCorner o k)) (v : Fin 3 → ℝ)
    (hv : v = x t ∨ v = x (t + 1) ∨ v = fun d => (x 0 d + x 1 d + x 2 d + x 3 d) / 4) :
    dot (crossProduct (fun d => x (t + 1) d - x t d) (fun d => (x 0 d + x 1 d + x 2 d + x 3 d) / 4 - x t d)) (fun d => v d - c d)
      = 2 * A.det := by
  have h1 : (fun d => x (t + 1) d - x t d) = A.mulVec (fun d => faceCorner o (t + 1) d - faceCorner o t d) := by
    funext d
    simp only [hx, Pi.add_apply, Matrix.mulVec, dotProduct, Fin.sum_univ_three]
    ring
  have h2 : (fun d => (x 0 d + x 1 d + x 2 d + x 3 d) / 4 - x t d) = A.mulVec
      (fun d => (faceCorner o 0 d + faceCorner o 1 d + faceCorner o 2 d + faceCorner o 3 d) / 4 - faceCorner o t d) := by
    funext d
    simp only [hx, Pi.add_apply, Matrix.mulVec, dotProduct, Fin.sum_univ_three]
    ring
  obtain ⟨w, hw, hvw⟩ : ∃ w, (w = faceCorner o t ∨ w = faceCorner o (t + 1) ∨
      w = fun d => (faceCorner o 0 d + faceCorner o 1 d + faceCorner o 2 d + faceCorner o 3 d) / 4) ∧ (fun d => v d - c d) = A.mulVec w := by
    rcases hv with rfl | rfl | rfl
    · refine ⟨_, Or.inl rfl, funext fun d => ?_⟩
      simp [hx]
    · refine ⟨_, Or.inr (Or.inl rfl), funext fun d => ?_⟩
      simp [hx]
    · refine ⟨_, Or.inr (Or.inr rfl), funext fun d => ?_⟩
      simp only [hx, Pi.add_apply, Matrix.mulVec, dotProduct, Fin.sum_univ_three]
      ring
  rw [h1, h2, hvw, triple_map, reference_outward o t w hw]
  ring

/-- **C85.**  Let the current shape of an element be a parallelepiped with centre `c` whose edges are positively oriented
(`det A > 0`, node `n` at `c + A * corner n`).  Then the unit normal with which contact works on every triangle of every skin face
of the element points away from the centre: seen from `c` the whole triangle lies in its direction. -/
theorem contact_normal_outward {m : Manager ℝ} {primary secondary : List Face} {ghosted : List ℕ}
    (h4 : ∀ f ∈ primary ++ secondary, f.nodes.length = 4)
    (h : createEntities penalty X nodeGid offset primary secondary ghosted = some m) (disp : ℕ → Fin 3 → ℝ)
    {b : MeshBlock} {i : ℕ} {k : ℕ} (hk : k < primary.length) (hf : primary[k] ∈ elemFaces b i)
    (c : Fin 3 → ℝ) (A : Matrix (Fin 3) (Fin 3) ℝ) (hA : 0 < A.det)
    (hx : ∀ n : Fin 8, ∀ d, X (b.conn (i * b.numNodePerElem + n)) d + disp (b.conn (i * b.numNodePerElem + n)) d
      = c d + A.mulVec (Hex.corner n) d)
    (t : Fin 4) (e : Entity ℝ) (he : (applyDisplacements disp m).faces[4 * k + (t : ℕ)]? = some e) :
    NonDegenerate e.coord1 e.coord2 e.coord3 ∧ ∀ n, IsUnitNormal e.coord1 e.coord2 e.coord3 n →
      0 < dot n (fun d => e.coord1 d - c d) ∧ 0 < dot n (fun d => e.coord2 d - c d) ∧ 0 < dot n (fun d => e.coord3 d - c d) := by
  have hwf := created_wellFormed h4 h
  obtain ⟨m', hm', -, -, -, -, -, htri, -⟩ := submodel_spec penalty X nodeGid offset primary secondary ghosted h4
  rw [h, Option.some.injEq] at hm'
  subst hm'
  -- the entity before displacement
  have hfaces : (applyDisplacements disp m).faces = m.faces.map (setCoordinates (applyDisplacements disp m).coord) := rfl
  obtain ⟨hlt, rfl⟩ := List.getElem?_eq_some_iff.mp he
  have hlt0 : 4 * k + (t : ℕ) < m.faces.length := by simpa [hfaces] using hlt
  have T := htri k hk t hlt0
  have hmem : (applyDisplacements disp m).faces[4 * k + (t : ℕ)] ∈ (applyDisplacements disp m).faces := List.getElem_mem hlt
  obtain ⟨-, -, -, -, c1, c2, c3⟩ := displaced_face (disp := disp) hwf _ hmem
  set e := (applyDisplacements disp m).faces[4 * k + (t : ℕ)] with hedef
  have heq : e = setCoordinates (applyDisplacements disp m).coord m.faces[4 * k + (t : ℕ)] := by
    simp [hedef, hfaces]
  rw [heq, setCoordinates_node1, ← heq] at c1
  rw [heq, setCoordinates_node2, ← heq] at c2
  rw [heq, setCoordinates_fict, ← heq] at c3
  -- the face of the element
  obtain ⟨o, ho⟩ : ∃ o : Fin 6, primary[k].nodes = (faceTable.getD o []).map fun a => b.conn (i * b.numNodePerElem + a) := by
    simp only [elemFaces, List.mem_map] at hf
    obtain ⟨⟨l, o⟩, hp, hpk⟩ := hf
    rw [List.mem_zipIdx_iff_getElem?] at hp
    obtain ⟨hlo, hl⟩ := List.getElem?_eq_some_iff.mp hp
    refine ⟨⟨o, hlo⟩, ?_⟩
    rw [← hpk, List.getD_eq_getElem _ _ hlo]
    exact congrArg (List.map _) hl.symm
  have hlen : ∀ o : Fin 6, (faceTable.getD o []).length = 4 := by decide
  set x : Fin 4 → Fin 3 → ℝ := fun k' => pos X disp (primary[k].nodes.getD k' 0) with hxdef
  have hcorner : ∀ k' : Fin 4, x k' = c + A.mulVec (faceCorner o k') := by
    intro k'
    have hg : primary[k].nodes.getD k' 0 = b.conn (i * b.numNodePerElem + (faceTable.getD o []).getD k' 0) := by
      have hk4 : (k' : ℕ) < (faceTable.getD o []).length := by rw [hlen]; exact k'.isLt
      rw [ho, List.getD_eq_getElem _ _ (by simpa using hk4), List.getElem_map, List.getD_eq_getElem (faceTable.getD o []) _ hk4]
    funext d
    simp only [hxdef, hg]
    exact hx ⟨(faceTable.getD o []).getD k' 0, faceTable_lt o k'⟩ d
  have hsome : ∀ {j : Fin 4} {a : ℕ}, primary[k].nodes[(j : ℕ)]? = some a → pos X disp a = x j := by
    intro j a ha
    simp only [hxdef, List.getD_eq_getElem?_getD, ha, Option.getD_some]
  have d1 : e.coord1 = x t := by rw [c1, hsome T.node1]
  have d2 : e.coord2 = x (t + 1) := by rw [c2, hsome T.node2]
  have d3 : e.coord3 = fun d => (x 0 d + x 1 d + x 2 d + x 3 d) / 4 := by
    rw [c3, hsome (T.mid 0), hsome (T.mid 1), hsome (T.mid 2), hsome (T.mid 3)]
  have key := outward_core c A o t x hcorner
  have d3' : ∀ d, (x 0 d + x 1 d + x 2 d + x 3 d) / 4 = e.coord3 d := fun d => by rw [d3]
  simp only [d3', ← d1, ← d2, cross_eq] at key
  have hne : NonDegenerate e.coord1 e.coord2 e.coord3 := by
    intro hz
    have := key e.coord1 (Or.inl rfl)
    rw [hz] at this
    simp [dot] at this
    linarith
  refine ⟨hne, fun n hn => ?_⟩
  obtain ⟨hq, hd⟩ := unitNormal_eq hn.unit hn.perp2 hn.perp3 hn.orient
  have hpos := hn.orient
  rw [hq] at hpos
  set D := Tensor.crossProduct (fun d => e.coord2 d - e.coord1 d) (fun d => e.coord3 d - e.coord1 d) with hD
  set q := Real.sqrt (dot D D) with hqd
  have hmul : ∀ w : Fin 3 → ℝ, dot n w = dot D w / q := by
    intro w
    simp only [dot, hd]
    ring
  have fin : ∀ v, (v = e.coord1 ∨ v = e.coord2 ∨ v = e.coord3) → 0 < dot n (fun d => v d - c d) := by
    intro v hv
    rw [hmul, key v hv]
    positivity
  exact ⟨fin _ (Or.inl rfl), fin _ (Or.inr (Or.inl rfl)), fin _ (Or.inr (Or.inr rfl))⟩

/-! ## A concrete mesh -/

/-- One hexahedron with nodes `8k, …, 8k+7`. -/
def oneHex (k : ℕ) : MeshBlock where
  numElem := 1
  numNodePerElem := 8
  conn := fun a => 8 * k + a
  elemGids := fun _ => k

/-- Two cubes of side 2: nodes 0..7 around the origin and nodes 8..15 around `(1/2, 1/4, 19/10)`. -/
noncomputable def twoCubes : ℕ → Fin 3 → ℝ := fun a =>
  if a < 8 then Hex.corner (Fin.ofNat 8 a) else ![1/2, 1/4, 19/10] + Hex.corner (Fin.ofNat 8 a)

/-- The contact model of the two cubes exists, contact forces exist and are balanced (hypotheses of `mesh_contact_balance`). -/
example : ∃ m, contactModel 100 twoCubes (fun a => a) 15 [oneHex 0] [oneHex 1] = some m ∧ ∃ F, ContactForce m (fun _ => 0) F ∧
    ∀ d, ∑ a ∈ Finset.range 16, F a d = 0 := by
  have hne : contactModel 100 twoCubes (fun a => a) 15 [oneHex 0] [oneHex 1] ≠ none := by
    rw [contactModel_exists]
    constructor <;> decide +kernel
  obtain ⟨m, hm⟩ := Option.ne_none_iff_exists'.mp hne
  obtain ⟨h1, h2⟩ := mesh_contact_balance hm (fun _ => 0)
  obtain ⟨F, hF⟩ := h1.mpr (by norm_num)
  refine ⟨m, hm, F, hF, ((h2 F hF).2 _ fun a ha => ?_).1⟩
  obtain ⟨f, hf, haf⟩ := (h2 F hF).1 a ha
  have hall : ∀ f ∈ allFaces [oneHex 0] ++ allFaces [oneHex 1], ∀ a ∈ f.nodes, a ∈ Finset.range 16 := by decide +kernel
  refine hall f (List.mem_append.mpr ?_) a haf
  rcases hf with h | h
  · exact Or.inl h.1
  · exact Or.inr h.1

/-- The hypotheses of `contact_normal_outward` are met by the lower cube. -/
example : (∀ n : Fin 8, ∀ d, twoCubes ((oneHex 0).conn (0 * (oneHex 0).numNodePerElem + n)) d + (0 : ℝ) = (0 : Fin 3 → ℝ) d +
      (1 : Matrix (Fin 3) (Fin 3) ℝ).mulVec (Hex.corner n) d) ∧ 0 < (1 : Matrix (Fin 3) (Fin 3) ℝ).det ∧
    ∃ skin, skinBlocks [oneHex 0] = some skin ∧ skin.length = 6 ∧ ∀ f ∈ skin, f ∈ elemFaces (oneHex 0) 0 := by
  refine ⟨fun n d => ?_, by simp, ?_⟩
  · have hn := n.isLt
    have h1 : Fin.ofNat 8 (n : ℕ) = n := by ext; simp [Fin.ofNat]
    simp [oneHex, twoCubes, hn, h1]
  · refine ⟨[⟨[0, 3, 2, 1], 1, 4⟩, ⟨[0, 1, 5, 4], 1, 0⟩, ⟨[0, 4, 7, 3], 1, 3⟩, ⟨[1, 2, 6, 5], 1, 1⟩, ⟨[2, 3, 7, 6], 1, 2⟩,
      ⟨[4, 5, 6, 7], 1, 5⟩], by decide +kernel, rfl, by decide +kernel⟩

end NimbleSM.Contact
