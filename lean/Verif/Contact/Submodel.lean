import Verif.Contact.Skin
import Verif.Contact.Entity

/-!
# The contact submodel: `ContactManager::CreateContactEntities`, `ContactManager::CreateContactNodesAndFaces`
(`src/nimble_contact_manager.cc:184-392, 1043-1204`), after the skinning (`Verif.Contact.Skin`)

The mesh coordinates are a function `X` of the node, `nodeGid` the global node ids.  `none` is an exception or abort.
-/

namespace NimbleSM.Contact

/-- `std::set<int>::insert`; the set is the list of its elements in increasing order. -/
def setInsert (a : ℕ) : List ℕ → List ℕ
  | [] => [a]
  | b :: l => if a = b then b :: l else if a < b then a :: b :: l else b :: setInsert a l

/-- `node_ids_set` and `node_ids_` (nimble_contact_manager.cc:242-249). -/
def submodelNodes (primary secondary : List Face) : List ℕ :=
  let s := primary.foldl (fun s f => f.nodes.foldl (fun s id => setInsert id s) s) []
  secondary.foldl (fun s f => f.nodes.foldl (fun s id => setInsert id s) s) s

/-- `genesis_mesh_node_id_to_contact_submodel_id` (nimble_contact_manager.cc:251-254). -/
def submodelMap (nodeIds : List ℕ) : ℕ → Option ℕ :=
  (List.range nodeIds.length).foldl (fun m i => Function.update m (nodeIds.getD i 0) (some i)) (fun _ => none)

/-- The node ids of a face are replaced by submodel ids (nimble_contact_manager.cc:256-269); `at` throws if a node is missing. -/
def renumberFace (m : ℕ → Option ℕ) (f : Face) : Option Face := (f.nodes.mapM m).map fun ns => { f with nodes := ns }

/-- `ghosted_node_local_ids` (nimble_contact_manager.cc:233-238): partition boundary nodes whose smallest rank is another one. -/
def ghostedNodes (rank : ℕ) (boundary minRank : List ℕ) : List ℕ :=
  (List.range boundary.length).filterMap fun i => if minRank.getD i 0 ≠ rank then some (boundary.getD i 0) else none

/-- `ghosted_contact_node_ids` (nimble_contact_manager.cc:271-276). -/
def ghostedContact (m : ℕ → Option ℕ) (ghosted : List ℕ) : List ℕ := ghosted.filterMap m

/-- The loop that fills `model_coord_`, `coord_` (nimble_contact_manager.cc:283-287), and the device copies (:340-352). -/
def submodelCoord (X : ℕ → Fin 3 → ℝ) (nodeIds : List ℕ) : ℤ → ℝ :=
  (List.range nodeIds.length).foldl (fun (c : ℤ → ℝ) (i : ℕ) =>
    let c := Function.update c (3 * (i : ℤ)) (X (nodeIds.getD i 0) 0)
    let c := Function.update c (3 * (i : ℤ) + 1) (X (nodeIds.getD i 0) 1)
    Function.update c (3 * (i : ℤ) + 2) (X (nodeIds.getD i 0) 2)) (fun _ => 0)

/-- `edge_length_square` of the edge that starts at position `i` of a face (nimble_contact_manager.cc:301-310,
1072-1081). -/
def edgeSquare (coord : ℤ → ℝ) (nodes : List ℕ) (i : ℕ) : ℝ :=
  let n1 : ℤ := nodes.getD i 0
  let n2 : ℤ := if i + 1 < nodes.length then nodes.getD (i + 1) 0 else nodes.getD 0 0
  (coord (3 * n2) - coord (3 * n1)) * (coord (3 * n2) - coord (3 * n1)) +
    (coord (3 * n2 + 1) - coord (3 * n1 + 1)) * (coord (3 * n2 + 1) - coord (3 * n1 + 1)) +
    (coord (3 * n2 + 2) - coord (3 * n1 + 2)) * (coord (3 * n2 + 2) - coord (3 * n1 + 2))

/-- `characteristic_length` of a secondary face (nimble_contact_manager.cc:297-313): square root of the largest square.
`std::numeric_limits<double>::lowest()` is `-1` here: the edge lengths and their squares are not negative. -/
noncomputable def nodeCharLen (coord : ℤ → ℝ) (nodes : List ℕ) : ℝ :=
  Real.sqrt ((List.range nodes.length).foldl (fun mx i =>
    if edgeSquare coord nodes i > mx then edgeSquare coord nodes i else mx) (-1))

/-- `characteristic_length` of a primary face (nimble_contact_manager.cc:1069-1084): the largest square root. -/
noncomputable def faceCharLen (coord : ℤ → ℝ) (nodes : List ℕ) : ℝ :=
  (List.range nodes.length).foldl (fun mx i =>
    if Real.sqrt (edgeSquare coord nodes i) > mx then Real.sqrt (edgeSquare coord nodes i) else mx) (-1)

/-- `secondary_node_ids`, `secondary_node_entity_ids`, `secondary_node_char_lens`. -/
structure Secondary where
  ids : List ℕ
  entityIds : List ℤ
  charLens : ℕ → Option ℝ

/-- The body of the loop over the nodes of a secondary face (nimble_contact_manager.cc:314-333).  `charLens[node_id]` creates
a zero entry when there is none. -/
noncomputable def addSecondary (nodeGid : ℕ → ℕ) (nodeIds ghosted : List ℕ) (charLen : ℝ) (s : Secondary) (id : ℕ) : Secondary :=
  if id ∈ ghosted then s
  else if id ∉ s.ids then
    { ids := s.ids ++ [id]
      entityIds := s.entityIds ++ [(nodeGid (nodeIds.getD id 0) : ℤ) + 1]
      charLens := Function.update s.charLens id (some charLen) }
  else if (s.charLens id).getD 0 < charLen then { s with charLens := Function.update s.charLens id (some charLen) }
  else { s with charLens := Function.update s.charLens id (some ((s.charLens id).getD 0)) }

/-- The loop over the secondary faces (nimble_contact_manager.cc:295-334). -/
noncomputable def secondaryNodes (coord : ℤ → ℝ) (nodeGid : ℕ → ℕ) (nodeIds ghosted : List ℕ) (secondary : List Face) : Secondary :=
  secondary.foldl (fun s f => f.nodes.foldl (addSecondary nodeGid nodeIds ghosted (nodeCharLen coord f.nodes)) s)
    { ids := [], entityIds := [], charLens := fun _ => none }

/-- The barycentre of a face (nimble_contact_manager.cc:1086-1093). -/
noncomputable def fictitiousNode (coord : ℤ → ℝ) (nodes : List ℕ) (j : ℕ) : ℝ :=
  (nodes.foldl (fun (s : ℝ) (id : ℕ) => s + coord (3 * (id : ℤ) + j)) 0) / (nodes.length : ℝ)

/-- One triangle (nimble_contact_manager.cc:1106-1188): `t` is 0, 1, 2 or 3, the triangle nodes are `face[t]` and
`face[t+1]` (`face[0]` for `t = 3`). -/
noncomputable def triangleEntity (coord : ℤ → ℝ) (offset : ℕ) (f : Face) (index t a b : ℕ) : Entity ℝ :=
  let n1 := f.nodes.getD a 0
  let n2 := f.nodes.getD b 0
  mkEntity .triangle (entityId offset f.elem f.ord t).toInt index
    (fun k => if k < 3 then coord (3 * (n1 : ℤ) + k) else if k < 6 then coord (3 * (n2 : ℤ) + (k - 3 : ℕ)) else
      fictitiousNode coord f.nodes (k - 6))
    (faceCharLen coord f.nodes) n1 n2
    ![f.nodes.getD 0 0, f.nodes.getD 1 0, f.nodes.getD 2 0, f.nodes.getD 3 0]

/-- The loop over the primary faces (nimble_contact_manager.cc:1056-1190); `index` is four times the position of the face. -/
noncomputable def contactFaces (coord : ℤ → ℝ) (offset : ℕ) (primary : List Face) (index : ℕ) : Option (List (Entity ℝ)) :=
  match primary with
  | [] => some []
  | f :: rest =>
    if f.nodes.length ≠ 4 then none
    else (contactFaces coord offset rest (index + 4)).map fun es =>
      triangleEntity coord offset f index 0 0 1 :: triangleEntity coord offset f (index + 1) 1 1 2 ::
      triangleEntity coord offset f (index + 2) 2 2 3 :: triangleEntity coord offset f (index + 3) 3 3 0 :: es

/-- The loop over the secondary nodes (nimble_contact_manager.cc:1192-1202); `at` throws. -/
noncomputable def contactNodes (coord : ℤ → ℝ) (s : Secondary) : Option (List (Entity ℝ)) :=
  (List.range s.ids.length).mapM fun (i : ℕ) => do
    let id ← s.ids[i]?
    let eid ← s.entityIds[i]?
    let cl ← s.charLens id
    pure (mkEntity .node eid i (fun k => coord (3 * (id : ℤ) + k)) cl id 0 (fun _ => 0))

/-- `CreateContactEntities` (nimble_contact_manager.cc:184-392) for given skins.  `ghosted` are the mesh nodes owned by another
rank; `penalty` is set by the caller.  Communication of the totals and printing are left out. -/
noncomputable def createEntities (penalty : ℝ) (X : ℕ → Fin 3 → ℝ) (nodeGid : ℕ → ℕ) (offset : ℕ) (primary secondary : List Face)
    (ghosted : List ℕ) : Option (Manager ℝ) := do
  let nodeIds := submodelNodes primary secondary
  let m := submodelMap nodeIds
  let primary' ← primary.mapM (renumberFace m)
  let secondary' ← secondary.mapM (renumberFace m)
  let coord := submodelCoord X nodeIds
  let s := secondaryNodes coord nodeGid nodeIds (ghostedContact m ghosted) secondary'
  let faces ← contactFaces coord offset primary' 0
  let nodes ← contactNodes coord s
  pure { penalty := penalty, nodeIds := nodeIds, modelCoord := coord, coord := coord, nodes := nodes, faces := faces }

end NimbleSM.Contact
