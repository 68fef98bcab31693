import Verif.Solver.Crs
import Verif.Bc.Bc

/-!
# Dirichlet conditions on the linear system, sparsity structure and assembly of the tangent

`src/nimble_boundary_condition_manager.cc` (`ModifyTangentStiffnessMatrixForKinematicBC`,
`ModifyRHSForKinematicBC`), `src/nimble_mesh_utils.cc` (`DetermineTangentMatrixNonzeroStructure`) and
`src/nimble_block_base.cc` (`ComputeTangentStiffnessMatrix`).
-/

namespace NimbleSM.Solver

open NimbleSM.Bc

variable {K : Type*} [Field K]

/-- The three operations the template `ModifyTangentStiffnessMatrixForKinematicBC<MatT>` uses, and `+=`
for the assembly; `none` is an exception or an access out of range. -/
class TangentMatrix (M : Type*) (K : outParam Type*) where
  /-- `SetRowValues` -/
  setRow : M → ℕ → K → Option M
  /-- `SetColumnValues` -/
  setCol : M → ℕ → K → Option M
  /-- `operator()(i,j) = v` -/
  setAt : M → ℕ → ℕ → K → Option M

/-- The instantiation of nimble_boundary_condition_manager.cc:114-118. -/
instance : TangentMatrix (Crs K) K where
  setRow := Crs.setRowValues
  setCol A c v := some (A.setColumnValues c v)
  setAt := Crs.setEntry

/-- The instantiation of nimble_boundary_condition_manager.cc:107-112.  Writing a row past the end of the
storage is undefined behaviour: `none`. -/
instance : TangentMatrix (Dense K) K where
  setRow A r v := if r < A.numRows then some (A.setRowValues r v) else none
  setCol A c v := if c < A.numRows then some (A.setColumnValues c v) else none
  setAt := Dense.setEntry

/-- nimble_boundary_condition_manager.cc:97-99: the body of the loop over the nodes of a set. -/
def constrainDof {M : Type*} [TangentMatrix M K] (diagonal : K) (A : M) (index : ℕ) : Option M :=
  (TangentMatrix.setRow A index (0 : K)).bind fun A =>
    (TangentMatrix.setCol A index (0 : K)).bind fun A => TangentMatrix.setAt A index index diagonal

/-- nimble_boundary_condition_manager.cc:96 and :132: the degree of freedom of a node; `none` = read past
the end of `global_node_ids`. -/
def dofOf (globalNodeIds : List ℕ) (dim coordinate n : ℕ) : Option ℕ :=
  globalNodeIds[n]?.map fun g => g * dim + coordinate

/-- nimble_boundary_condition_manager.cc:95-100: the loop over the nodes of a set. -/
def constrainNodes {M : Type*} [TangentMatrix M K] (ids : List ℕ) (dim : ℕ) (diagonal : K)
    (coordinate : ℕ) : List ℕ → M → Option M
  | [], A => some A
  | n :: ns, A =>
    (dofOf ids dim coordinate n).bind fun index =>
      (constrainDof diagonal A index).bind (constrainNodes ids dim diagonal coordinate ns)

/-- nimble_boundary_condition_manager.cc:79-103, `ModifyTangentStiffnessMatrixForKinematicBC`: the loop
over the conditions.  `node_sets_.at(id)` (line 91) is evaluated for every condition, of any type: an
unknown id throws (`none`). -/
def modifyTangent {M : Type*} [TangentMatrix M K] (sets : NodeSets) (ids : List ℕ) (dim : ℕ)
    (diagonal : K) : List (BoundaryCondition K) → M → Option M
  | [], A => some A
  | bc :: bcs, A =>
    (sets bc.nodeSetId).bind fun ns =>
      (if bc.isKinematic then constrainNodes ids dim diagonal bc.coordinate ns A else some A).bind
        (modifyTangent sets ids dim diagonal bcs)

/-- nimble_boundary_condition_manager.cc:131-133: the loop over the nodes of a set. -/
def zeroNodes (ids : List ℕ) (dim coordinate : ℕ) : List ℕ → (ℕ → K) → Option (ℕ → K)
  | [], rhs => some rhs
  | n :: ns, rhs =>
    (dofOf ids dim coordinate n).bind fun index => zeroNodes ids dim coordinate ns (upd rhs index 0)

/-- nimble_boundary_condition_manager.cc:120-136, `ModifyRHSForKinematicBC`. -/
def modifyRhs (sets : NodeSets) (ids : List ℕ) (dim : ℕ) :
    List (BoundaryCondition K) → (ℕ → K) → Option (ℕ → K)
  | [], rhs => some rhs
  | bc :: bcs, rhs =>
    (sets bc.nodeSetId).bind fun ns =>
      (if bc.isKinematic then zeroNodes ids dim bc.coordinate ns rhs else some rhs).bind
        (modifyRhs sets ids dim bcs)

/-! ## The sparsity structure -/

/-- `std::set<int>::insert`: a set is the increasing list of its members. -/
def setInsert (x : ℕ) : List ℕ → List ℕ
  | [] => [x]
  | y :: ys => if x < y then x :: y :: ys else if x = y then y :: ys else y :: setInsert x ys

/-- A block of a mesh as `DetermineTangentMatrixNonzeroStructure` sees it (nimble_mesh_utils.cc:63-67):
the connectivity, one list of `num_nodes_per_elem` node numbers per element. -/
abbrev Connectivity := List (List ℕ)

/-- nimble_mesh_utils.cc:68-73: `linear_system_dof` of one element; `none` = read past the end of
`linear_system_node_ids`. -/
def elementDofs (nodeIds : List ℕ) (dim : ℕ) (elem : List ℕ) : Option (List ℕ) :=
  (elem.mapM fun n => nodeIds[n]?).map fun gs => gs.flatMap fun g => (List.range dim).map (g * dim + ·)

/-- nimble_mesh_utils.cc:79-80: `nonzeros[row].insert(col); nonzeros[col].insert(row);`. -/
def insertPair (nz : ℕ → List ℕ) (row col : ℕ) : ℕ → List ℕ :=
  upd (upd nz row (setInsert col (nz row))) col (setInsert row (upd nz row (setInsert col (nz row)) col))

/-- nimble_mesh_utils.cc:74-82: the loops over the degrees of freedom of one element. -/
def insertElement (dofs : List ℕ) (nz : ℕ → List ℕ) : ℕ → List ℕ :=
  dofs.foldl (fun (nz : ℕ → List ℕ) row =>
    dofs.foldl (fun (nz : ℕ → List ℕ) col => insertPair nz row col) nz) nz

/-- nimble_mesh_utils.cc:67-83 for all elements; `none` when some index is out of range
(`linear_system_node_ids` or `nonzeros`). -/
def collectNonzeros (nodeIds : List ℕ) (dim : ℕ) :
    List (List ℕ) → (ℕ → List ℕ) → Option (ℕ → List ℕ)
  | [], nz => some nz
  | e :: es, nz =>
    (elementDofs nodeIds dim e).bind fun dofs =>
      if dofs.all (· < nodeIds.length * dim) then collectNonzeros nodeIds dim es (insertElement dofs nz)
      else none

/-- nimble_mesh_utils.cc:48-99, `DetermineTangentMatrixNonzeroStructure`: blocks in order, then the
row-major listing.  The result is the list of `(i_index[k], j_index[k])`. -/
def nonzeroStructure (nodeIds : List ℕ) (dim : ℕ) (blocks : List Connectivity) :
    Option (List (ℕ × ℕ)) :=
  (collectNonzeros nodeIds dim blocks.flatten fun _ => []).map fun nz =>
    (List.range (nodeIds.length * dim)).flatMap fun r => (nz r).map fun c => (r, c)

/-! ## Assembly -/

/-- nimble_block_base.cc:123-141: the scatter of one element tangent.  `t a b` is
`element_tangent[a * ndof + b]` for local degrees of freedom `a`, `b`; the four loops over
(row node, col node, i, j) are in the source order. -/
def scatterElement (nodeIds : List ℕ) (dim : ℕ) (elem : List ℕ) (t : ℕ → ℕ → K) (A : Crs K) :
    Option (Crs K) :=
  (elem.mapM fun n => nodeIds[n]?).bind fun gs =>
    gs.zipIdx.foldl (fun (A : Option (Crs K)) rg =>
      gs.zipIdx.foldl (fun (A : Option (Crs K)) cg =>
        (List.range dim).foldl (fun (A : Option (Crs K)) i =>
          (List.range dim).foldl (fun (A : Option (Crs K)) j =>
            A.bind fun A => A.addEntry (rg.1 * dim + i) (cg.1 * dim + j)
              (t (rg.2 * dim + i) (cg.2 * dim + j))) A) A) A) (some A)

/-- nimble_block_base.cc:111-143, the element loop of `ComputeTangentStiffnessMatrix` (with the element
tangents given). -/
def assembleTangent (nodeIds : List ℕ) (dim : ℕ) :
    List (List ℕ × (ℕ → ℕ → K)) → Crs K → Option (Crs K)
  | [], A => some A
  | (e, t) :: es, A => (scatterElement nodeIds dim e t A).bind (assembleTangent nodeIds dim es)

end NimbleSM.Solver
