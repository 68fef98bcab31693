import Verif.Contact.ForceProps
import Mathlib.Data.Fintype.Sigma
import Mathlib.Data.Fintype.Prod
import Mathlib.Algebra.BigOperators.Group.Finset.Sigma
import Mathlib.Data.Fintype.BigOperators

/-!
# The parallel ArborX contact manager: `src/contact/parallel/arborx_parallel_contact_manager.cc` and
`src/contact/parallel/parallel_contact_manager.h`

Exact real arithmetic.  Every rank has its own `ContactManager`; the distributed tree is third party code and is
specified: it invokes the callback on the rank of the face, at least once for every pair of a contact node (of any
rank) and a local contact face whose boxes intersect, in any order, and delivers the output of the callback once per
pair to the rank of the node.  (ArborX runs callbacks in a counting pass and a filling pass, hence "at least once"
for invocations and "once" for delivered outputs; the code defends against repeated invocations with `list_`.)
-/

namespace NimbleSM.Contact

variable {R : ℕ}

/-- `details::PairData` (arborx_parallel_contact_manager.cc:91-111): rank and index of a contact node, rank and index of a
contact face.  The indices are in range: they come from the entity arrays. -/
abbrev PairData (ms : Fin R → Manager ℝ) : Type :=
  (Σ r : Fin R, Fin (ms r).nodes.length) × (Σ r : Fin R, Fin (ms r).faces.length)

/-- The contact node of a pair. -/
def pairNode {ms : Fin R → Manager ℝ} (p : PairData ms) : Entity ℝ := (ms p.1.1).nodes[p.1.2]

/-- The contact face of a pair. -/
def pairFace {ms : Fin R → Manager ℝ} (p : PairData ms) : Entity ℝ := (ms p.2.1).faces[p.2.2]

/-- `ContactEntity::ExportGeometryInto` (nimble_contact_entity.cc:49-74) into a default entity: node ids, forces and
status are not copied. -/
noncomputable def exportGeometry (e : Entity ℝ) : Entity ℝ :=
  { (defaultEntity : Entity ℝ) with
    type := e.type
    numNodes := e.numNodes
    coord1 := e.coord1
    coord2 := e.coord2
    coord3 := e.coord3
    charLen := e.charLen
    boxMin := e.boxMin
    boxMax := e.boxMax }

/-- `ContactEntity myNode(NODE, 0, p_data.coord_, 0.0, 0)` (arborx_parallel_contact_manager.cc:130, through the
constructor of nimble_contact_entity.h:166-184): only the
coordinates of the node travel to the rank of the face (`OutputData`, 82-89, filled in 222-231). -/
noncomputable def travellingNode (e : Entity ℝ) : Entity ℝ :=
  mkEntity .node 0 (-1) (fun k => e.coord1 ⟨k % 3, Nat.mod_lt k (by decide)⟩) 0 0 0 (fun _ => -1)

/-- The call of `Projection` in the callback (arborx_parallel_contact_manager.cc:129-139). -/
noncomputable def remoteProjection {ms : Fin R → Manager ℝ} (p : PairData ms) : ProjectionOut :=
  projection (travellingNode (pairNode p)) (exportGeometry (pairFace p)) projection0 projectionTol

/-- `force` in the callback when the node is inside (arborx_parallel_contact_manager.cc:141-144); the penalty is that of the
rank of the face. -/
noncomputable def remoteForce {ms : Fin R → Manager ℝ} (p : PairData ms) : Fin 3 → ℝ :=
  getContactForce (ms p.2.1).penalty (remoteProjection p).gap (remoteProjection p).normal

/-- The nine atomic additions of the callback to the accumulators `force_1_x_ …` of its face
(arborx_parallel_contact_manager.cc:153-166).  Accumulator `k`, component `d` of face `j` has address
`3 * (3 * j + k) + d`; `none` would be the exception of `SetNodalContactForces`. -/
noncomputable def faceAccOps {ms : Fin R → Manager ℝ} (p : PairData ms) : Option (List (ℤ × ℝ)) := do
  let face ← setNodalContactForces (remoteForce p) (some (remoteProjection p).bary) (exportGeometry (pairFace p))
  pure (addVec (3 * (p.2.2 : ℕ)) face.force1 ++ addVec (3 * (p.2.2 : ℕ) + 1) face.force2
    ++ addVec (3 * (p.2.2 : ℕ) + 2) face.force3)

/-- `list_.insert(…)` and `noSkip` (arborx_parallel_contact_manager.cc:146-151) for the invocations of one rank, in the order in
which they pass the critical section: an invocation proceeds if its pair is not in the set yet. -/
def firsts {α : Type*} [DecidableEq α] (seen : List α) : List α → List α
  | [] => []
  | p :: l => if p ∈ seen then firsts seen l else p :: firsts (p :: seen) l

/-- The invocations on one rank that update their face: those with `inside`, first of their pair. -/
noncomputable def winners {ms : Fin R → Manager ℝ} (calls : List (PairData ms)) : List (PairData ms) :=
  firsts [] (calls.filter fun p => (remoteProjection p).inside)

/-- The faces of a rank after the query: accumulators, and the status flag (set by `atomic_assign`,
arborx_parallel_contact_manager.cc:156; cleared by `ResetContactStatus`, nimble_contact_manager.cc:1622-1628). -/
noncomputable def accumulatedFaces {ms : Fin R → Manager ℝ} (r : Fin R) (calls : List (PairData ms)) (acc : ℤ → ℝ) :
    List (Entity ℝ) :=
  (List.finRange (ms r).faces.length).map fun j =>
    { (ms r).faces[j] with
      force1 := nodeVec acc (3 * (j : ℕ))
      force2 := nodeVec acc (3 * (j : ℕ) + 1)
      force3 := nodeVec acc (3 * (j : ℕ) + 2)
      status := (winners calls).any fun p => decide (p.2 = ⟨r, j⟩) }

/-- The additions of "Update Node Force" (arborx_parallel_contact_manager.cc:294-309) for one result: nothing without force,
else `force_1_ = force_node_` (the negative of the force, 169-174) and a scatter. -/
noncomputable def nodeResultOps {ms : Fin R → Manager ℝ} (p : PairData ms) : List (ℤ × ℝ) :=
  if (remoteProjection p).inside then
    scatterOps { pairNode p with force1 := fun d => - remoteForce p d, status := true }
  else []

/-- A behaviour of `dtree.query` (arborx_parallel_contact_manager.cc:282-288) on displaced managers `ms`: the invocations
of the callback on each rank, and the results delivered to each contact node. -/
structure Query (ms : Fin R → Manager ℝ) where
  calls : Fin R → List (PairData ms)
  results : (Σ r : Fin R, Fin (ms r).nodes.length) → List (PairData ms)
  calls_mem : ∀ r p, p ∈ calls r ↔ p.2.1 = r ∧ boxesIntersect (pairNode p) (pairFace p)
  results_mem : ∀ n p, p ∈ results n ↔ p.1 = n ∧ boxesIntersect (pairNode p) (pairFace p)
  results_nodup : ∀ n, (results n).Nodup

/-- `RankForce ms q r F`: `F` is a possible value of `contact_force` of rank `r` before the reduction
(arborx_parallel_contact_manager.cc:257-318).  The additions of the callbacks to the faces, and those of the node loop to
the force vector, are atomic and happen in any order; the face loop (311-314) is sequential and scatters the faces
with status. -/
def RankForce (ms : Fin R → Manager ℝ) (q : Query ms) (r : Fin R) (F : ℕ → Fin 3 → ℝ) : Prop :=
  ∃ accOps accAll nodeOps,
    (((winners (q.calls r)).mapM faceAccOps).map List.flatten = some accAll ∧ accOps.Perm accAll) ∧
    nodeOps.Perm ((List.finRange (ms r).nodes.length).flatMap fun i => (q.results ⟨r, i⟩).flatMap nodeResultOps) ∧
    let faces := accumulatedFaces r (q.calls r) (runOps (fun _ => 0) accOps)
    let faceOps := (faces.filter fun f => f.status).flatMap scatterOps
    F = getForces (ms r) (runOps (runOps (fun _ => 0) nodeOps) faceOps) (fun _ => 0)

/-- `ComputeParallelContactForce` on all ranks up to `VectorReduction`
(arborx_parallel_contact_manager.cc:256-318, after `ZeroContactForce` and `ResetContactStatus`,
parallel_contact_manager.h:60-69): `F r` is a possible value of `contact_force` of rank `r`. -/
def ParallelForce (ms : Fin R → Manager ℝ) (disp : Fin R → ℕ → Fin 3 → ℝ) (F : Fin R → ℕ → Fin 3 → ℝ) : Prop :=
  (∀ r, 0 < (ms r).penalty) ∧
  ∃ q : Query (fun r => applyDisplacements (disp r) (ms r)), ∀ r, RankForce _ q r (F r)

end NimbleSM.Contact
