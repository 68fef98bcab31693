import Mathlib.Data.Real.Sqrt
import Mathlib.Algebra.BigOperators.Group.Finset.Basic
import Mathlib.Algebra.Order.Field.Basic
import Mathlib.Tactic.Ring
import Verif.Tensor.Tensor

/-!
# Contact entities and their enforcement: `src/nimble_contact_entity.h`, `src/nimble_contact_entity.cc`,
`src/nimble_contact_manager.h`, `src/nimble_contact_manager.cc` (projection), and the ArborX serial manager
`src/contact/serial/arborx_serial_contact_manager.cc`

Exact arithmetic over an ordered field `K`; the projection needs `sqrt`, hence is over `ℝ`.  The flat arrays
`coord_`, `model_coord_`, `force_` are functions `ℤ → K` from addresses; accesses outside them are not
distinguished.
-/

namespace NimbleSM.Contact

variable {K : Type*} [Field K] [LinearOrder K]

/-- `ContactEntity::ContactEntityType` (nimble_contact_entity.h:117-122). -/
inductive EntityType
  | none | node | triangle
  deriving DecidableEq

/-- Data of a `ContactEntity` (nimble_contact_entity.h:531-596).  The nine scalars `coord_1_x_ …` are three
vectors, likewise forces and bounding box.  Simplifications: `inflation_factor` is the constant `0.15` it
is initialised with (nothing assigns it); the default box is zero instead of `±DBL_MAX` (it is never read
before `SetBoundingBox`). -/
structure Entity (K : Type*) where
  type : EntityType
  numNodes : ℕ
  coord1 : Fin 3 → K
  coord2 : Fin 3 → K
  coord3 : Fin 3 → K
  force1 : Fin 3 → K
  force2 : Fin 3 → K
  force3 : Fin 3 → K
  charLen : K
  boxMin : Fin 3 → K
  boxMax : Fin 3 → K
  centroid : Fin 3 → K
  node1 : ℤ
  node2 : ℤ
  fict : Fin 4 → ℤ
  gid : ℤ
  localId : ℤ
  status : Bool

/-- `ContactEntity() = default` (nimble_contact_entity.h:162, initialisers 531-596). -/
def defaultEntity : Entity K where
  type := .none
  numNodes := 0
  coord1 := 0
  coord2 := 0
  coord3 := 0
  force1 := 0
  force2 := 0
  force3 := 0
  charLen := 0
  boxMin := 0
  boxMax := 0
  centroid := 0
  node1 := -1
  node2 := -1
  fict := fun _ => -1
  gid := -1
  localId := -1
  status := false

/-- `if (x < min) min = x;` (nimble_contact_entity.cc:93,95,97,102,104,106). -/
def lower (x m : K) : K := if x < m then x else m

/-- `if (x > max) max = x;` (nimble_contact_entity.cc:94,96,98,103,105,107). -/
def raise (x m : K) : K := if x > m then x else m

/-- `inflation_factor = 0.15` (nimble_contact_entity.h:557). -/
def inflationFactor : K := 15 / 100

/-- `ContactEntity::SetBoundingBox` (nimble_contact_entity.cc:75-123), the three coordinates at a time. -/
def setBoundingBox (e : Entity K) : Entity K :=
  let sum : Fin 3 → K := fun d =>
    if e.type = .triangle then e.coord1 d + e.coord2 d + e.coord3 d else e.coord1 d
  let mn : Fin 3 → K := fun d =>
    if e.type = .triangle then lower (e.coord3 d) (lower (e.coord2 d) (e.coord1 d)) else e.coord1 d
  let mx : Fin 3 → K := fun d =>
    if e.type = .triangle then raise (e.coord3 d) (raise (e.coord2 d) (e.coord1 d)) else e.coord1 d
  let inflation := inflationFactor * e.charLen
  { e with
    centroid := fun d => sum d / (e.numNodes : K)
    boxMin := fun d => mn d - inflation
    boxMax := fun d => mx d + inflation }

/-- The constructor (nimble_contact_entity.h:187-230).  `coord` is the array argument (3 or 9 entries), `fict`
the array `node_ids_for_fictitious_node`; an invalid type only prints a message. -/
def mkEntity (type : EntityType) (gid localId : ℤ) (coord : ℕ → K) (charLen : K) (n1 n2 : ℤ) (fict : Fin 4 → ℤ) :
    Entity K :=
  let e : Entity K := { (defaultEntity : Entity K) with type := type, charLen := charLen, gid := gid, localId := localId }
  let e := match type with
    | .node => { e with numNodes := 1, node1 := n1 }
    | .triangle => { e with numNodes := 3, node1 := n1, node2 := n2, fict := fict }
    | .none => e
  let e := { e with coord1 := fun d => coord d }
  let e := if type = .triangle then { e with coord2 := fun d => coord (3 + d), coord3 := fun d => coord (6 + d) } else e
  setBoundingBox e

/-- `ContactEntity::SetCoordinates` (nimble_contact_entity.h:235-257). -/
def setCoordinates (coord : ℤ → K) (e : Entity K) : Entity K :=
  let e := { e with coord1 := fun d => coord (3 * e.node1 + d) }
  let e := if e.type = .triangle then
      { e with
        coord2 := fun d => coord (3 * e.node2 + d)
        coord3 := fun d =>
          (coord (3 * e.fict 0 + d) + coord (3 * e.fict 1 + d) + coord (3 * e.fict 2 + d) + coord (3 * e.fict 3 + d)) / 4 }
    else e
  setBoundingBox e

/-- One (atomic) `force[a] += x`. -/
def addAt (f : ℤ → K) (op : ℤ × K) : ℤ → K := Function.update f op.1 (f op.1 + op.2)

/-- A sequence of (atomic) additions. -/
def runOps (f : ℤ → K) (ops : List (ℤ × K)) : ℤ → K := ops.foldl addAt f

/-- The three additions `force[n + d] += v[d]` with `n = 3 * id`. -/
def addVec (id : ℤ) (v : Fin 3 → K) : List (ℤ × K) :=
  [(3 * id, v 0), (3 * id + 1, v 1), (3 * id + 2, v 2)]

/-- `ContactEntity::ScatterForceToContactManagerForceVector` (nimble_contact_entity.h:259-309): the list of
additions it performs, in program order. -/
def scatterOps (e : Entity K) : List (ℤ × K) :=
  addVec e.node1 e.force1 ++
    (if e.type = .triangle then
      addVec e.node2 e.force2 ++
        ([e.fict 0, e.fict 1, e.fict 2, e.fict 3].flatMap fun id => addVec id (fun d => e.force3 d / 4))
    else [])

/-- `ContactEntity::SetNodalContactForces` (nimble_contact_entity.h:427-453); `N = none` is the null pointer and
the result `none` the exception. -/
def setNodalContactForces (F : Fin 3 → K) (N : Option (Fin 3 → K)) (e : Entity K) : Option (Entity K) :=
  match e.type with
  | .none => some e
  | .node => some { e with force1 := fun d => - F d }
  | .triangle =>
    match N with
    | none => none
    | some N => some
      { e with
        force1 := fun d => N 0 * F d
        force2 := fun d => N 1 * F d
        force3 := fun d => N 2 * F d }

/-- `details::getContactForce` (nimble_contact_manager.h:80-85). -/
def getContactForce (penalty gap : K) (normal : Fin 3 → K) : Fin 3 → K := fun i => penalty * gap * normal i

/-- `PenaltyContactEnforcement::EnforceContact` (nimble_contact_manager.h:94-128), as the list of additions to
the contact force vector; `EnforceNodeFaceInteraction` (nimble_contact_manager.h:400-411) forwards to it. -/
def enforceOps (penalty : K) (node face : Entity K) (gap : K) (normal N : Fin 3 → K) : Option (List (ℤ × K)) := do
  let F := getContactForce penalty gap normal
  let tmpFace : Entity K := { (defaultEntity : Entity K) with
    type := face.type, node1 := face.node1, node2 := face.node2, fict := face.fict }
  let tmpFace ← setNodalContactForces F (some N) tmpFace
  let tmpNode : Entity K := { (defaultEntity : Entity K) with type := .node, node1 := node.node1 }
  let tmpNode ← setNodalContactForces F none tmpNode
  pure (scatterOps tmpFace ++ scatterOps tmpNode)

/-- Output of `ContactManager::Projection`. -/
structure ProjectionOut where
  inside : Bool
  gap : ℝ
  normal : Fin 3 → ℝ
  bary : Fin 3 → ℝ

/-- The dot products written out in `Projection`. -/
def dot (a b : Fin 3 → K) : K := a 0 * b 0 + a 1 * b 1 + a 2 * b 2

/-- Default tolerance of `Projection` (nimble_contact_manager.h:297). -/
noncomputable def projectionTol : ℝ := 1 / 10 ^ 8

/-- `ContactManager::Projection` (nimble_contact_manager.cc:1536-1620).  `prev` holds the values of the output
arguments before the call (they are not assigned when the projection misses the triangle).  Division by zero
is zero here and produces NaN in the code: in both cases a triangle with parallel edges is never in contact
(theorem `degenerate_never_inside`). -/
noncomputable def projection (node tri : Entity ℝ) (prev : ProjectionOut) (tol : ℝ) : ProjectionOut :=
  let p := node.coord1
  let p1 := tri.coord1
  let p2 := tri.coord2
  let p3 := tri.coord3
  let u : Fin 3 → ℝ := fun i => p2 i - p1 i
  let v : Fin 3 → ℝ := fun i => p3 i - p1 i
  let w : Fin 3 → ℝ := fun i => p i - p1 i
  let n := NimbleSM.Tensor.crossProduct u v
  let nSquared := n 0 * n 0 + n 1 * n 1 + n 2 * n 2
  let alpha3 := dot (NimbleSM.Tensor.crossProduct u w) n / nSquared
  let alpha2 := dot (NimbleSM.Tensor.crossProduct w v) n / nSquared
  let alpha1 := 1 - alpha2 - alpha3
  let tol2 := 1 + tol
  if (alpha1 > -tol ∧ alpha1 < tol2) ∧ (alpha2 > -tol ∧ alpha2 < tol2) ∧ (alpha3 > -tol ∧ alpha3 < tol2) then
    let xp : Fin 3 → ℝ := fun i => alpha1 * p1 i + alpha2 * p2 i + alpha3 * p3 i
    let dx : Fin 3 → ℝ := fun i => p i - xp i
    let s := 1 / Real.sqrt nSquared
    let normal : Fin 3 → ℝ := fun i => n i * s
    let gap := dx 0 * normal 0 + dx 1 * normal 1 + dx 2 * normal 2
    { inside := decide (gap < 0 ∧ gap > -tri.charLen), gap := gap, normal := normal, bary := ![alpha1, alpha2, alpha3] }
  else { prev with inside := false }

/-- `double gap = 0.0; double normal[3] = {0,0,0}; bool inside = false; …` (arborx_serial_contact_manager.cc:130-133). -/
def projection0 : ProjectionOut := { inside := false, gap := 0, normal := 0, bary := 0 }

/-! ## The serial ArborX manager -/

/-- The part of a `ContactManager` used by the force computation: `node_ids_`, `model_coord_d_`, `coord_d_`, the
penalty and the two entity arrays (nimble_contact_manager.h:433-470). -/
structure Manager (K : Type*) where
  penalty : K
  nodeIds : List ℕ
  modelCoord : ℤ → K
  coord : ℤ → K
  nodes : List (Entity K)
  faces : List (Entity K)

/-- `ContactManager::ApplyDisplacements` (nimble_contact_manager.cc:750-785).  The first loop writes, for every
submodel node `i`, `coord(3i+d) = model_coord(3i+d) + displacement(node_ids(i), d)`; the iterations write
distinct entries, so the parallel loop is the sequential one. -/
def applyDisplacements (disp : ℕ → Fin 3 → K) (m : Manager K) : Manager K :=
  let coord := (List.range m.nodeIds.length).foldl (fun (c : ℤ → K) (i : ℕ) =>
      let nodeId := m.nodeIds.getD i 0
      let c := Function.update c (3 * (i : ℤ)) (m.modelCoord (3 * (i : ℤ)) + disp nodeId 0)
      let c := Function.update c (3 * (i : ℤ) + 1) (m.modelCoord (3 * (i : ℤ) + 1) + disp nodeId 1)
      Function.update c (3 * (i : ℤ) + 2) (m.modelCoord (3 * (i : ℤ) + 2) + disp nodeId 2)) m.coord
  { m with
    coord := coord
    nodes := m.nodes.map (setCoordinates coord)
    faces := m.faces.map (setCoordinates coord) }

/-- `ContactManager::GetForces` (nimble_contact_manager.cc:731-748): for every submodel node `i`,
`contact_force(node_ids(i), d) = force(3i+d)`. -/
def getForces (m : Manager K) (force : ℤ → K) (out : ℕ → Fin 3 → K) : ℕ → Fin 3 → K :=
  (List.range m.nodeIds.length).foldl (fun o (i : ℕ) =>
    Function.update o (m.nodeIds.getD i 0) ![force (3 * (i : ℤ)), force (3 * (i : ℤ) + 1), force (3 * (i : ℤ) + 2)]) out

/-- `ArborX::intersects(box)` against a box (contact/arborx_utils.h:62-118): closed boxes with a common point.
Third party code, specified; ArborX stores the corners in single precision: see `Contact/SinglePrecision.lean`. -/
def boxesIntersect (a b : Entity K) : Prop := ∀ d, a.boxMin d ≤ b.boxMax d ∧ b.boxMin d ≤ a.boxMax d

/-- `ArborXCallback::operator()` (arborx_serial_contact_manager.cc:119-146): the additions made for one node and
one face whose boxes intersect. -/
noncomputable def callbackOps (penalty : ℝ) (node face : Entity ℝ) : Option (List (ℤ × ℝ)) :=
  let r := projection node face projection0 projectionTol
  if r.inside then enforceOps penalty node face r.gap r.normal r.bary else some []

open Classical in
/-- The (node, face) pairs for which `bvh.query` invokes the callback (arborx_serial_contact_manager.cc:183-188):
those with intersecting boxes, each once. -/
noncomputable def queryPairs (m : Manager K) : List (Entity K × Entity K) :=
  (m.nodes.flatMap fun n => m.faces.map fun f => (n, f)).filter fun p => decide (boxesIntersect p.1 p.2)

/-- The additions of all callbacks, callback by callback. -/
noncomputable def allOps (m : Manager ℝ) : Option (List (ℤ × ℝ)) :=
  ((queryPairs m).mapM fun p => callbackOps m.penalty p.1 p.2).map List.flatten

/-- `ArborXSerialContactManager::ComputeSerialContactForce` (arborx_serial_contact_manager.cc:149-195):
`ContactForce m disp F` holds if `F` is a possible value of `contact_force` after the call.  The callbacks run
concurrently and interleave; all accesses to the force vector are atomic additions, so an execution performs
the additions of all callbacks in some order: any permutation is allowed here (a superset of the possible
interleavings).  Contact status flags are not modelled here. -/
def ContactForce (m : Manager ℝ) (disp : ℕ → Fin 3 → ℝ) (F : ℕ → Fin 3 → ℝ) : Prop :=
  0 < m.penalty ∧
  let m := applyDisplacements disp m
  ∃ ops all, allOps m = some all ∧ ops.Perm all ∧ F = getForces m (runOps (fun _ => 0) ops) (fun _ => 0)

end NimbleSM.Contact
