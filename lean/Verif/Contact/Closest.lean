import Verif.Contact.Entity

/-!
# Closest point of a triangle: `ContactManager::ClosestPointProjection` (src/nimble_contact_manager.cc)

Exact arithmetic.  Division by zero is zero here.  In the code it gives NaN: for a triangle without area
all three range tests are then false (`nSquared ≠ 0` below), and for an edge of length zero the test
`t > 0` is false (it is false for zero as well).
-/

namespace NimbleSM.Contact

open NimbleSM.Tensor (crossProduct)

variable {K : Type*} [Field K] [LinearOrder K]

/-- nimble_contact_manager.h:136-141 `PROJECTION_TYPE`, the two values assigned here. -/
inductive ProjectionType
  | nodeOrEdge
  | face
  deriving DecidableEq

/-- nimble_contact_entity.h:90-96 `PointEdgeClosestPointFindT`. -/
def pointEdgeT (p1 p2 p : Fin 3 → K) : K :=
  ((p 0 - p1 0) * (p2 0 - p1 0) + (p 1 - p1 1) * (p2 1 - p1 1) + (p 2 - p1 2) * (p2 2 - p1 2)) /
    ((p2 0 - p1 0) * (p2 0 - p1 0) + (p2 1 - p1 1) * (p2 1 - p1 1) + (p2 2 - p1 2) * (p2 2 - p1 2))

/-- nimble_contact_entity.h:98-106 `PointEdgeClosestPointFindDistanceSquared`. -/
def pointEdgeDistanceSquared (p1 p2 p : Fin 3 → K) (t : K) : K :=
  let temp1 := p1 0 + (p2 0 - p1 0) * t - p 0
  let temp2 := p1 1 + (p2 1 - p1 1) * t - p 1
  let temp3 := p1 2 + (p2 2 - p1 2) * t - p 2
  temp1 * temp1 + temp2 * temp2 + temp3 * temp3

/-- nimble_contact_manager.cc:1371-1374 (1380-1383, 1390-1393): squared distance to a vertex. -/
def vertexDistanceSquared (p1 p : Fin 3 → K) : K :=
  let x := p1 0 - p 0
  let y := p1 1 - p 1
  let z := p1 2 - p 2
  x * x + y * y + z * z

/-- The variables `min_distance_squared`, `min_distance_squared_t` and `min_case`. -/
structure MinState (K : Type*) where
  d : K
  t : K
  case : ℕ

/-- nimble_contact_manager.cc:1384-1387 (1394-1397): a vertex. -/
def tryVertex (q p : Fin 3 → K) (case : ℕ) (s : MinState K) : MinState K :=
  let distance_squared := vertexDistanceSquared q p
  if distance_squared < s.d then { s with d := distance_squared, case := case } else s

/-- nimble_contact_manager.cc:1399-1407 (1409-1417, 1419-1427): an edge. -/
def tryEdge (q1 q2 p : Fin 3 → K) (case : ℕ) (s : MinState K) : MinState K :=
  let t := pointEdgeT q1 q2 p
  if 0 < t ∧ t < 1 then
    let distance_squared := pointEdgeDistanceSquared q1 q2 p t
    if distance_squared < s.d then ⟨distance_squared, t, case⟩ else s
  else s

/-- nimble_contact_manager.cc:1447-1449: a point of an edge. -/
def edgePoint (q1 q2 : Fin 3 → K) (t : K) : Fin 3 → K := fun i => q1 i + (q2 i - q1 i) * t

/-- nimble_contact_manager.cc:1367-1427: the search over vertices and edges. -/
def boundarySearch (p p1 p2 p3 : Fin 3 → K) : MinState K :=
  let s1 : MinState K := ⟨vertexDistanceSquared p1 p, 0, 1⟩
  let s2 := tryVertex p2 p 2 s1
  let s3 := tryVertex p3 p 3 s2
  let s4 := tryEdge p1 p2 p 4 s3
  let s5 := tryEdge p2 p3 p 5 s4
  tryEdge p3 p1 p 6 s5

/-- nimble_contact_manager.cc:1429-1461: the `switch`. -/
def boundaryPoint (p1 p2 p3 : Fin 3 → K) (s : MinState K) : Fin 3 → K :=
  match s.case with
  | 2 => p2
  | 3 => p3
  | 4 => edgePoint p1 p2 s.t
  | 5 => edgePoint p2 p3 s.t
  | 6 => edgePoint p3 p1 s.t
  | _ => p1

/-- nimble_contact_manager.cc:1340-1351: `alpha, beta, gamma`. -/
def barycentric (p p1 p2 p3 : Fin 3 → K) : K × K × K :=
  let u : Fin 3 → K := fun i => p2 i - p1 i
  let v : Fin 3 → K := fun i => p3 i - p1 i
  let w : Fin 3 → K := fun i => p i - p1 i
  let n := crossProduct u v
  let n_squared := n 0 * n 0 + n 1 * n 1 + n 2 * n 2
  let cross := crossProduct u w
  let gamma := (cross 0 * n 0 + cross 1 * n 1 + cross 2 * n 2) / n_squared
  let cross := crossProduct w v
  let beta := (cross 0 * n 0 + cross 1 * n 1 + cross 2 * n 2) / n_squared
  (1 - gamma - beta, beta, gamma)

/-- nimble_contact_manager.cc:1299-1463 `ClosestPointProjectionSingle` for the point `p` and the triangle
`p1 p2 p3` (the coordinates of the two contact entities). -/
def closestPointProjection (p p1 p2 p3 : Fin 3 → K) (tol : K) : (Fin 3 → K) × ProjectionType :=
  let n := crossProduct (fun i => p2 i - p1 i) (fun i => p3 i - p1 i)
  let n_squared := n 0 * n 0 + n 1 * n 1 + n 2 * n 2
  let (alpha, beta, gamma) := barycentric p p1 p2 p3
  let zero : K → Bool := fun x => decide (x > -tol ∧ x < tol)
  let inRange : K → Bool := fun x => decide (x > -tol ∧ x < 1 + tol)
  if n_squared ≠ 0 ∧ inRange alpha ∧ inRange beta ∧ inRange gamma then
    (fun i => alpha * p1 i + beta * p2 i + gamma * p3 i,
      if zero alpha ∨ zero beta ∨ zero gamma then .nodeOrEdge else .face)
  else (boundaryPoint p1 p2 p3 (boundarySearch p p1 p2 p3), .nodeOrEdge)

/-- nimble_contact_manager.cc:1276-1297 `ClosestPointProjection`: the batch (`tol = 1.0e-16`; the point of a
node entity is its first coordinate). -/
def closestPointProjections (nodes : List (Entity K)) (triangles : List (Entity K)) (tol : K) :
    List ((Fin 3 → K) × ProjectionType) :=
  (nodes.zip triangles).map fun nt => closestPointProjection nt.1.coord1 nt.2.coord1 nt.2.coord2 nt.2.coord3 tol

/-- nimble_contact_manager.cc:1466-1535 `SimpleClosestPointProjectionSingle`: the closest point, the gap and
the normal when the projection type is `FACE`, `none` when it is `UNKNOWN` (the outputs are then not
assigned). -/
noncomputable def simpleClosestPoint (node tri : Entity ℝ) (tol : ℝ) : Option ((Fin 3 → ℝ) × ℝ × (Fin 3 → ℝ)) :=
  let p := node.coord1
  let p1 := tri.coord1
  let p2 := tri.coord2
  let p3 := tri.coord3
  let n := crossProduct (fun i => p2 i - p1 i) (fun i => p3 i - p1 i)
  let n_squared := n 0 * n 0 + n 1 * n 1 + n 2 * n 2
  let (alpha1, alpha2, alpha3) := barycentric p p1 p2 p3
  if n_squared ≠ 0 ∧ (alpha1 > -tol ∧ alpha1 < 1 + tol) ∧ (alpha2 > -tol ∧ alpha2 < 1 + tol) ∧
      (alpha3 > -tol ∧ alpha3 < 1 + tol) then
    let x : Fin 3 → ℝ := fun i => alpha1 * p1 i + alpha2 * p2 i + alpha3 * p3 i
    let s := 1 / Real.sqrt n_squared
    let normal : Fin 3 → ℝ := fun i => n i * s
    some (x, (p 0 - x 0) * normal 0 + (p 1 - x 1) * normal 1 + (p 2 - x 2) * normal 2, normal)
  else none

end NimbleSM.Contact
