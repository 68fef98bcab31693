import Verif.Contact.Entity

/-!
# Enforcement offered to contact search extensions: `src/nimble_contact_interface.h`, `src/nimble_contact_entity.h:65-90, 455-500`

`ContactInterface::EnforceNodeFaceInteraction` is called by the searches of extensions inside parallel loops, one call per node and face
in contact.  A call writes the forces into the two entities, which are elements of arrays shared by all threads, and adds them from there to
the contact force vector.  A call is modelled as the list of its accesses to shared memory; threads are interleaved access by access.
The fields that a call reads but never writes (type, coordinates, node ids) are constants of the model.  Simplification: reading a field
and the atomic addition of its value are one access.  Exact arithmetic.
-/

namespace NimbleSM.Contact

/-- `TriangleArea` (nimble_contact_entity.h:65-90). -/
noncomputable def triangleArea (p1 p2 p3 : Fin 3 → ℝ) : ℝ :=
  let a : Fin 3 → ℝ := fun i => p2 i - p1 i
  let b : Fin 3 → ℝ := fun i => p3 i - p1 i
  let cross := NimbleSM.Tensor.crossProduct b a
  1 / 2 * Real.sqrt (cross 0 * cross 0 + cross 1 * cross 1 + cross 2 * cross 2)

/-- The shares `N` in `ComputeNodalContactForces` (nimble_contact_entity.h:458-490). -/
noncomputable def shares (e : Entity ℝ) (q : Fin 3 → ℝ) : Fin 3 → ℝ :=
  match e.type with
  | .node => ![1, 0, 0]
  | .triangle =>
    let area1 := triangleArea q e.coord2 e.coord3
    let area2 := triangleArea e.coord1 q e.coord3
    let full := triangleArea e.coord1 e.coord2 e.coord3
    ![area1 / full, area2 / full, 1 - area1 / full - area2 / full]
  | .none => ![0, 0, 0]

/-- A field `force_{vertex+1}_{x,y,z}_` of an entity of the arrays `contact_faces` or `contact_nodes`. -/
structure Slot where
  face : Bool
  index : ℕ
  vertex : Fin 3
  dir : Fin 3
  deriving DecidableEq

/-- An access to shared memory. -/
inductive Access
  /-- assignment to a field -/
  | store (slot : Slot) (x : ℝ)
  /-- `atomic_add(&force[address], field)`, or `field / 4.0` -/
  | add (slot : Slot) (quarter : Bool) (address : ℤ)

/-- The three assignments to the force of one vertex. -/
def storeVertex (face : Bool) (index : ℕ) (vertex : Fin 3) (x : Fin 3 → ℝ) : List Access :=
  [.store ⟨face, index, vertex, 0⟩ (x 0), .store ⟨face, index, vertex, 1⟩ (x 1), .store ⟨face, index, vertex, 2⟩ (x 2)]

/-- `ContactEntity::ComputeNodalContactForces` (nimble_contact_entity.h:455-500). -/
noncomputable def computeNodalAccesses (face : Bool) (index : ℕ) (e : Entity ℝ) (F q : Fin 3 → ℝ) : List Access :=
  let N := shares e q
  storeVertex face index 0 (fun d => N 0 * F d) ++
    (if e.type = .triangle then storeVertex face index 1 (fun d => N 1 * F d) ++ storeVertex face index 2 (fun d => N 2 * F d) else [])

/-- The three atomic additions to a node of the contact force vector. -/
def addVertex (face : Bool) (index : ℕ) (vertex : Fin 3) (quarter : Bool) (id : ℤ) : List Access :=
  [.add ⟨face, index, vertex, 0⟩ quarter (3 * id), .add ⟨face, index, vertex, 1⟩ quarter (3 * id + 1),
    .add ⟨face, index, vertex, 2⟩ quarter (3 * id + 2)]

/-- `ContactEntity::ScatterForceToContactManagerForceVector` (nimble_contact_entity.h:259-309). -/
def scatterAccesses (face : Bool) (index : ℕ) (e : Entity ℝ) : List Access :=
  addVertex face index 0 false e.node1 ++
    (if e.type = .triangle then
      addVertex face index 1 false e.node2 ++
        [e.fict 0, e.fict 1, e.fict 2, e.fict 3].flatMap (addVertex face index 2 true)
    else [])

/-- The arguments of one call of `EnforceNodeFaceInteraction` (nimble_contact_interface.h:142-152); entities by their index in the arrays. -/
structure Call where
  node : ℕ
  face : ℕ
  numNodeFaces : ℤ
  gap : ℝ
  direction : Fin 3 → ℝ
  closest : Fin 3 → ℝ

/-- The force `scale * direction` (nimble_contact_interface.h:74-76). -/
noncomputable def Call.force (penalty : ℝ) (c : Call) : Fin 3 → ℝ := fun i => penalty * c.gap / c.numNodeFaces * c.direction i

/-- `KokkosPenaltyContactEnforcement::EnforceContact` (nimble_contact_interface.h:62-85), called by `EnforceNodeFaceInteraction`
(nimble_contact_interface.h:141-153) if `gap < 0`, which it tests again. -/
noncomputable def Call.accesses (penalty : ℝ) (nodes faces : ℕ → Entity ℝ) (c : Call) : List Access :=
  if c.gap < 0 then
    computeNodalAccesses true c.face (faces c.face) (c.force penalty) c.closest ++
      (computeNodalAccesses false c.node (nodes c.node) (fun i => c.force penalty i * -1) c.closest ++
        (scatterAccesses false c.node (nodes c.node) ++ scatterAccesses true c.face (faces c.face)))
  else []

/-- Shared memory: the force fields of the entities and the contact force vector. -/
structure Memory where
  field : Slot → ℝ
  force : ℤ → ℝ

/-- One access. -/
noncomputable def Access.run (m : Memory) : Access → Memory
  | .store s x => { m with field := Function.update m.field s x }
  | .add s quarter a => { m with force := addAt m.force (a, if quarter then m.field s / 4 else m.field s) }

/-- Progress of the threads: how many accesses of each call are done, and the memory. -/
structure Threads where
  done : ℕ → ℕ
  memory : Memory

/-- Thread `i` makes its next access, if it has one left. -/
noncomputable def Threads.step (program : ℕ → List Access) (t : Threads) (i : ℕ) : Threads :=
  match (program i)[t.done i]? with
  | none => t
  | some a => { done := Function.update t.done i (t.done i + 1), memory := a.run t.memory }

/-- A schedule: which thread makes its next access. -/
noncomputable def runSchedule (program : ℕ → List Access) (schedule : List ℕ) (t : Threads) : Threads :=
  schedule.foldl (Threads.step program) t

/-- `ContactInterface::ComputeContact` (nimble_contact_interface.h:115-124) for a search extension that reports the calls `calls` and executes
them in parallel by `schedule`: the force vector is set to zero before. -/
noncomputable def computeContact (penalty : ℝ) (nodes faces : ℕ → Entity ℝ) (calls : List Call) (schedule : List ℕ) (field : Slot → ℝ) : Threads :=
  runSchedule (fun i => (calls[i]?.map (Call.accesses penalty nodes faces)).getD []) schedule
    { done := fun _ => 0, memory := { field := field, force := fun _ => 0 } }

end NimbleSM.Contact
