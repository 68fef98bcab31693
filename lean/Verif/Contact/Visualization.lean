import Verif.Contact.Entity
import Verif.Mesh.Genesis
import Verif.Mesh.ExodusSteps
import Verif.Integrate.Explicit

/-!
# Contact visualization: `src/nimble_contact_manager.cc`, and the contact report of the explicit integrator

A signed 32-bit overflow (undefined behaviour) is modelled as wrapping around.
-/

namespace NimbleSM.Contact

open NimbleSM.Genesis (Mesh)
open NimbleSM.ExodusOut (Out StepArgs initVariables writeSteps)
open NimbleSM.Fields (Str)

variable {K : Type}

/-- The value of an `int` expression. -/
def int32 (x : ℤ) : ℤ := Int.bmod x (2 ^ 32)

/-- nimble_contact_manager.cc:482-486 (488-492): one pass of the loops for the maximum. -/
def raiseId (m : ℤ) (e : Entity K) : ℤ := if e.gid > m then e.gid else m

/-- nimble_contact_manager.cc:480-493: the largest entity id of a rank. -/
def maxEntityId (faces nodes : List (Entity K)) : ℤ := nodes.foldl raiseId (faces.foldl raiseId 0)

/-- nimble_contact_manager.cc:494-501: `MPI_Allreduce` with `MPI_MAX` over the ranks (the maximum of each
rank is at least zero).  Without MPI there is one rank. -/
def globalMaxEntityId (ranks : List (List (Entity K) × List (Entity K))) : ℤ :=
  (ranks.map fun r => maxEntityId r.1 r.2).foldl max 0

/-- The vectors filled in nimble_contact_manager.cc:503-560; `conn` is the connectivity of the current block. -/
structure VisLists (K : Type) where
  nodeGid : List ℤ := []
  x : List K := []
  y : List K := []
  z : List K := []
  elemGid : List ℤ := []
  conn : List ℤ := []
  nodeIndex : ℤ := 0

/-- nimble_contact_manager.cc:525-529 (530-534, 535-539, 554-558): one node. -/
def VisLists.pushNode (s : VisLists K) (id : ℤ) (p : Fin 3 → K) : VisLists K :=
  { s with nodeGid := s.nodeGid ++ [id], x := s.x ++ [p 0], y := s.y ++ [p 1], z := s.z ++ [p 2],
           conn := s.conn ++ [s.nodeIndex], nodeIndex := s.nodeIndex + 1 }

/-- nimble_contact_manager.cc:540 (559). -/
def VisLists.pushElem (s : VisLists K) (id : ℤ) : VisLists K := { s with elemGid := s.elemGid ++ [id] }

/-- nimble_contact_manager.cc:522-541: a contact face; `m` is the largest id. -/
def visFace (m : ℤ) (s : VisLists K) (f : Entity K) : VisLists K :=
  (((s.pushNode (int32 (3 * f.gid + m + 9)) f.coord1).pushNode (int32 (3 * f.gid + m + 10)) f.coord2).pushNode
    (int32 (3 * f.gid + m + 11)) f.coord3).pushElem f.gid

/-- nimble_contact_manager.cc:551-560: a contact node. -/
def visNode (s : VisLists K) (n : Entity K) : VisLists K := (s.pushNode n.gid n.coord1).pushElem n.gid

/-- nimble_contact_manager.cc:503-574 with nimble_genesis_mesh.cc:429-457: the visualization mesh of a rank. -/
def visMesh (m : ℤ) (faces nodes : List (Entity K)) : Mesh K :=
  let s1 := faces.foldl (visFace m) {}
  let s2 := nodes.foldl visNode { s1 with conn := [] }
  { dim := 3
    nodeGid := s2.nodeGid
    x := s2.x
    y := s2.y
    z := s2.z
    elemGid := s2.elemGid
    blockIds := [1, 2]
    allBlockIds := [1, 2]
    blockNames := [(1, "contact_faces".toList), (2, "contact_nodes".toList)]
    allBlockNames := [(1, "contact_faces".toList), (2, "contact_nodes".toList)]
    blockElemGids := [(1, []), (2, [])]
    nodesPerElem := [(1, 3), (2, 1)]
    conn := [(1, s1.conn), (2, s2.conn)] }

/-- nimble_contact_manager.cc:691-702 `numActiveContactFaces` on the host copies (713-725 for the accessors). -/
def numActive (faces : List (Entity K)) : ℕ := faces.foldl (fun n f => n + (if f.status then 1 else 0)) 0

/-- The four arrays of `node_data_for_output` and `node_index`. -/
structure VisRows (K : Type) where
  index : ℕ
  dx : List K
  dy : List K
  dz : List K
  status : List K

variable [Sub K] [Zero K] [One K]

/-- `static_cast<double>(bool)`. -/
def boolValue (b : Bool) : K := if b then 1 else 0

/-- nimble_contact_manager.cc:641-645 (646-650, 651-655, 661-665): one node; `none` is a read beyond the
coordinates of the visualization mesh. -/
def visPut (m : Mesh K) (p : Fin 3 → K) (status : Bool) (s : VisRows K) : Option (VisRows K) := do
  let X ← m.x[s.index]?
  let Y ← m.y[s.index]?
  let Z ← m.z[s.index]?
  return { index := s.index + 1
           dx := s.dx.set s.index (p 0 - X)
           dy := s.dy.set s.index (p 1 - Y)
           dz := s.dz.set s.index (p 2 - Z)
           status := s.status.set s.index (boolValue status) }

/-- nimble_contact_manager.cc:638-656: the faces. -/
def visPutFaces (m : Mesh K) : List (Entity K) → VisRows K → Option (VisRows K)
  | [], s => some s
  | f :: fs, s => do
    let s1 ← visPut m f.coord1 f.status s
    let s2 ← visPut m f.coord2 f.status s1
    let s3 ← visPut m f.coord3 f.status s2
    visPutFaces m fs s3

/-- nimble_contact_manager.cc:658-667: the nodes. -/
def visPutNodes (m : Mesh K) : List (Entity K) → VisRows K → Option (VisRows K)
  | [], s => some s
  | n :: ns, s => do
    let s1 ← visPut m n.coord1 n.status s
    visPutNodes m ns s1

/-- nimble_contact_manager.cc:605-678 `WriteVisualizationData`: the arguments of `WriteStep`.  The count is
converted to a `double` (`ofNat`). -/
def visStep (ofNat : ℕ → K) (m : Mesh K) (time : K) (faces nodes : List (Entity K)) : Option (StepArgs K) := do
  let zeros := List.replicate m.x.length (0 : K)
  let s1 ← visPutFaces m faces ⟨0, zeros, zeros, zeros, zeros⟩
  let s2 ← visPutNodes m nodes s1
  return { time := time
           globals := [ofNat (numActive faces)]
           node := [s2.dx, s2.dy, s2.dz, s2.status]
           names := fun b => if b = 1 ∨ b = 2 then some [] else none
           elem := fun _ => none
           derivedNames := fun b => if b = 1 ∨ b = 2 then some [] else none
           derived := fun _ => none }

/-- nimble_contact_manager.cc:576-592: the database, with no step yet. -/
def visInit (m : Mesh K) (numElem : ℤ → ℕ) : Option (Out K) :=
  initVariables { numNodes := m.x.length, blockIds := m.blockIds, numElem := numElem } ["num_contacts".toList]
    ["displacement_x".toList, "displacement_y".toList, "displacement_z".toList, "contact_status".toList]
    (fun b => if b = 1 ∨ b = 2 then some [] else none) (fun b => if b = 1 ∨ b = 2 then some [] else none)

/-- A history: initialization with some entities, then steps with the entities as they are at each time
(nimble_contact_manager.cc:595-602 copies them from the device). -/
def visHistory (ofNat : ℕ → K) (m : ℤ) (faces nodes : List (Entity K)) (numElem : ℤ → ℕ)
    (steps : List (K × List (Entity K) × List (Entity K))) : Option (Out K) := do
  let out ← visInit (visMesh m faces nodes) numElem
  let calls ← steps.mapM fun s => visStep ofNat (visMesh m faces nodes) s.1 s.2.1 s.2.2
  writeSteps calls out

/-! ## The contact report of the explicit integrator -/

/-- Face flags on the host and on the device, and `contactInfo` of the explicit integrator. -/
structure ReportState where
  host : List Bool
  device : List Bool
  info : List (ℕ × ℕ) := []

/-- The number of flags that are set (nimble_contact_manager.cc:691-702). -/
def numSet (l : List Bool) : ℕ := l.foldl (fun n b => n + (if b then 1 else 0)) 0

/-- integrators/explicit_time_integrator.cc:233-239 and 273, one step: the contact search sets the flags of
the faces on the device (`active`); `numActiveContactFaces` reads the flags of the host; a visualization
step copies the device to the host (nimble_contact_manager.cc:595-602). -/
def reportStep (visualization outputStep : Bool) (step : ℕ) (active : List Bool) (s : ReportState) : ReportState :=
  let tmpNum := numSet s.host
  { host := if outputStep && visualization then active else s.host
    device := active
    info := if tmpNum ≠ 0 then s.info ++ [(step, tmpNum)] else s.info }

/-- integrators/explicit_time_integrator.cc:152 and 176-280: all steps of a run with `numSteps` steps;
`active k` are the flags after the contact search of step `k`.  At creation both copies have no flag set
(nimble_contact_manager.cc:363-377). -/
def reportRun {F : Type*} [Field F] [LinearOrder F] (visualization : Bool) (c : NimbleSM.Integrate.Config F) (numFaces : ℕ) (active : ℕ → List Bool) : ReportState :=
  (List.range c.numSteps).foldl (fun s k => reportStep visualization (c.isOutputStep k) k (active k) s)
    { host := List.replicate numFaces false, device := List.replicate numFaces false }

end NimbleSM.Contact
