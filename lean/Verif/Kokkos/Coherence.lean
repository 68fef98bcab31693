import Verif.Integrate.Explicit

/-!
# Host and device copies of the nodal fields during explicit time integration

`nimble_kokkos::ModelData` (src/nimble_kokkos_model_data.cc) keeps every field twice: on the device (where
the element kernels run) and on the host (what `GetVectorNodeData` returns to the integrator and to the
boundary conditions).  The host copy is made by `Kokkos::create_mirror_view` (lines 625-635), which returns
the device view itself when the host can access the memory of the device (Serial, OpenMP, Qthreads, CUDA
with unified memory: nimble_kokkos_defs.h:54-86) and separate memory otherwise (CUDA).

What the kernels compute is a parameter (`DevPhysics`), made precise in `Verif.Kokkos.Kernels`.  Work arrays
filled by gathering are described by the nodal field they were gathered from.  One rank; the vector
reductions are the parameter `reduce` (the identity on one rank).
-/

namespace NimbleSM.Kokkos.Coherence

open NimbleSM.Bc NimbleSM.Integrate

variable {K S E : Type*} [Field K] [LinearOrder K]

/-- A field with its host mirror (nimble_kokkos_model_data.cc:625-635). -/
structure Mirror (α : Type*) where
  host : α
  dev : α

/-- Freshly allocated views hold zeros; both copies. -/
def Mirror.fresh {α : Type*} (a : α) : Mirror α := ⟨a, a⟩

/-- A write through the host view.  `shared`: both views are the same memory. -/
def Mirror.setHost {α : Type*} (shared : Bool) (m : Mirror α) (a : α) : Mirror α :=
  if shared then ⟨a, a⟩ else ⟨a, m.dev⟩

/-- A write through the device view. -/
def Mirror.setDev {α : Type*} (shared : Bool) (m : Mirror α) (a : α) : Mirror α :=
  if shared then ⟨a, a⟩ else ⟨m.host, a⟩

/-- `Kokkos::deep_copy(device, host)`. -/
def Mirror.toDev {α : Type*} (m : Mirror α) : Mirror α := ⟨m.host, m.host⟩

/-- `Kokkos::deep_copy(host, device)`. -/
def Mirror.toHost {α : Type*} (m : Mirror α) : Mirror α := ⟨m.dev, m.dev⟩

/-- What the kernels compute. -/
structure DevPhysics (K S E : Type*) where
  /-- the masses of the nodes from the coordinates on the device (lines 1100-1137) -/
  mass : Nodal K → ℕ → K
  /-- `VectorReduction` of a scalar and of a vector field on the host -/
  reduceMass : (ℕ → K) → ℕ → K
  reduceForce : Nodal K → Nodal K
  /-- `ComputeExternalForce`; nimble_model_data_base.h:170-180 does nothing -/
  external : S → (tp tc : K) → (output : Bool) → Nodal K
  /-- the internal force on the device from device coordinates and displacement (lines 1180-1280) -/
  internal : S → (tp tc : K) → (output : Bool) → (X u : Nodal K) → Option (Nodal K × S)
  /-- the contact force on the device from the device displacement (nimble_contact_manager.cc:395-424) -/
  contact : Option (S → (step : ℕ) → (u : Nodal K) → Option (Nodal K × S))
  updateStates : S → S
  /-- the element data of an output from gathered coordinates and displacement (lines 383-541) -/
  element : S → (gX gU : Nodal K) → E

/-- The fields. -/
structure KSim (K S E : Type*) where
  time : K
  X : Mirror (Nodal K)
  displacement : Mirror (Nodal K)
  velocity : Mirror (Nodal K)
  acceleration : Mirror (Nodal K)
  mass : Mirror (ℕ → K)
  internalForce : Mirror (Nodal K)
  contactForce : Mirror (Nodal K)
  /-- `gathered_reference_coordinate_d`, `gathered_displacement_d` -/
  gX : Nodal K
  gU : Nodal K
  state : S
  /-- what `WriteOutput` wrote: nodal fields and element data -/
  outputs : List (Output K × E)

variable (shared : Bool) (c : Config K) (p : DevPhysics K S E)

/-- nimble_data_manager.cc:145-175: allocation of the fields, and nimble_model_data_base.cc:56-83
`SetReferenceCoordinates`, which writes the host view.  `X` are the coordinates of the mesh. -/
def allocate (s : S) : KSim K S E :=
  let z : Nodal K := fun _ _ => 0
  { time := c.initialTime, X := (Mirror.fresh z).setHost shared c.X, displacement := .fresh z,
    velocity := .fresh z, acceleration := .fresh z, mass := .fresh fun _ => 0, internalForce := .fresh z,
    contactForce := .fresh z, gX := z, gU := z, state := s, outputs := [] }

/-- nimble_kokkos_model_data.cc:1068-1152 `ComputeLumpedMass`: both copies set to zero, coordinates gathered
from the device, masses added on the device, copied to the host, reduced on the host. -/
def computeLumpedMass (k : KSim K S E) : KSim K S E :=
  let m := k.mass.setHost shared fun _ => 0
  let m := m.setDev shared fun _ => 0
  let m := m.setDev shared (p.mass k.X.dev)
  let m := m.toHost
  let m := m.setHost shared (p.reduceMass m.host)
  { k with mass := m, gX := k.X.dev }

/-- nimble_model_data_base.cc:92-100 `ApplyKinematicConditions`: reads and writes host views. -/
def applyKinematic (tc tp : K) (k : KSim K S E) : KSim K S E :=
  let (u, v) := kinematic { c with X := k.X.host } tc tp k.displacement.host k.velocity.host
  { k with displacement := k.displacement.setHost shared u, velocity := k.velocity.setHost shared v }

/-- nimble_kokkos_model_data.cc:1331-1357 `WriteExodusOutput`: displacement and velocity are copied to the
device; element data come from the gathered arrays as they are; nodal data are read on the host. -/
def writeOutput (k : KSim K S E) : KSim K S E :=
  { k with
    displacement := k.displacement.toDev
    velocity := k.velocity.toDev
    outputs := k.outputs ++ [(⟨k.time, k.displacement.host, k.velocity.host, k.acceleration.host⟩,
      p.element k.state k.gX k.gU)] }

/-- nimble_kokkos_model_data.cc:1155-1286 `ComputeInternalForce`: the arguments `displacement` and `force` are
not used; gathers from the device, adds on the device, copies to the host, reduces on the host. -/
def computeInternalForce (tp tc : K) (out : Bool) (k : KSim K S E) : Option (KSim K S E) :=
  let f := k.internalForce.setDev shared fun _ _ => 0
  let gX := k.X.dev
  let gU := k.displacement.dev
  (p.internal k.state tp tc out gX gU).map fun (F, st) =>
    let f := (f.setDev shared F).toHost
    { k with gX, gU, state := st, internalForce := f.setHost shared (p.reduceForce f.host) }

/-- nimble_contact_manager.cc:395-424 `ComputeContactForce` (called when contact is enabled): device
displacement, force on the device, copied to the host, reduced. -/
def computeContactForce (step : ℕ) (k : KSim K S E) : Option (KSim K S E) :=
  match p.contact with
  | none => some k
  | some g =>
    let f := k.contactForce.setDev shared fun _ _ => 0
    (g k.state step k.displacement.dev).map fun (F, st) =>
      let f := (f.setDev shared F).toHost
      { k with state := st, contactForce := f.setHost shared (p.reduceForce f.host) }

/-- explicit_time_integrator.cc:197-217: velocity at mid step, conditions, displacement, conditions.
`tc`, `tp` are the current and the previous time. -/
def predict (tc tp : K) (k : KSim K S E) : KSim K S E :=
  -- lines 197-200
  let k := { k with
    velocity := k.velocity.setHost shared (axpy k.velocity.host (0.5 * (tc - tp)) k.acceleration.host) }
  let k := { k with velocity := k.velocity.toDev }
  -- line 204
  let k := applyKinematic shared c tc tp k
  -- lines 209-211
  let k := { k with
    displacement := k.displacement.setHost shared (axpy k.displacement.host (tc - tp) k.velocity.host) }
  let k := { k with displacement := k.displacement.toDev }
  -- line 215
  applyKinematic shared c tc tp k

/-- explicit_time_integrator.cc:242-277: acceleration, velocity, output, state update. -/
def correct (out : Bool) (tc tp : K) (external : Nodal K) (k : KSim K S E) : KSim K S E :=
  let a := accel { c with mass := k.mass.host } k.internalForce.host external
    (p.contact.map fun _ => k.contactForce.host)
  let k := { k with acceleration := k.acceleration.setHost shared a }
  -- lines 260-262
  let k := { k with
    velocity := k.velocity.setHost shared (axpy k.velocity.host (0.5 * (tc - tp)) k.acceleration.host) }
  let k := { k with velocity := k.velocity.toDev, time := tc }
  -- lines 266-275
  let k := if out then writeOutput p (applyKinematic shared c tc tp k) else k
  { k with state := p.updateStates k.state }

/-- explicit_time_integrator.cc:177-278 with the model data above. -/
def kstep (n : ℕ) (k : KSim K S E) : Option (KSim K S E) :=
  let tp := k.time
  let tc := k.time + c.dt
  let k := predict shared c tc tp k
  let external := p.external k.state tp tc (c.isOutputStep n)
  (computeInternalForce shared p tp tc (c.isOutputStep n) k).bind fun k =>
    (computeContactForce shared p (n + 1) k).map fun k => correct shared c p (c.isOutputStep n) tc tp external k

/-- explicit_time_integrator.cc:122-150: masses, initial conditions, kinematic conditions, first output. -/
def kstart (s : S) : KSim K S E :=
  let k := computeLumpedMass shared p (allocate (E := E) shared c s)
  let (v, _) := applyInitialConditions c.manager k.X.host k.velocity.host []
  let k := { k with velocity := k.velocity.setHost shared v }
  let k := applyKinematic shared c 0 0 k
  writeOutput p k

/-- The first `n` passes of the time loop. -/
def kloop (n : ℕ) (s : S) : Option (KSim K S E) :=
  (List.range n).foldlM (fun k i => kstep shared c p i k) (kstart shared c p s)

end NimbleSM.Kokkos.Coherence
