import Verif.Uq.Uq
import Verif.Integrate.Explicit
import Verif.Assembly.Assembly

/-!
# Sample trajectories: `src/uq/nimble_uq_model_data.cc`, `src/uq/nimble_uq_block.cc`

The explicit time loop (Explicit.lean) of a run with uncertainty quantification, one rank.  A sample's arrays
are flat (`u[3 n + i]`); the views of the fields are functions of node and coordinate (Kinematic.lean).
-/

namespace NimbleSM.Uq

open NimbleSM.Bc NimbleSM.Integrate NimbleSM.Hex NimbleSM.Constitutive NimbleSM.Assembly
open NimbleSM.Deck (Str)

variable {K S : Type} [Field K] [LinearOrder K]

/-- The arrays of one sample (nimble_uq.cc:281-300 `Allocate`; zero at first). -/
structure Sample (K : Type*) where
  u : ℕ → K
  v : ℕ → K
  f : ℕ → K

/-- The sizes and coefficients (nimble_uq.h:145-171). -/
structure Setup (K : Type*) where
  nnodes : ℕ
  nexact : ℕ
  napprox : ℕ
  coeff : ℕ → ℕ → K

/-- What one force evaluation can depend on and returns. -/
structure UPhysics (K S : Type*) where
  /-- the nominal forces -/
  base : Physics K S
  /-- nimble_uq_model_data.cc:164-206 for exact sample `k`: the sum over the blocks of the forces with the sample's
  parameters at the sample's displacements.  The code loops over the blocks outside and over the samples
  inside; every sample has its own array.  `none`: the process aborts, or parameters are missing. -/
  exact : ℕ → (displacement : ℕ → K) → Option (ℕ → K)

/-- The fields during a run: those of the nominal solution, the external force and those of the samples. -/
structure USim (K S : Type*) where
  sim : Sim K S
  external : Nodal K
  samples : ℕ → Sample K

/-- `Viewify<2>(u, {nnodes, 3}, {3, 1})`: entry `(n, i)`. -/
def view (a : ℕ → K) : Nodal K := fun n i => a (3 * n + i)

/-- The array behind a view. -/
def flat (w : Nodal K) : ℕ → K := fun k => w (k / 3) (k % 3)

/-- nimble_uq_model_data.cc:221-237 `UpdateWithNewVelocity`, one sample. -/
def updateVelocity (c : Config K) (nunknowns : ℕ) (external : Nodal K) (dt : K) (s : Sample K) : Sample K :=
  { s with v := (List.range nunknowns).foldl (fun v i =>
      put v i (v i + dt * ((1 / c.mass (i / 3)) * (s.f i + flat external i)))) s.v }

/-- nimble_uq_model_data.cc:239-248 `UpdateWithNewDisplacement`, one sample. -/
def updateDisplacement (nunknowns : ℕ) (dt : K) (s : Sample K) : Sample K :=
  { s with u := (List.range nunknowns).foldl (fun u i => put u i (u i + dt * s.v i)) s.u }

/-- nimble_uq_model_data.cc:134-142 `ApplyKinematicConditions`: displacement, velocity, samples. -/
def kinematicU (c : Config K) (g : Setup K) (tc tp : K) (u v : Nodal K) (samples : ℕ → Sample K) :
    Nodal K × Nodal K × (ℕ → Sample K) :=
  let r := applyKinematicBC c.manager tc tp c.X
    { displacement := u, velocity := v
      offnom := (List.range (g.nexact + g.napprox)).map fun j => view (samples j).v }
  (r.displacement, r.velocity, fun j => { samples j with v := (r.offnom[j]?.map flat).getD (samples j).v })

/-- nimble_uq_model_data.cc:155-218 `ComputeInternalForce` for the samples: every force is set to zero, the exact ones
are computed, reduced (which changes nothing on one rank, but needs an approximate sample: C53), and the closure
is applied. -/
def sampleForces (g : Setup K) (p : UPhysics K S) (nominal : Nodal K) (samples : ℕ → Sample K) : Option (ℕ → Sample K) := do
  let exact ← (List.range g.nexact).mapM fun k => p.exact k (samples k).u
  let forces := exact ++ List.replicate g.napprox (fun _ => 0)
  let forces ← reduceSamples id g.nexact forces
  let closed := applyClosure g.nexact g.napprox (3 * g.nnodes) g.coeff (flat nominal) (fun t => forces.getD t (fun _ => 0))
  some fun j => { samples j with f := closed j }

/-- explicit_time_integrator.cc:177-278: one pass of the time loop. -/
def ustep (c : Config K) (g : Setup K) (p : UPhysics K S) (k : ℕ) (s : USim K S) : Option (USim K S) := do
  let is_output_step := c.isOutputStep k
  let time_previous := s.sim.time
  let time_current := s.sim.time + c.dt
  let delta_time := time_current - time_previous
  let half_delta_time := 0.5 * delta_time
  let velocity := axpy s.sim.velocity half_delta_time s.sim.acceleration
  let samples := fun j => updateVelocity c (3 * g.nnodes) s.external half_delta_time (s.samples j)
  let (displacement, velocity, samples) := kinematicU c g time_current time_previous s.sim.displacement velocity samples
  let displacement := axpy displacement delta_time velocity
  let samples := fun j => updateDisplacement (3 * g.nnodes) delta_time (samples j)
  let (displacement, velocity, samples) := kinematicU c g time_current time_previous displacement velocity samples
  let external := p.base.external s.sim.state time_previous time_current is_output_step
  let (internal, st) ← p.base.internal s.sim.state time_previous time_current is_output_step displacement
  let samples ← sampleForces g p internal samples
  let (contact, st) ← contactForce p.base st (k + 1) displacement
  let acceleration := accel c internal external contact
  let velocity := axpy velocity half_delta_time acceleration
  let samples := fun j => updateVelocity c (3 * g.nnodes) external half_delta_time (samples j)
  let (displacement, velocity, samples) :=
    if is_output_step then kinematicU c g time_current time_previous displacement velocity samples
    else (displacement, velocity, samples)
  let outputs :=
    if is_output_step then s.sim.outputs ++ [⟨time_current, displacement, velocity, acceleration⟩]
    else s.sim.outputs
  some { sim := { time := time_current, displacement, velocity, acceleration, state := p.base.updateStates st, outputs }
         external, samples }

/-- explicit_time_integrator.cc:145-150, nimble_uq_model_data.cc:125-132: initial conditions and kinematic conditions at
time zero, for all fields. -/
def ustart (c : Config K) (g : Setup K) (s : S) : USim K S :=
  let zero : ℕ → Sample K := fun _ => ⟨fun _ => 0, fun _ => 0, fun _ => 0⟩
  let (velocity, offnom) := applyInitialConditions c.manager c.X (fun _ _ => 0)
    ((List.range (g.nexact + g.napprox)).map fun j => view (zero j).v)
  let samples := fun j => { zero j with v := (offnom[j]?.map flat).getD (zero j).v }
  let (displacement, velocity, samples) := kinematicU c g 0 0 (fun _ _ => 0) velocity samples
  let acceleration : Nodal K := fun _ _ => 0
  { sim := { time := c.initialTime, displacement, velocity, acceleration, state := s,
             outputs := [⟨c.initialTime, displacement, velocity, acceleration⟩] }
    external := fun _ _ => 0, samples }

/-- The first `n` passes of the time loop. -/
def uloop (c : Config K) (g : Setup K) (p : UPhysics K S) (n : ℕ) (s : USim K S) : Option (USim K S) :=
  (List.range n).foldlM (fun s k => ustep c g p k s) s

/-! ## The forces of an exact sample -/

/-- A block with its mesh data and its material object; `law` is the stress of one integration point for given
constants. -/
structure UBlk (K : Type*) where
  material : Material K
  law : Material K → (Fin 9 → K) → Option (Fin 6 → K)
  numElem : ℕ
  conn : ℕ → ℕ

/-- The mesh part of a block, for the gather and scatter loops; the nominal law. -/
def UBlk.blk (b : UBlk K) (m : Material K) : Blk K :=
  { density := m.density, bulk := m.bulk, law := b.law m, numElem := b.numElem, conn := b.conn }

/-- nimble_uq_block.cc:135-151: the off-nominal force of one element. -/
def offNominalElementForce (val : K) (b : UBlk K) (bulk shear : K) (reference_coordinates displacement : ℕ → K) (elem : ℕ) :
    Option (ℕ → Fin 3 → K) := do
  let mesh := b.blk b.material
  let ref_coord := gather mesh elem reference_coordinates
  let cur_coord := gather mesh elem (fun k => reference_coordinates k + displacement k)
  let def_grad_np1 ← computeDeformationGradients val ref_coord cur_coord
  let (_, cauchy_stress_np1) ← getOffNominalStress b.law b.material bulk shear 8 def_grad_np1 (fun _ => 0)
  computeNodalForces val cur_coord cauchy_stress_np1

/-- nimble_uq_block.cc:116-117, 134-163: `ComputeInternalForce` with alternative parameters (`bulk_modulus` and
`shear_modulus`; a missing one is zero). -/
def offNominalBlockForce (val : K) (b : UBlk K) (parameters : Str → Option K) (reference_coordinates displacement : ℕ → K)
    (internal_force : ℕ → K) : Option (ℕ → K) :=
  let bulk := (parameters "bulk_modulus".toList).getD 0
  let shear := (parameters "shear_modulus".toList).getD 0
  (List.range b.numElem).foldlM (fun (out : ℕ → K) elem =>
    (offNominalElementForce val b bulk shear reference_coordinates displacement elem).map fun f =>
      scatter (b.blk b.material) elem f out) internal_force

/-- nimble_uq_model_data.cc:161, 166-206: the force of one exact sample; `parameters b` are the sample's parameters
for block `b`, `none` when there are none. -/
def offNominalForce (val : K) (blocks : List (UBlk K × Option (Str → Option K))) (reference_coordinates displacement : ℕ → K) :
    Option (ℕ → K) :=
  blocks.foldlM (fun (out : ℕ → K) b => b.2.bind fun parameters =>
    offNominalBlockForce val b.1 parameters reference_coordinates displacement out) (fun _ => 0)

end NimbleSM.Uq
