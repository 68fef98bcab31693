import Verif.Bc.Kinematic
import Mathlib.Data.Rat.Cast.OfScientific

/-!
# Explicit time integration: `src/integrators/explicit_time_integrator.cc`

`ExplicitTimeIntegrator::Integrate`, one rank, exact arithmetic.  What the integrator calls is a
parameter: `Physics` has the external force, the internal force and (when contact is enabled) the contact
force as arbitrary functions with an arbitrary state `S` (element data, material state, contact
entities), any of which may abort (`none`).  Console output, timers and the contact visualisation file are
not modelled; `UpdateWithNewVelocity`/`UpdateWithNewDisplacement` do nothing here (nimble_model_data_base.h:245-262;
they act only with uncertainty quantification and on Kokkos mirrors).  A view operation such as
`velocity += half_delta_time * acceleration` acts on every entry of the view.
-/

namespace NimbleSM.Integrate

open NimbleSM.Bc

variable {K S : Type*} [Field K] [LinearOrder K]

/-- What one force evaluation can depend on and returns. -/
structure Physics (K S : Type*) where
  /-- `ComputeExternalForce` (line 223) -/
  external : S → (tp tc : K) → (output : Bool) → Nodal K
  /-- `ComputeInternalForce` (lines 228-229) -/
  internal : S → (tp tc : K) → (output : Bool) → (displacement : Nodal K) → Option (Nodal K × S)
  /-- `ComputeContactForce` (line 235), `none` when contact is not enabled -/
  contact : Option (S → (step : ℕ) → (displacement : Nodal K) → Option (Nodal K × S))
  /-- `UpdateStates` (line 277) -/
  updateStates : S → S

/-- The input of a run (lines 128-136 and the boundary conditions). -/
structure Config (K : Type*) where
  manager : Manager K
  /-- `reference_coordinate` -/
  X : Nodal K
  /-- `lumped_mass` -/
  mass : ℕ → K
  initialTime : K
  finalTime : K
  /-- `num_load_steps` -/
  numSteps : ℕ
  /-- `output_frequency` -/
  frequency : ℤ

/-- One call of `WriteOutput` (lines 150, 271): the time and the kinematic fields at that moment. -/
structure Output (K : Type*) where
  time : K
  displacement : Nodal K
  velocity : Nodal K
  acceleration : Nodal K

/-- The fields during a run. -/
structure Sim (K S : Type*) where
  time : K
  displacement : Nodal K
  velocity : Nodal K
  acceleration : Nodal K
  state : S
  outputs : List (Output K)

/-- Line 136: `user_specified_time_step`. -/
def Config.dt (c : Config K) : K := (c.finalTime - c.initialTime) / c.numSteps

/-- Lines 187-190: `is_output_step`. -/
def Config.isOutputStep (c : Config K) (step : ℕ) : Bool :=
  c.frequency ≠ 0 ∧ ((step : ℤ) % c.frequency = 0 ∨ (step : ℤ) = c.numSteps - 1)

/-- `view += a * other` (nimble_view.h operators). -/
def axpy (v : Nodal K) (a : K) (w : Nodal K) : Nodal K := fun n i => v n i + a * w n i

/-- `ApplyKinematicConditions` (nimble_model_data_base.cc:92-100): displacement and velocity after the call. -/
def kinematic (c : Config K) (tc tp : K) (u v : Nodal K) : Nodal K × Nodal K :=
  let r := applyKinematicBC c.manager tc tp c.X { displacement := u, velocity := v, offnom := [] }
  (r.displacement, r.velocity)

/-- Lines 243-257: `A = M^{-1} (F + b [+ contact])`. -/
def accel (c : Config K) (internal external : Nodal K) (contact : Option (Nodal K)) : Nodal K :=
  fun n i =>
    let oneOverM := 1 / c.mass n
    match contact with
    | some f => oneOverM * (internal n i + external n i + f n i)
    | none => oneOverM * (internal n i + external n i)

/-- Lines 233-239: the contact force, when enabled. -/
def contactForce (p : Physics K S) (s : S) (step : ℕ) (u : Nodal K) : Option (Option (Nodal K) × S) :=
  match p.contact with
  | none => some (none, s)
  | some f => (f s step u).map fun (force, s) => (some force, s)

/-- Lines 177-278: one pass of the time loop. -/
def step (c : Config K) (p : Physics K S) (k : ℕ) (s : Sim K S) : Option (Sim K S) := do
  let is_output_step := c.isOutputStep k
  let time_previous := s.time
  let time_current := s.time + c.dt
  let delta_time := time_current - time_previous
  let half_delta_time := 0.5 * delta_time
  -- V^{n+1/2}
  let velocity := axpy s.velocity half_delta_time s.acceleration
  let (displacement, velocity) := kinematic c time_current time_previous s.displacement velocity
  -- U^{n+1}
  let displacement := axpy displacement delta_time velocity
  let (displacement, velocity) := kinematic c time_current time_previous displacement velocity
  let external := p.external s.state time_previous time_current is_output_step
  let (internal, st) ← p.internal s.state time_previous time_current is_output_step displacement
  let (contact, st) ← contactForce p st (k + 1) displacement
  let acceleration := accel c internal external contact
  -- V^{n+1}
  let velocity := axpy velocity half_delta_time acceleration
  let (displacement, velocity) :=
    if is_output_step then kinematic c time_current time_previous displacement velocity
    else (displacement, velocity)
  let outputs :=
    if is_output_step then s.outputs ++ [⟨time_current, displacement, velocity, acceleration⟩]
    else s.outputs
  some { time := time_current, displacement, velocity, acceleration, state := p.updateStates st, outputs }

/-- Lines 145-150: initial conditions, kinematic conditions at time zero, first output.  The fields are as
allocated: zero. -/
def start (c : Config K) (s : S) : Sim K S :=
  let (velocity, _) := applyInitialConditions c.manager c.X (fun _ _ => 0) []
  let (displacement, velocity) := kinematic c 0 0 (fun _ _ => 0) velocity
  let acceleration : Nodal K := fun _ _ => 0
  { time := c.initialTime, displacement, velocity, acceleration, state := s,
    outputs := [⟨c.initialTime, displacement, velocity, acceleration⟩] }

/-- The first `n` passes of the time loop. -/
def loop (c : Config K) (p : Physics K S) (n : ℕ) (s : Sim K S) : Option (Sim K S) :=
  (List.range n).foldlM (fun s k => step c p k s) s

/-- What ends a run. -/
inductive Result (K S : Type*) where
  /-- `std::invalid_argument` (lines 138-143) -/
  | invalidArgument
  /-- the process aborts inside a force evaluation -/
  | abort
  /-- status 0 -/
  | finished (s : Sim K S)

/-- Lines 60-325 `Integrate` on rank `rank`. -/
def integrate (c : Config K) (p : Physics K S) (s : S) (rank : ℕ) : Result K S :=
  if rank = 0 ∧ c.finalTime < c.initialTime then .invalidArgument
  else match loop c p c.numSteps (start c s) with
    | some s => .finished s
    | none => .abort

end NimbleSM.Integrate
