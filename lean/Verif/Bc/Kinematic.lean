import Verif.Bc.Bc
import Mathlib.Algebra.Order.Field.Basic

/-!
# Applying boundary conditions: `src/nimble_boundary_condition_manager.h`

`ApplyInitialConditions` and `ApplyKinematicBC`.  Exact arithmetic: `double` is an ordered field `K`.
A nodal vector field is a function of node and coordinate (the two-index view of the code); reads and
writes outside the mesh (undefined behaviour in the code) are not distinguished from other entries.
The node-set map's `operator[]` returns (and inserts) an empty list for a missing id; the insertion is
only observable through `.at()` in other functions and is not modelled here.
-/

namespace NimbleSM.Bc

variable {K : Type*}

/-- A nodal vector field: `field(node, coordinate)`. -/
abbrev Nodal (K : Type*) := ℕ → ℕ → K

/-- Assignment `field(n, i) = x`. -/
def setAt (f : Nodal K) (n i : ℕ) (x : K) : Nodal K := fun m j => if m = n ∧ j = i then x else f m j

/-- nimble_boundary_condition_manager.h:62-67 `Time_Integration_Scheme`. -/
inductive Scheme where
  | explicit
  | quasistatic
  | undefined
  deriving DecidableEq, Repr

/-- nimble_boundary_condition_manager.h:263-270: the members used below. -/
structure Manager (K : Type*) where
  /-- `node_sets_` -/
  sets : NodeSets
  /-- `boundary_conditions_` -/
  bcs : List (BoundaryCondition K)
  /-- `dim_` -/
  dim : ℕ
  /-- `time_integration_scheme_` -/
  scheme : Scheme

/-- `node_sets_[node_set_id]`. -/
def Manager.nodeSet (m : Manager K) (bc : BoundaryCondition K) : List ℕ := (m.sets bc.nodeSetId).getD []

/-- nimble_boundary_condition_manager.h:102-103, 110-116 (and 150-151, 162-169, 183-184, 190-197): the
magnitude used for node `n` at time `t`: the constant, or the expression with `x`, `y`, `z`, `t` set. -/
def Manager.value [Zero K] (m : Manager K) (bc : BoundaryCondition K) (X : Nodal K) (n : ℕ) (t : K) : K :=
  match bc.magnitude with
  | .inl c => c
  | .inr f => f (X n 0) (X n 1) (if m.dim = 3 then X n 2 else 0) t

/-- nimble_boundary_condition_manager.h:93-126 `ApplyInitialConditions`; result: `velocity` and
`offnom_velocities`. -/
def applyInitialConditions [Zero K] (m : Manager K) (X velocity : Nodal K) (offnom : List (Nodal K)) :
    Nodal K × List (Nodal K) :=
  m.bcs.foldl (fun st bc =>
    if bc.type = .initialVelocity then
      (m.nodeSet bc).foldl (fun (st : Nodal K × List (Nodal K)) n =>
        (setAt st.1 n bc.coordinate (m.value bc X n 0),
          st.2.map fun o => setAt o n bc.coordinate (m.value bc X n 0))) st
    else st) (velocity, offnom)

/-- The three arguments that `ApplyKinematicBC` writes to. -/
structure Kin (K : Type*) where
  displacement : Nodal K
  velocity : Nodal K
  offnom : List (Nodal K)

/-- nimble_boundary_condition_manager.h:152-161, 162-180: prescribed velocity, one node. -/
def velocityNode [Field K] (m : Manager K) (bc : BoundaryCondition K) (X : Nodal K) (tc dt : K)
    (s : Kin K) (n : ℕ) : Kin K :=
  let mag := m.value bc X n tc
  { velocity := setAt s.velocity n bc.coordinate mag
    offnom := s.offnom.map fun o => setAt o n bc.coordinate mag
    displacement :=
      if m.scheme = .quasistatic then
        setAt s.displacement n bc.coordinate (s.displacement n bc.coordinate + mag * dt)
      else s.displacement }

/-- nimble_boundary_condition_manager.h:183-189, 190-200: prescribed displacement, one node. -/
def displacementNode [Field K] (m : Manager K) (bc : BoundaryCondition K) (X : Nodal K) (tc dt : K)
    (s : Kin K) (n : ℕ) : Kin K :=
  let mag := m.value bc X n tc
  { velocity := setAt s.velocity n bc.coordinate ((mag - s.displacement n bc.coordinate) / dt)
    offnom := s.offnom
    displacement :=
      if m.scheme = .quasistatic then setAt s.displacement n bc.coordinate mag else s.displacement }

/-- nimble_boundary_condition_manager.h:147-203: the body of the loop over conditions. -/
def kinematicBc [Field K] [LinearOrder K] (m : Manager K) (X : Nodal K) (tc dt : K) (s : Kin K)
    (bc : BoundaryCondition K) : Kin K :=
  if bc.type = .prescribedVelocity then (m.nodeSet bc).foldl (velocityNode m bc X tc dt) s
  else if bc.type = .prescribedDisplacement ∧ dt > 0 then
    (m.nodeSet bc).foldl (displacementNode m bc X tc dt) s
  else s

/-- nimble_boundary_condition_manager.h:136-205 `ApplyKinematicBC`. -/
def applyKinematicBC [Field K] [LinearOrder K] (m : Manager K) (tc tp : K) (X : Nodal K) (s : Kin K) :
    Kin K :=
  let delta_t := tc - tp
  m.bcs.foldl (kinematicBc m X tc delta_t) s

end NimbleSM.Bc
