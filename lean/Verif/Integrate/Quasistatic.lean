import Verif.Integrate.Explicit
import Verif.Solver.Tangent
import Verif.Solver.Cg

/-!
# Quasistatic time integration: `src/integrators/quasistatic_time_integrator.cc`

`QuasistaticTimeIntegrator::Integrate`, exact arithmetic.  The internal force and the assembled tangent
(`Verif.Assembly.Assembly`, `Verif.Solver.Tangent`) are parameters: arbitrary functions with an arbitrary
state `S` (element data), which may abort (`none`).  Boundary conditions, constraints on the linear system
and the CG solver are the models of `Verif.Bc`, `Verif.Solver`.  The contents that earlier linear solves
left in the CG scratch space are arbitrary.  A division by zero in the line search is the outcome
`nonFinite`.  Console output is not modelled.  Node ids are non-negative.
-/

namespace NimbleSM.Integrate

open NimbleSM.Bc NimbleSM.Solver

variable {K S : Type*} [Field K] [LinearOrder K]

/-- What the integrator calls. -/
structure QPhysics (K S : Type*) where
  /-- `ModelData::ComputeInternalForce` (lines 77-78) -/
  internal : S → (tp tc : K) → (output : Bool) → (displacement : Nodal K) → Option (Nodal K × S)
  /-- lines 271-288: the assembled tangent stiffness -/
  tangent : S → (displacement : Nodal K) → Option (Crs K)
  /-- `UpdateStates` (line 414) -/
  updateStates : S → S
  /-- what earlier solves left in `cg_scratch`, by load step and iteration -/
  scratch : ℕ → ℕ → CgScratch K

/-- The input of a run. -/
structure QConfig (K : Type*) extends Config K where
  numRanks : ℕ
  /-- `linear_system_global_node_ids` (lines 150-152), one per node of the mesh -/
  ids : List ℕ
  /-- `NonlinearSolverRelativeTolerance` -/
  relTol : K
  /-- `NonlinearSolverMaxIterations` -/
  maxIter : ℤ
  /-- default arguments of `CG_SolveSystem` (nimble_linear_solver.h:273-274): 1.0e-16 and 1000 -/
  cgTol : K
  cgMax : ℤ
  /-- `std::sqrt` -/
  sqrt : K → K

/-- `mesh.GetNumNodes()`. -/
def QConfig.numNodes (c : QConfig K) : ℕ := c.ids.length

/-- `mesh.GetDim()`; the boundary condition manager is given the same number. -/
def QConfig.dim (c : QConfig K) : ℕ := c.manager.dim

/-- Lines 151-154: the body of the loop that fills `map_from_linear_system`. -/
def linkNode (ids : List ℕ) (m : ℕ → List ℕ) (n : ℕ) : ℕ → List ℕ :=
  match ids[n]? with
  | some g => upd m g [n]
  | none => m

/-- Lines 150-155: `map_from_linear_system`, with `operator[]`'s empty list for a missing key. -/
def fromLinearSystem (ids : List ℕ) : ℕ → List ℕ := (List.range ids.length).foldl (linkNode ids) fun _ => []

/-- Line 156: `map_from_linear_system.size()`. -/
def QConfig.lsNodes (c : QConfig K) : ℕ := c.ids.dedup.length

/-- Line 157: `linear_system_num_unknowns`. -/
def QConfig.unknowns (c : QConfig K) : ℕ := c.lsNodes * c.dim

/-- Lines 80-95: `residual_vector` before the constraints; `none` = index past the end of the array (only
checked in the debug build, otherwise undefined behaviour). -/
def negatedForce (c : QConfig K) (force : Nodal K) : Option (ℕ → K) :=
  (List.range c.numNodes).foldlM (fun (r : ℕ → K) n =>
    c.ids[n]?.bind fun ls_id =>
      (List.range c.dim).foldlM (fun (r : ℕ → K) dof =>
        let ls_index := ls_id * c.dim + dof
        if ls_index < c.unknowns then some (upd r ls_index (r ls_index + -1 * force n dof)) else none) r)
    (fun _ => 0)

/-- Lines 101-102: the infinity norm of the first `n` entries. -/
def infinityNorm (n : ℕ) (r : ℕ → K) : K := (List.range n).foldl (fun m i => max m |r i|) 0

/-- Lines 98-109: the returned number.  Both loops run over `num_nodes` entries (not
`linear_system_num_unknowns`). -/
def residualNorm (c : QConfig K) (r : ℕ → K) : K :=
  c.sqrt (innerProduct c.numNodes r r) + 20 * infinityNorm c.numNodes r

/-- Lines 57-110 `ComputeQuasistaticResidual`: the residual vector, its norm, and the state. -/
def computeResidual (c : QConfig K) (p : QPhysics K S) (s : S) (tp tc : K) (output : Bool) (u : Nodal K) :
    Option ((ℕ → K) × K × S) :=
  (p.internal s tp tc output u).bind fun fs =>
    (negatedForce c fs.1).bind fun r =>
      (modifyRhs c.manager.sets c.ids c.dim c.manager.bcs r).bind fun r =>
        some (r, residualNorm c r, fs.2)

/-- Lines 316-330 and 353-368: `target(node_id, dof) = f(node_id, dof, ls_index)` for every entry of
`map_from_linear_system[n]`, `n < linear_system_num_nodes`. -/
def updateNodes (c : QConfig K) (f : ℕ → ℕ → ℕ → K) (target : Nodal K) : Nodal K :=
  (List.range c.lsNodes).foldl (fun (t : Nodal K) n =>
    (fromLinearSystem c.ids n).foldl (fun (t : Nodal K) node_id =>
      (List.range c.dim).foldl (fun (t : Nodal K) dof =>
        setAt t node_id dof (f node_id dof (n * c.dim + dof))) t) t) target

/-- The variables of the nonlinear iteration. -/
structure Newton (K S : Type*) where
  displacement : Nodal K
  trial : Nodal K
  residualVector : ℕ → K
  residual : K
  state : S

/-- The outcomes of parts of the computation other than normal completion. -/
inductive Stop where
  /-- abort, exception or out-of-range access -/
  | abort
  /-- division by zero -/
  | nonFinite
  /-- `status = 1; return` -/
  | failed
  deriving DecidableEq, Repr

/-- Lines 290-304: constraints and linear solve. -/
def linearSolve (c : QConfig K) (p : QPhysics K S) (step iteration : ℕ) (x : Newton K S) :
    Except Stop ((ℕ → K) × (ℕ → K)) :=
  match p.tangent x.state x.displacement with
  | none => .error .abort
  | some A =>
    match (List.range c.unknowns).mapM fun i => A.at? i i with
    | none => .error .abort
    | some diagonal =>
      if c.unknowns = 0 then .error .nonFinite
      else
        let diagonal_entry := (diagonal.map fun a => |a|).sum / c.unknowns
        match modifyTangent c.manager.sets c.ids c.dim diagonal_entry c.manager.bcs A,
            modifyRhs c.manager.sets c.ids c.dim c.manager.bcs x.residualVector with
        | some A, some rhs =>
          match cgSolve A rhs (p.scratch step iteration) (fun _ => 0) c.cgTol c.cgMax with
          | .rejected => .error .abort
          | .nonFinite => .error .nonFinite
          | .returned false _ _ => .error .failed
          | .returned true _ sol => .ok (sol, rhs)
        | _, _ => .error .abort

/-- Lines 270-395: the body of the nonlinear iteration. -/
def newtonStep (c : QConfig K) (p : QPhysics K S) (step iteration : ℕ) (tp tc : K) (output : Bool)
    (x : Newton K S) : Except Stop (Newton K S) :=
  match linearSolve c p step iteration x with
  | .error e => .error e
  | .ok (sol, rhs) =>
    let trial := updateNodes c (fun n dof i => x.displacement n dof - sol i) x.trial
    match computeResidual c p x.state tp tc output trial with
    | none => .error .abort
    | some (trial_vector, trial_residual, s) =>
      let sr := innerProduct c.unknowns sol rhs
      let s_trial_r := innerProduct c.unknowns sol trial_vector
      if s_trial_r - sr = 0 then .error .nonFinite
      else
        let alpha := -1 * sr / (s_trial_r - sr)
        let displacement := updateNodes c (fun n dof i => x.displacement n dof - alpha * sol i) x.displacement
        match computeResidual c p s tp tc output displacement with
        | none => .error .abort
        | some (residual_vector, residual, s) =>
          if trial_residual < residual then
            .ok ⟨trial, trial, trial_vector, trial_residual, s⟩
          else .ok ⟨displacement, trial, residual_vector, residual, s⟩

/-- Lines 270-397: the `while` loop; `fuel` is `max_nonlinear_iterations - iteration`.  Result: the final
variables and the number of iterations. -/
def newtonLoop (c : QConfig K) (p : QPhysics K S) (step : ℕ) (tp tc : K) (output : Bool) (tol : K) :
    ℕ → ℕ → Newton K S → Except Stop (Newton K S × ℕ)
  | 0, iteration, x => .ok (x, iteration)
  | fuel + 1, iteration, x =>
    if x.residual > tol then
      match newtonStep c p step iteration tp tc output x with
      | .error e => .error e
      | .ok x => newtonLoop c p step tp tc output tol fuel (iteration + 1) x
    else .ok (x, iteration)

/-- The variables of the time loop. -/
structure QSim (K S : Type*) where
  time : K
  displacement : Nodal K
  velocity : Nodal K
  trial : Nodal K
  state : S
  /-- calls of `WriteOutput`: time, displacement, and the state from which element data are written -/
  outputs : List (K × Nodal K × S)

/-- Lines 233-416: one load step. -/
def loadStep (c : QConfig K) (p : QPhysics K S) (step : ℕ) (s : QSim K S) : Except Stop (QSim K S) :=
  let time_previous := s.time
  let time_current := s.time + c.dt
  let is_output_step := c.isOutputStep step
  let uv := kinematic c.toConfig time_current time_previous s.displacement s.velocity
  match computeResidual c p s.state time_previous time_current is_output_step uv.1 with
  | none => .error .abort
  | some (r, residual, st) =>
    let tol := c.relTol * residual
    match newtonLoop c p step time_previous time_current is_output_step tol c.maxIter.toNat 0
        ⟨uv.1, s.trial, r, residual, st⟩ with
    | .error e => .error e
    | .ok (x, iteration) =>
      if (iteration : ℤ) = c.maxIter then .error .failed
      else
        .ok { time := time_current
              displacement := x.displacement
              velocity := uv.2
              trial := x.trial
              state := p.updateStates x.state
              outputs :=
                if is_output_step then s.outputs ++ [(time_current, x.displacement, x.state)]
                else s.outputs }

/-- Lines 222-229: kinematic conditions at the initial time, first output.  The fields are as allocated. -/
def qStart (c : QConfig K) (s : S) : QSim K S :=
  let uv := kinematic c.toConfig c.initialTime c.initialTime (fun _ _ => 0) (fun _ _ => 0)
  { time := c.initialTime, displacement := uv.1, velocity := uv.2, trial := fun _ _ => 0, state := s,
    outputs := [(c.initialTime, uv.1, s)] }

/-- The first `n` load steps. -/
def qLoop (c : QConfig K) (p : QPhysics K S) (n : ℕ) (s : QSim K S) : Except Stop (QSim K S) :=
  (List.range n).foldlM (fun (s : QSim K S) k => loadStep c p k s) s

/-- What ends a run. -/
inductive QResult (K S : Type*) where
  /-- `std::invalid_argument` (lines 130-135, 212-216) -/
  | invalidArgument
  /-- status 0 -/
  | finished (s : QSim K S)
  | stopped (e : Stop)

/-- Lines 121-421 `Integrate`. -/
def qIntegrate (c : QConfig K) (p : QPhysics K S) (s : S) : QResult K S :=
  if c.numRanks > 1 then .invalidArgument
  else if c.finalTime < c.initialTime then .invalidArgument
  else match qLoop c p c.numSteps (qStart c s) with
    | .ok s => .finished s
    | .error e => .stopped e

end NimbleSM.Integrate
