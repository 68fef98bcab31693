import Verif.Integrate.RestProps
import Verif.Integrate.FrequencyProps

/-!
# C155: the future does not influence the past

Two runs of the explicit integrator (src/integrators/explicit_time_integrator.cc) or of the quasistatic one
(src/integrators/quasistatic_time_integrator.cc) whose prescribed values and forces agree until a time `T`, with the same
time step, but possibly with different final times, numbers of steps, and prescribed values and forces after `T`.
-/

namespace NimbleSM.Integrate

open NimbleSM.Bc NimbleSM.Solver

variable {K S : Type*} [Field K] [LinearOrder K]

/-! ## Specification -/

/-- Two decks that agree until time `T`: the same conditions on the same node sets, with the same prescribed values until
`T`, and the same time step. -/
structure AgreeUntil (c d : Config K) (T : K) : Prop where
  X : c.X = d.X
  mass : c.mass = d.mass
  initialTime : c.initialTime = d.initialTime
  dt : c.dt = d.dt
  frequency : c.frequency = d.frequency
  sets : c.manager.sets = d.manager.sets
  dim : c.manager.dim = d.manager.dim
  scheme : c.manager.scheme = d.manager.scheme
  bcs : List.Forall₂ (fun a b => a.type = b.type ∧ a.nodeSetId = b.nodeSetId ∧ a.coordinate = b.coordinate ∧
    ∀ n t, t ≤ T → prescribed c.manager a c.X n t = prescribed d.manager b d.X n t) c.manager.bcs d.manager.bcs

/-- Forces that agree until time `T`. -/
structure ForcesAgreeUntil (p q : Physics K S) (T : K) : Prop where
  external : ∀ s tp tc o, tc ≤ T → p.external s tp tc o = q.external s tp tc o
  internal : ∀ s tp tc o u, tc ≤ T → p.internal s tp tc o u = q.internal s tp tc o u
  contact : p.contact = q.contact
  updateStates : p.updateStates = q.updateStates

/-! ## One application of the conditions -/

theorem kinematicBc_agree (m m' : Manager K) (hs : m.sets = m'.sets) (hsch : m.scheme = m'.scheme) (X : Nodal K)
    (t dt : K) (a b : BoundaryCondition K) (h1 : a.type = b.type) (h2 : a.nodeSetId = b.nodeSetId)
    (h3 : a.coordinate = b.coordinate) (h4 : ∀ n, prescribed m a X n t = prescribed m' b X n t) (s : Kin K) :
    kinematicBc m X t dt s a = kinematicBc m' X t dt s b := by
  have hv : velocityNode m a X t dt = velocityNode m' b X t dt := by
    funext s n
    unfold velocityNode
    simp only [value_eq, h4, h3, hsch]
  have hd : displacementNode m a X t dt = displacementNode m' b X t dt := by
    funext s n
    unfold displacementNode
    simp only [value_eq, h4, h3, hsch]
  have hn : m.nodeSet a = m'.nodeSet b := by
    unfold Manager.nodeSet
    rw [hs, h2]
  unfold kinematicBc
  rw [hv, hd, hn, h1]

theorem kinematic_agree {c d : Config K} {T : K} (h : AgreeUntil c d T) (tc tp : K) (ht : tc ≤ T) (u v : Nodal K) :
    kinematic c tc tp u v = kinematic d tc tp u v := by
  unfold kinematic applyKinematicBC
  simp only
  have key : ∀ (l l' : List (BoundaryCondition K)) (s : Kin K),
      List.Forall₂ (fun a b => a.type = b.type ∧ a.nodeSetId = b.nodeSetId ∧ a.coordinate = b.coordinate ∧
        ∀ n t, t ≤ T → prescribed c.manager a c.X n t = prescribed d.manager b d.X n t) l l' →
      l.foldl (kinematicBc c.manager c.X tc (tc - tp)) s = l'.foldl (kinematicBc d.manager d.X tc (tc - tp)) s := by
    intro l l' s hl
    induction hl generalizing s with
    | nil => rfl
    | @cons a b l l' hab _ ih =>
      rw [List.foldl_cons, List.foldl_cons]
      have := kinematicBc_agree c.manager d.manager h.sets h.scheme c.X tc (tc - tp) a b hab.1 hab.2.1 hab.2.2.1
        (fun n => by rw [hab.2.2.2 n tc ht, h.X]) s
      rw [this, h.X]
      have := ih (kinematicBc d.manager d.X tc (tc - tp) s b)
      rw [h.X] at this
      exact this
  rw [key _ _ _ h.bcs]

theorem initial_agree {c d : Config K} {T : K} (h : AgreeUntil c d T) (hT : 0 ≤ T) (v : Nodal K)
    (o : List (Nodal K)) :
    applyInitialConditions c.manager c.X v o = applyInitialConditions d.manager d.X v o := by
  unfold applyInitialConditions
  generalize (v, o) = st
  have hb := h.bcs
  generalize c.manager.bcs = l at hb
  generalize d.manager.bcs = l' at hb
  induction hb generalizing st with
  | nil => rfl
  | @cons a b l l' hab _ ih =>
    rw [List.foldl_cons, List.foldl_cons, ← ih]
    congr 1
    have hn : c.manager.nodeSet a = d.manager.nodeSet b := by
      unfold Manager.nodeSet
      rw [h.sets, hab.2.1]
    have hv : ∀ n, c.manager.value a c.X n 0 = d.manager.value b d.X n 0 := by
      intro n
      rw [value_eq, value_eq, hab.2.2.2 n 0 hT]
    simp only [hab.1, hn, hv, hab.2.2.1]

/-! ## Explicit runs -/

theorem step_agree {c d : Config K} {p q : Physics K S} {T : K} (h : AgreeUntil c d T) (hp : ForcesAgreeUntil p q T)
    (k : ℕ) (hk : c.isOutputStep k = d.isOutputStep k) (s : Sim K S) (ht : s.time + c.dt ≤ T) :
    step c p k s = step d q k s := by
  have hcf : contactForce p = contactForce q := by
    funext s k u
    unfold contactForce
    rw [hp.contact]
  have hac : accel c = accel d := by
    funext a b f n i
    unfold accel
    rw [h.mass]
  unfold step
  have ht' : s.time + d.dt ≤ T := h.dt ▸ ht
  simp only [hk, h.dt, kinematic_agree h _ _ ht', hp.external _ _ _ _ ht', hp.internal _ _ _ _ _ ht', hcf, hac,
    hp.updateStates]

/-! ## Quasistatic runs -/

/-- Two quasistatic decks that agree until time `T`. -/
structure QAgreeUntil (c d : QConfig K) (T : K) : Prop extends AgreeUntil c.toConfig d.toConfig T where
  ids : c.ids = d.ids
  relTol : c.relTol = d.relTol
  maxIter : c.maxIter = d.maxIter
  cgTol : c.cgTol = d.cgTol
  cgMax : c.cgMax = d.cgMax
  sqrt : c.sqrt = d.sqrt

/-- Forces that agree until time `T`. -/
structure QForcesAgreeUntil (p q : QPhysics K S) (T : K) : Prop where
  internal : ∀ s tp tc o u, tc ≤ T → p.internal s tp tc o u = q.internal s tp tc o u
  tangent : p.tangent = q.tangent
  updateStates : p.updateStates = q.updateStates
  scratch : p.scratch = q.scratch

theorem modifyRhs_agree (sets : NodeSets) (ids : List ℕ) (dim : ℕ) {R : BoundaryCondition K → BoundaryCondition K → Prop}
    (hR : ∀ a b, R a b → a.type = b.type ∧ a.nodeSetId = b.nodeSetId ∧ a.coordinate = b.coordinate)
    {l l' : List (BoundaryCondition K)} (h : List.Forall₂ R l l') :
    modifyRhs sets ids dim l = modifyRhs sets ids dim l' := by
  induction h with
  | nil => rfl
  | @cons a b l l' hab _ ih =>
    obtain ⟨h1, h2, h3⟩ := hR a b hab
    have hk : a.isKinematic = b.isKinematic := by unfold BoundaryCondition.isKinematic; simp [h1]
    funext r
    simp only [modifyRhs, hk, h2, h3, ih]

theorem modifyTangent_agree (sets : NodeSets) (ids : List ℕ) (dim : ℕ) (diagonal : K)
    {R : BoundaryCondition K → BoundaryCondition K → Prop}
    (hR : ∀ a b, R a b → a.type = b.type ∧ a.nodeSetId = b.nodeSetId ∧ a.coordinate = b.coordinate)
    {l l' : List (BoundaryCondition K)} (h : List.Forall₂ R l l') :
    (modifyTangent sets ids dim diagonal l : Crs K → Option (Crs K)) = modifyTangent sets ids dim diagonal l' := by
  induction h with
  | nil => rfl
  | @cons a b l l' hab _ ih =>
    obtain ⟨h1, h2, h3⟩ := hR a b hab
    have hk : a.isKinematic = b.isKinematic := by unfold BoundaryCondition.isKinematic; simp [h1]
    funext r
    simp only [modifyTangent, hk, h2, h3, ih]

section
variable {c d : QConfig K} {p q : QPhysics K S} {T : K}

theorem residual_agree (h : QAgreeUntil c d T) (hp : QForcesAgreeUntil p q T) (s : S) (tp tc : K) (ht : tc ≤ T)
    (o : Bool) (u : Nodal K) : computeResidual c p s tp tc o u = computeResidual d q s tp tc o u := by
  have hr := modifyRhs_agree d.manager.sets d.ids d.dim (fun a b hab => ⟨hab.1, hab.2.1, hab.2.2.1⟩) h.bcs
  have hdim : c.dim = d.dim := h.dim
  have hnn : c.numNodes = d.numNodes := by unfold QConfig.numNodes; rw [h.ids]
  have hun : c.unknowns = d.unknowns := by unfold QConfig.unknowns QConfig.lsNodes; rw [h.ids, hdim]
  have hnf : negatedForce c = negatedForce d := by
    funext f
    unfold negatedForce
    rw [hnn, h.ids, hdim, hun]
  have hrn : residualNorm c = residualNorm d := by
    funext r
    unfold residualNorm
    rw [h.sqrt, hnn]
  unfold computeResidual
  rw [hp.internal _ _ _ _ _ ht, hnf, h.sets, h.ids, hdim, hr, hrn]

theorem linearSolve_agree (h : QAgreeUntil c d T) (hp : QForcesAgreeUntil p q T) (k i : ℕ) (x : Newton K S) :
    linearSolve c p k i x = linearSolve d q k i x := by
  have hr := modifyRhs_agree d.manager.sets d.ids d.dim (fun a b hab => ⟨hab.1, hab.2.1, hab.2.2.1⟩) h.bcs
  have hm := fun g => modifyTangent_agree d.manager.sets d.ids d.dim g
    (fun a b hab => ⟨hab.1, hab.2.1, hab.2.2.1⟩) h.bcs
  have hdim : c.dim = d.dim := h.dim
  have hun : c.unknowns = d.unknowns := by unfold QConfig.unknowns QConfig.lsNodes; rw [h.ids, hdim]
  unfold linearSolve
  simp only [hp.tangent, hp.scratch, h.cgTol, h.cgMax, h.sets, h.ids, hdim, hun, hr, hm]

theorem updateNodes_agree (h : QAgreeUntil c d T) : updateNodes c = updateNodes d := by
  have hdim : c.dim = d.dim := h.dim
  funext f t
  unfold updateNodes QConfig.lsNodes
  rw [h.ids, hdim]

theorem newtonStep_agree (h : QAgreeUntil c d T) (hp : QForcesAgreeUntil p q T) (k i : ℕ) (tp tc : K) (ht : tc ≤ T)
    (o : Bool) (x : Newton K S) : newtonStep c p k i tp tc o x = newtonStep d q k i tp tc o x := by
  have hdim : c.dim = d.dim := h.dim
  have hun : c.unknowns = d.unknowns := by unfold QConfig.unknowns QConfig.lsNodes; rw [h.ids, hdim]
  unfold newtonStep
  simp only [linearSolve_agree h hp, residual_agree h hp _ _ _ ht, updateNodes_agree h, hun]

theorem newtonLoop_agree (h : QAgreeUntil c d T) (hp : QForcesAgreeUntil p q T) (k : ℕ) (tp tc : K) (ht : tc ≤ T)
    (o : Bool) (tol : K) (fuel i : ℕ) (x : Newton K S) :
    newtonLoop c p k tp tc o tol fuel i x = newtonLoop d q k tp tc o tol fuel i x := by
  induction fuel generalizing i x with
  | zero => rfl
  | succ fuel ih => simp only [newtonLoop, newtonStep_agree h hp _ _ _ _ ht, ih]

theorem loadStep_agree (h : QAgreeUntil c d T) (hp : QForcesAgreeUntil p q T) (k : ℕ)
    (hk : c.isOutputStep k = d.isOutputStep k) (s : QSim K S) (ht : s.time + c.dt ≤ T) :
    loadStep c p k s = loadStep d q k s := by
  have ht' : s.time + d.dt ≤ T := h.dt ▸ ht
  unfold loadStep
  simp only [hk, h.dt, kinematic_agree h.toAgreeUntil _ _ ht', residual_agree h hp _ _ _ ht',
    newtonLoop_agree h hp _ _ _ ht', h.relTol, h.maxIter, hp.updateStates]

end

/-! ## The theorems -/

variable [IsStrictOrderedRing K]

/-- Before the last step of either run, both write the same steps. -/
theorem flag_agree {c d : Config K} {T : K} (h : AgreeUntil c d T) {j : ℕ} (h1 : j + 1 < c.numSteps)
    (h2 : j + 1 < d.numSteps) : c.isOutputStep j = d.isOutputStep j := by
  unfold Config.isOutputStep
  have e1 : ¬ ((j : ℤ) = c.numSteps - 1) := by omega
  have e2 : ¬ ((j : ℤ) = d.numSteps - 1) := by omega
  simp only [h.frequency, e1, e2]

theorem start_agree {c d : Config K} {T : K} (h : AgreeUntil c d T) (hT : 0 ≤ T) (s : S) : start c s = start d s := by
  unfold start
  simp only [initial_agree h hT, kinematic_agree h 0 0 hT, h.initialTime]

/-- **C155 (a)**.  Explicit runs: after any number of steps that ends before `T` and before the last step of either run,
the two runs have the same fields, the same state and the same outputs, or both have aborted. -/
theorem explicit_causal {c d : Config K} {p q : Physics K S} {T : K} (h : AgreeUntil c d T)
    (hp : ForcesAgreeUntil p q T) (hm : c.manager.scheme ≠ .quasistatic) (hT : 0 ≤ T) (hdt : 0 ≤ c.dt) (s0 : S) (k : ℕ)
    (hk : c.initialTime + k * c.dt ≤ T) (h1 : k < c.numSteps) (h2 : k < d.numSteps) :
    loop c p k (start c s0) = loop d q k (start d s0) := by
  induction k with
  | zero => rw [loop_zero, loop_zero, start_agree h hT]
  | succ k ih =>
    have hle : c.initialTime + k * c.dt ≤ T := by push_cast at hk; linarith
    have ih := ih hle (by omega) (by omega)
    rw [loop_succ, loop_succ, ← ih]
    cases hl : loop c p k (start c s0) with
    | none => rfl
    | some s =>
      have ht := loop_time c hm p k _ s hl
      have hs : (start c s0).time = c.initialTime := rfl
      refine step_agree h hp k (flag_agree h h1 h2) s ?_
      rw [ht, hs]
      push_cast at hk
      linarith

/-- **C155 (b)**.  Explicit runs: the displacements also agree at the end of the last step of the shorter run, although
it is written and the same step of the longer run need not be. -/
theorem explicit_causal_last {c d : Config K} {p q : Physics K S} {T : K} (h : AgreeUntil c d T)
    (hp : ForcesAgreeUntil p q T) (hm : c.manager.scheme ≠ .quasistatic) (hT : 0 ≤ T) (hdt : 0 ≤ c.dt) (s0 : S) (k : ℕ)
    (hk : c.initialTime + (k + 1) * c.dt ≤ T) (h1 : k < c.numSteps) (h2 : k < d.numSteps) (s s' : Sim K S)
    (hs : loop c p (k + 1) (start c s0) = some s) (hs' : loop d q (k + 1) (start d s0) = some s') :
    s.time = s'.time ∧ s.displacement = s'.displacement := by
  have hprev := explicit_causal h hp hm hT hdt s0 k (by linarith) h1 h2
  rw [loop_succ, Option.bind_eq_some_iff] at hs hs'
  obtain ⟨x, hx, hs⟩ := hs
  obtain ⟨x', hx', hs'⟩ := hs'
  rw [← hprev, hx] at hx'
  obtain rfl := Option.some.inj hx'
  have ht := loop_time c hm p k _ x hx
  have h0 : (start c s0).time = c.initialTime := rfl
  obtain ⟨vh, _, _, _, _, _, _, g1, g2, _, _, _, _, _, _, g3, _⟩ := step_spec c hm p k x s hs
  obtain ⟨vh', _, _, _, _, _, _, g1', g2', _, _, _, _, _, _, g3', _⟩ := step_spec d (h.scheme ▸ hm) q k x s' hs'
  have hle : x.time + d.dt ≤ T := by rw [ht, h0, ← h.dt]; linarith
  rw [h.dt, kinematic_agree h _ _ hle] at g1
  rw [h.dt] at g2 g3
  rw [g2, g2', g1, g1', g3, g3']
  exact ⟨rfl, rfl⟩

/-- **C155 (c)**.  Quasistatic runs: after any number of load steps that ends before `T` and before the last step of
either run, the two runs have the same fields, the same state and the same outputs, or both have stopped for the same
reason. -/
theorem quasistatic_causal {c d : QConfig K} {p q : QPhysics K S} {T : K} (h : QAgreeUntil c d T)
    (hp : QForcesAgreeUntil p q T) (hdt : 0 ≤ c.dt) (s0 : S) (k : ℕ)
    (hk : c.initialTime + k * c.dt ≤ T) (h1 : k < c.numSteps) (h2 : k < d.numSteps) :
    qLoop c p k (qStart c s0) = qLoop d q k (qStart d s0) := by
  induction k with
  | zero =>
    have h0 : c.initialTime ≤ T := by simpa using hk
    rw [qLoop_zero, qLoop_zero]
    unfold qStart
    simp only [kinematic_agree h.toAgreeUntil _ _ h0, ← h.initialTime]
  | succ k ih =>
    have hle : c.initialTime + k * c.dt ≤ T := by push_cast at hk; linarith
    have ih := ih hle (by omega) (by omega)
    rw [qLoop_append, qLoop_append, ← ih]
    cases hl : qLoop c p k (qStart c s0) with
    | error e => rfl
    | ok s =>
      have ht := qLoop_time c p k _ s hl
      have hs : (qStart c s0).time = c.initialTime := rfl
      refine loadStep_agree h hp k (flag_agree h.toAgreeUntil h1 h2) s ?_
      rw [ht, hs]
      push_cast at hk
      linarith

/-! ## Concrete cases -/

/-- Six steps instead of three, and another ramp. -/
def longer (ramp : ℚ → ℚ) : QConfig ℚ := { restConfig ramp with finalTime := 6, numSteps := 6 }

/-- Node 1 after `k` steps. -/
def end1 (c : QConfig ℚ) (k : ℕ) : Option ℚ :=
  match qLoop c movedPhysics k (qStart c 0) with
  | .ok s => some (s.displacement 1 0)
  | _ => none

/-- Non-vacuity of (c): the decks prescribe the same values until time 2; the runs agree until then, and differ later. -/
example : qLoop (restConfig fun t => 5 * t) movedPhysics 2 (qStart (restConfig fun t => 5 * t) 0)
      = qLoop (longer fun t => if t ≤ 2 then 5 * t else 0) movedPhysics 2
          (qStart (longer fun t => if t ≤ 2 then 5 * t else 0) 0) ∧
    end1 (restConfig fun t => 5 * t) 2 = some 10 ∧ end1 (restConfig fun t => 5 * t) 3 = some 15 ∧
    end1 (longer fun t => if t ≤ 2 then 5 * t else 0) 3 = some 0 := by
  refine ⟨?_, by decide +kernel, by decide +kernel, by decide +kernel⟩
  refine quasistatic_causal (T := 2) ?_ ⟨fun _ _ _ _ _ _ => rfl, rfl, rfl, rfl⟩ (by decide +kernel) 0 2
    (by decide +kernel) (by decide) (by decide)
  refine { X := rfl, mass := rfl, initialTime := rfl, dt := by decide +kernel, frequency := rfl, sets := rfl, dim := rfl,
           scheme := rfl, bcs := ?_, ids := rfl, relTol := rfl, maxIter := rfl, cgTol := rfl, cgMax := rfl, sqrt := rfl }
  refine List.Forall₂.cons ⟨rfl, rfl, rfl, fun n t ht => ?_⟩ .nil
  simp [prescribed, ht]

/-- A node pulled back by a spring, the other node moved. -/
def pulled (steps : ℕ) (ramp : ℚ → ℚ) : Config ℚ where
  manager :=
    { sets := fun i => if i = 7 then some [0] else none
      bcs := [⟨.prescribedDisplacement, 7, 0, .inr fun _ _ _ t => ramp t⟩], dim := 1, scheme := .explicit }
  X := fun n _ => n
  mass := fun _ => 1
  initialTime := 0
  finalTime := steps
  numSteps := steps
  frequency := 2

/-- The spring, and a load on node 1. -/
def pulledPhysics (load : ℚ → ℚ) : Physics ℚ ℕ where
  external := fun _ _ tc _ n _ => if n = 1 then load tc else 0
  internal := fun s _ _ _ u => some (fun n _ => if n = 0 then u 1 0 - u 0 0 else u 0 0 - u 1 0, s)
  contact := none
  updateStates := fun s => s + 1

/-- Node 1 after `k` steps. -/
def pulledEnd (c : Config ℚ) (p : Physics ℚ ℕ) (k : ℕ) : Option ℚ :=
  (loop c p k (start c 0)).map fun s => s.displacement 1 0

/-- Non-vacuity of (a): conditions and loads that agree until time 2. -/
example :
    let c := pulled 4 fun t => t
    let d := pulled 7 fun t => if t ≤ 2 then t else 0
    let p := pulledPhysics fun _ => 1
    let q := pulledPhysics fun t => if t ≤ 2 then 1 else 9
    loop c p 2 (start c 0) = loop d q 2 (start d 0) ∧ pulledEnd c p 2 = some 2 ∧ pulledEnd c p 4 ≠ pulledEnd d q 4 := by
  intro c d p q
  have ha : AgreeUntil c d 2 :=
    { X := rfl, mass := rfl, initialTime := rfl, dt := by decide +kernel, frequency := rfl, sets := rfl,
      dim := rfl, scheme := rfl
      bcs := List.Forall₂.cons ⟨rfl, rfl, rfl, fun n t ht => by simp [prescribed, ht]⟩ .nil }
  have hf : ForcesAgreeUntil p q 2 :=
    { external := fun s tp tc o ht => by simp [p, q, pulledPhysics, ht]
      internal := fun _ _ _ _ _ _ => rfl
      contact := rfl
      updateStates := rfl }
  have hT : c.initialTime + (2 : ℕ) * c.dt ≤ 2 := by decide +kernel
  have hdt : 0 ≤ c.dt := by decide +kernel
  have hm : c.manager.scheme ≠ .quasistatic := by decide
  have h1 : 2 < c.numSteps := by decide
  have h2 : 2 < d.numSteps := by decide
  exact ⟨explicit_causal ha hf hm (by norm_num) hdt 0 2 hT h1 h2, by decide +kernel, by decide +kernel⟩

end NimbleSM.Integrate
