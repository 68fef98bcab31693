import Verif.Integrate.CausalProps

/-!
# C157: the origin of time

Two decks that differ by the origin of time: all times are later by `τ`.  Explicit integrator
(src/integrators/explicit_time_integrator.cc) and quasistatic integrator
(src/integrators/quasistatic_time_integrator.cc).
-/

namespace NimbleSM.Integrate

open NimbleSM.Bc NimbleSM.Solver

variable {K S : Type*} [Field K] [LinearOrder K]

/-! ## Specification -/

/-- Deck `d` is deck `c` with all times later by `τ`. -/
structure Later (c d : Config K) (τ : K) : Prop where
  X : c.X = d.X
  mass : c.mass = d.mass
  initialTime : d.initialTime = c.initialTime + τ
  finalTime : d.finalTime = c.finalTime + τ
  numSteps : c.numSteps = d.numSteps
  frequency : c.frequency = d.frequency
  sets : c.manager.sets = d.manager.sets
  dim : c.manager.dim = d.manager.dim
  scheme : c.manager.scheme = d.manager.scheme
  bcs : List.Forall₂ (fun a b => a.type = b.type ∧ a.nodeSetId = b.nodeSetId ∧ a.coordinate = b.coordinate ∧
    ∀ n t, prescribed c.manager a c.X n t = prescribed d.manager b d.X n (t + τ)) c.manager.bcs d.manager.bcs

/-- Quasistatic decks: moreover the same solver settings. -/
structure QLater (c d : QConfig K) (τ : K) : Prop extends Later c.toConfig d.toConfig τ where
  numRanks : c.numRanks = d.numRanks
  ids : c.ids = d.ids
  relTol : c.relTol = d.relTol
  maxIter : c.maxIter = d.maxIter
  cgTol : c.cgTol = d.cgTol
  cgMax : c.cgMax = d.cgMax
  sqrt : c.sqrt = d.sqrt

/-- Forces that are later by `τ`. -/
structure QForcesLater (p q : QPhysics K S) (τ : K) : Prop where
  internal : ∀ s tp tc o u, p.internal s tp tc o u = q.internal s (tp + τ) (tc + τ) o u
  tangent : p.tangent = q.tangent
  updateStates : p.updateStates = q.updateStates
  scratch : p.scratch = q.scratch

/-- The same variables, later by `τ`. -/
def QSim.later (s : QSim K S) (τ : K) : QSim K S :=
  { s with time := s.time + τ, outputs := s.outputs.map fun o => (o.1 + τ, o.2) }

/-! ## One step -/

theorem Later.dt {c d : Config K} {τ : K} (h : Later c d τ) : c.dt = d.dt := by
  unfold Config.dt
  rw [h.initialTime, h.finalTime, h.numSteps, add_sub_add_right_eq_sub]

theorem kinematic_later {c d : Config K} {τ : K} (h : Later c d τ) (tc tp : K) (u v : Nodal K) :
    kinematic d (tc + τ) (tp + τ) u v = kinematic c tc tp u v := by
  unfold kinematic applyKinematicBC
  simp only [add_sub_add_right_eq_sub]
  have key : ∀ (l l' : List (BoundaryCondition K)) (s : Kin K),
      List.Forall₂ (fun a b => a.type = b.type ∧ a.nodeSetId = b.nodeSetId ∧ a.coordinate = b.coordinate ∧
        ∀ n t, prescribed c.manager a c.X n t = prescribed d.manager b d.X n (t + τ)) l l' →
      l'.foldl (kinematicBc d.manager d.X (tc + τ) (tc - tp)) s = l.foldl (kinematicBc c.manager c.X tc (tc - tp)) s := by
    intro l l' s hl
    induction hl generalizing s with
    | nil => rfl
    | @cons a b l l' hab _ ih =>
      rw [List.foldl_cons, List.foldl_cons, ih]
      congr 1
      have hv : velocityNode d.manager b d.X (tc + τ) (tc - tp) = velocityNode c.manager a c.X tc (tc - tp) := by
        funext s n
        unfold velocityNode
        simp only [value_eq, hab.2.2.2, hab.2.2.1, h.scheme]
      have hd : displacementNode d.manager b d.X (tc + τ) (tc - tp)
          = displacementNode c.manager a c.X tc (tc - tp) := by
        funext s n
        unfold displacementNode
        simp only [value_eq, hab.2.2.2, hab.2.2.1, h.scheme]
      have hn : d.manager.nodeSet b = c.manager.nodeSet a := by
        unfold Manager.nodeSet
        rw [h.sets, hab.2.1]
      unfold kinematicBc
      rw [hv, hd, hn, hab.1]
  rw [key _ _ _ h.bcs]

section
variable {c d : QConfig K} {p q : QPhysics K S} {τ : K}

theorem residual_later (h : QLater c d τ) (hp : QForcesLater p q τ) (s : S) (tp tc : K)
    (o : Bool) (u : Nodal K) : computeResidual d q s (tp + τ) (tc + τ) o u = computeResidual c p s tp tc o u := by
  have hr := modifyRhs_agree d.manager.sets d.ids d.dim (fun a b hab => ⟨hab.1, hab.2.1, hab.2.2.1⟩) h.bcs
  have hdim : c.dim = d.dim := h.dim
  have hnn : c.numNodes = d.numNodes := by unfold QConfig.numNodes; rw [h.ids]
  have hun : c.unknowns = d.unknowns := by unfold QConfig.unknowns QConfig.lsNodes; rw [h.ids, hdim]
  have hnf : negatedForce c = negatedForce d := by
    funext f
    unfold negatedForce
    rw [hnn, h.ids, hdim, hun]
  have hrn : residualNorm c = residualNorm d := by
    funext r
    unfold residualNorm
    rw [h.sqrt, hnn]
  unfold computeResidual
  rw [hp.internal, hnf, h.sets, h.ids, hdim, hr, hrn]

theorem linearSolve_later (h : QLater c d τ) (hp : QForcesLater p q τ) (k i : ℕ) (x : Newton K S) :
    linearSolve d q k i x = linearSolve c p k i x := by
  have hr := modifyRhs_agree d.manager.sets d.ids d.dim (fun a b hab => ⟨hab.1, hab.2.1, hab.2.2.1⟩) h.bcs
  have hm := fun g => modifyTangent_agree d.manager.sets d.ids d.dim g
    (fun a b hab => ⟨hab.1, hab.2.1, hab.2.2.1⟩) h.bcs
  have hdim : c.dim = d.dim := h.dim
  have hun : c.unknowns = d.unknowns := by unfold QConfig.unknowns QConfig.lsNodes; rw [h.ids, hdim]
  unfold linearSolve
  simp only [hp.tangent, hp.scratch, h.cgTol, h.cgMax, h.sets, h.ids, hdim, hun, hr, hm]

theorem newtonStep_later (h : QLater c d τ) (hp : QForcesLater p q τ) (k i : ℕ) (tp tc : K)
    (o : Bool) (x : Newton K S) : newtonStep d q k i (tp + τ) (tc + τ) o x = newtonStep c p k i tp tc o x := by
  have hdim : c.dim = d.dim := h.dim
  have hun : c.unknowns = d.unknowns := by unfold QConfig.unknowns QConfig.lsNodes; rw [h.ids, hdim]
  have hup : updateNodes c = updateNodes d := by
    funext f t
    unfold updateNodes QConfig.lsNodes
    rw [h.ids, hdim]
  unfold newtonStep
  simp only [linearSolve_later h hp, residual_later h hp, hup, hun]

theorem newtonLoop_later (h : QLater c d τ) (hp : QForcesLater p q τ) (k : ℕ) (tp tc : K)
    (o : Bool) (tol : K) (fuel i : ℕ) (x : Newton K S) :
    newtonLoop d q k (tp + τ) (tc + τ) o tol fuel i x = newtonLoop c p k tp tc o tol fuel i x := by
  induction fuel generalizing i x with
  | zero => rfl
  | succ fuel ih => simp only [newtonLoop, newtonStep_later h hp, ih]

theorem loadStep_later (h : QLater c d τ) (hp : QForcesLater p q τ) (k : ℕ) (s : QSim K S) :
    loadStep d q k (s.later τ) = (loadStep c p k s).map fun s => s.later τ := by
  have hflag : d.isOutputStep k = c.isOutputStep k := by
    unfold Config.isOutputStep
    rw [h.frequency, h.numSteps]
  have htime : s.time + τ + d.dt = s.time + c.dt + τ := by rw [← h.dt, add_right_comm]
  unfold loadStep
  simp only [QSim.later, htime, hflag, kinematic_later h.toLater, residual_later h hp, newtonLoop_later h hp,
    ← h.relTol, ← h.maxIter, ← hp.updateStates]
  cases computeResidual c p s.state s.time (s.time + c.dt) (c.isOutputStep k)
    (kinematic c.toConfig (s.time + c.dt) s.time s.displacement s.velocity).1 with
  | none => rfl
  | some r =>
    obtain ⟨r, residual, st⟩ := r
    simp only
    cases newtonLoop c p k s.time (s.time + c.dt) (c.isOutputStep k) (c.relTol * residual) c.maxIter.toNat 0
      ⟨(kinematic c.toConfig (s.time + c.dt) s.time s.displacement s.velocity).1, s.trial, r, residual, st⟩ with
    | error e => rfl
    | ok x =>
      obtain ⟨x, i⟩ := x
      simp only
      split_ifs <;> simp [Except.map]

/-! ## Runs -/

variable [IsStrictOrderedRing K]

/-- **C157 (a)**.  A quasistatic run with all times later by `τ` is the same run, later by `τ`. -/
theorem quasistatic_later (h : QLater c d τ) (hp : QForcesLater p q τ) (s0 : S) (k : ℕ) :
    qLoop d q k (qStart d s0) = (qLoop c p k (qStart c s0)).map fun s => s.later τ := by
  induction k with
  | zero =>
    rw [qLoop_zero, qLoop_zero]
    unfold qStart
    simp only [h.initialTime, kinematic_later h.toLater]
    rfl
  | succ k ih =>
    rw [qLoop_append, qLoop_append, ih]
    cases qLoop c p k (qStart c s0) with
    | error e => rfl
    | ok s => exact loadStep_later h hp k s

end

variable [IsStrictOrderedRing K]

/-- Forces of an explicit run that are later by `τ`. -/
structure ForcesLater (p q : Physics K S) (τ : K) : Prop where
  external : ∀ s tp tc o, p.external s tp tc o = q.external s (tp + τ) (tc + τ) o
  internal : ∀ s tp tc o u, p.internal s tp tc o u = q.internal s (tp + τ) (tc + τ) o u
  contact : p.contact = q.contact
  updateStates : p.updateStates = q.updateStates

/-- The same fields, later by `τ`. -/
def Sim.later (s : Sim K S) (τ : K) : Sim K S :=
  { s with time := s.time + τ, outputs := s.outputs.map fun o => { o with time := o.time + τ } }

omit [IsStrictOrderedRing K] in
theorem step_later {c d : Config K} {p q : Physics K S} {τ : K} (h : Later c d τ) (hp : ForcesLater p q τ) (k : ℕ)
    (s : Sim K S) : step d q k (s.later τ) = (step c p k s).map fun s => s.later τ := by
  have hflag : d.isOutputStep k = c.isOutputStep k := by
    unfold Config.isOutputStep
    rw [h.frequency, h.numSteps]
  have htime : s.time + τ + d.dt = s.time + c.dt + τ := by rw [← h.dt, add_right_comm]
  have hcf : contactForce q = contactForce p := by
    funext s k u
    unfold contactForce
    rw [hp.contact]
  have hac : accel d = accel c := by
    funext a b f n i
    unfold accel
    rw [h.mass]
  unfold step
  simp only [Sim.later, htime, hflag, kinematic_later h, add_sub_add_right_eq_sub, ← hp.external, ← hp.internal, hcf,
    hac, ← hp.updateStates, Option.bind_eq_bind]
  cases p.internal s.state s.time (s.time + c.dt) (c.isOutputStep k) _ with
  | none => rfl
  | some x =>
    obtain ⟨F, st⟩ := x
    simp only [Option.bind_some]
    cases contactForce p st (k + 1) _ with
    | none => rfl
    | some y => cases c.isOutputStep k <;> simp

/-- **C157 (c)**, the part that holds for explicit runs: whenever the fields at the start are the same (the velocities
prescribed at time zero are), all later steps are the same, later by `τ`. -/
theorem explicit_later_partial {c d : Config K} {p q : Physics K S} {τ : K} (h : Later c d τ) (hp : ForcesLater p q τ)
    (s0 : S) (hv : (start d s0).velocity = (start c s0).velocity) (hu : (start d s0).displacement = (start c s0).displacement)
    (k : ℕ) : loop d q k (start d s0) = (loop c p k (start c s0)).map fun s => s.later τ := by
  induction k with
  | zero =>
    rw [loop_zero, loop_zero]
    have h1 : (start c s0).later τ = start d s0 := by
      have e : ∀ c : Config K, start c s0 = ⟨c.initialTime, (start c s0).displacement, (start c s0).velocity,
        fun _ _ => 0, s0, [⟨c.initialTime, (start c s0).displacement, (start c s0).velocity, fun _ _ => 0⟩]⟩ :=
        fun _ => rfl
      rw [e d, hv, hu, e c, h.initialTime]
      rfl
    rw [Option.map_some, h1]
  | succ k ih =>
    rw [loop_succ, loop_succ, ih]
    cases loop c p k (start c s0) with
    | none => rfl
    | some s => exact step_later h hp k s

/-! ## Concrete cases -/

/-- The deck of C155, later by 100. -/
def laterDeck : QConfig ℚ :=
  { restConfig fun t => 5 * (t - 100) with initialTime := 100, finalTime := 103 }

theorem laterDeck_later : QLater (restConfig fun t => 5 * t) laterDeck 100 where
  X := rfl
  mass := rfl
  initialTime := by decide +kernel
  finalTime := by decide +kernel
  numSteps := rfl
  frequency := rfl
  sets := rfl
  dim := rfl
  scheme := rfl
  bcs := List.Forall₂.cons ⟨rfl, rfl, rfl, fun n t => by simp [prescribed]⟩ .nil
  numRanks := rfl
  ids := rfl
  relTol := rfl
  maxIter := rfl
  cgTol := rfl
  cgMax := rfl
  sqrt := rfl

/-- Non-vacuity of (a). -/
example : qLoop laterDeck movedPhysics 3 (qStart laterDeck 0)
      = (qLoop (restConfig fun t => 5 * t) movedPhysics 3 (qStart (restConfig fun t => 5 * t) 0)).map
          (fun s => s.later 100) ∧
    end1 laterDeck 3 = some 15 :=
  ⟨quasistatic_later laterDeck_later ⟨fun _ _ _ _ _ => rfl, rfl, rfl, rfl⟩ 0 3, by decide +kernel⟩

/-- A node with a prescribed velocity, by the clock `clock`. -/
def clocked (origin : ℚ) : Config ℚ where
  manager :=
    { sets := fun i => if i = 7 then some [0] else none
      bcs := [⟨.initialVelocity, 7, 0, .inr fun _ _ _ t => 1 + (t - origin)⟩], dim := 1, scheme := .explicit }
  X := fun n _ => n
  mass := fun _ => 1
  initialTime := origin
  finalTime := origin + 4
  numSteps := 4
  frequency := 1

/-- **C157 (b)**, refutation for explicit runs.  The initial velocities are evaluated at time zero, not at the initial
time of the deck: with all times later by 100, the node starts with velocity -99 instead of 1. -/
theorem explicit_later_refuted : Later (clocked 0) (clocked 100) 100 ∧
    (start (clocked 0) 0).velocity 0 0 = (1 : ℚ) ∧ (start (clocked 100) 0).velocity 0 0 = -99 := by
  refine ⟨?_, by decide +kernel, by decide +kernel⟩
  exact
    { X := rfl, mass := rfl, initialTime := by decide +kernel, finalTime := by decide +kernel, numSteps := rfl
      frequency := rfl, sets := rfl, dim := rfl, scheme := rfl
      bcs := List.Forall₂.cons ⟨rfl, rfl, rfl, fun n t => by simp [prescribed, clocked]⟩ .nil }

/-- A deck with a prescribed displacement only, later by 100. -/
def pulledLater : Config ℚ := { pulled 4 (fun t => t - 100) with initialTime := 100, finalTime := 104 }

/-- Non-vacuity of (c). -/
example (s0 : ℕ) : let p := pulledPhysics fun _ => 1
    loop pulledLater p 4 (start pulledLater s0)
      = (loop (pulled 4 fun t => t) p 4 (start (pulled 4 fun t => t) s0)).map fun s => s.later 100 := by
  intro p
  have hp : ForcesLater p p 100 := ⟨fun _ _ _ _ => rfl, fun _ _ _ _ _ => rfl, rfl, rfl⟩
  have h : Later (pulled 4 fun t => t) pulledLater 100 :=
    { X := rfl, mass := rfl, initialTime := by decide +kernel, finalTime := by decide +kernel, numSteps := rfl
      frequency := rfl, sets := rfl, dim := rfl, scheme := rfl
      bcs := List.Forall₂.cons ⟨rfl, rfl, rfl, fun n t => by simp [prescribed]⟩ .nil }
  have hm : ∀ c : Config ℚ, c.manager.scheme ≠ .quasistatic → (start c s0).displacement = fun _ _ => 0 :=
    fun c hc => applyKinematicBC_displacement c.manager hc 0 0 c.X _
  have hk : ∀ c : Config ℚ, (∀ b ∈ c.manager.bcs, b.type = .prescribedDisplacement) →
      (start c s0).velocity = fun _ _ => 0 := by
    intro c hc
    unfold start kinematic applyKinematicBC applyInitialConditions
    simp only [sub_self]
    generalize c.manager.bcs = l at hc
    have h1 : ∀ st : Nodal ℚ × List (Nodal ℚ), l.foldl (fun st bc =>
        if bc.type = .initialVelocity then
          (c.manager.nodeSet bc).foldl (fun (st : Nodal ℚ × List (Nodal ℚ)) n =>
            (setAt st.1 n bc.coordinate (c.manager.value bc c.X n 0),
              st.2.map fun o => setAt o n bc.coordinate (c.manager.value bc c.X n 0))) st
        else st) st = st := by
      induction l with
      | nil => intro st; rfl
      | cons b l ih =>
        intro st
        rw [List.foldl_cons, if_neg (by rw [hc b List.mem_cons_self]; decide)]
        exact ih (fun b hb => hc b (List.mem_cons_of_mem _ hb)) st
    have h2 : ∀ st : Kin ℚ, l.foldl (kinematicBc c.manager c.X 0 0) st = st := by
      induction l with
      | nil => intro st; rfl
      | cons b l ih =>
        intro st
        have hb : kinematicBc c.manager c.X 0 0 st b = st := by
          unfold kinematicBc
          rw [if_neg (by rw [hc b List.mem_cons_self]; decide), if_neg (fun h => lt_irrefl _ h.2)]
        rw [List.foldl_cons, hb]
        exact ih (fun b hb => hc b (List.mem_cons_of_mem _ hb)) (fun st => by
          have := h1 st
          rwa [List.foldl_cons, if_neg (by rw [hc b List.mem_cons_self]; decide)] at this) st
    rw [h1, h2]
  have b1 : ∀ b ∈ (pulled 4 fun t => t).manager.bcs, b.type = .prescribedDisplacement := by
    intro b hb
    rw [List.mem_singleton.mp hb]
  have b2 : ∀ b ∈ pulledLater.manager.bcs, b.type = .prescribedDisplacement := by
    intro b hb
    rw [List.mem_singleton.mp hb]
  exact explicit_later_partial h hp s0 ((hk _ b2).trans (hk _ b1).symm)
    ((hm _ (by decide)).trans (hm _ (by decide)).symm) 4

end NimbleSM.Integrate
