import Verif.Integrate.MomentumProps

/-!
# C44: velocity Verlet and reversibility; concrete runs; two limits of C41
-/

open scoped BigOperators

namespace NimbleSM.Integrate

open NimbleSM.Bc NimbleSM.Assembly

variable {K S : Type*} [Field K] [LinearOrder K] [IsStrictOrderedRing K]

/-- Specification: the forces are a fixed function of the displacement (no time dependence, no memory, no
contact), and `A` is the resulting acceleration. -/
def ForceLaw (c : Config K) (p : Physics K S) (A : Nodal K → Nodal K) : Prop :=
  p.contact = none ∧ ∃ (f : Nodal K → Nodal K) (g : Nodal K),
    (∀ s tp tc o u, ∃ s', p.internal s tp tc o u = some (f u, s')) ∧
    (∀ s tp tc o, p.external s tp tc o = g) ∧
    ∀ u n i, A u n i = (f u n i + g n i) / c.mass n

/-- **C44.**  Without constraints one step is velocity Verlet. -/
theorem verlet_step (c : Config K) (hm : c.manager.scheme ≠ .quasistatic) (p : Physics K S)
    (A : Nodal K → Nodal K) (hA : ForceLaw c p A) (hfree : Unconstrained c) (k : ℕ) (s s' : Sim K S)
    (h : step c p k s = some s') (hs : s.acceleration = A s.displacement) :
    (∀ n i, s'.displacement n i
      = s.displacement n i + c.dt * s.velocity n i + c.dt ^ 2 / 2 * A s.displacement n i) ∧
    (∀ n i, s'.velocity n i
      = s.velocity n i + c.dt / 2 * (A s.displacement n i + A s'.displacement n i)) ∧
    s'.acceleration = A s'.displacement := by
  obtain ⟨hc, f, g, hf, hg, hAf⟩ := hA
  have ha : s'.acceleration = A s'.displacement := by
    obtain ⟨F, st, hF, -, ha⟩ := step_acceleration c hm p k s s' h hc
    obtain ⟨s2, hs2⟩ := hf s.state s.time (s.time + c.dt) (c.isOutputStep k) s'.displacement
    rw [hs2] at hF
    simp only [Option.some.injEq, Prod.mk.injEq] at hF
    funext n i
    rw [ha, hAf, hg, hF.1]
  refine ⟨fun n i => ?_, fun n i => ?_, ha⟩
  · rw [(free_dof_step c hm p k s s' h n i (hfree n i)).1, hs]
  · rw [(free_dof_step c hm p k s s' h n i (hfree n i)).2, ha, hs]

/-- The same problem with the time interval run backwards. -/
def Config.reversed (c : Config K) : Config K :=
  { c with initialTime := c.finalTime, finalTime := c.initialTime }

/-- **C44.**  Stepping backwards from the result of a step returns the displacement, the velocity and the
acceleration from before it. -/
theorem verlet_reversible (c : Config K) (hm : c.manager.scheme ≠ .quasistatic) (p : Physics K S)
    (A : Nodal K → Nodal K) (hA : ForceLaw c p A) (hfree : Unconstrained c) (k k' : ℕ)
    (s s' s'' : Sim K S) (h : step c p k s = some s') (h' : step c.reversed p k' s' = some s'')
    (hs : s.acceleration = A s.displacement) :
    s''.displacement = s.displacement ∧ s''.velocity = s.velocity ∧ s''.acceleration = s.acceleration := by
  obtain ⟨h1, h2, h3⟩ := verlet_step c hm p A hA hfree k s s' h hs
  have hA' : ForceLaw c.reversed p A := hA
  obtain ⟨g1, g2, g3⟩ := verlet_step c.reversed hm p A hA' hfree k' s' s'' h' h3
  have hdt : c.reversed.dt = -c.dt := by
    unfold Config.dt Config.reversed
    simp only
    rw [← neg_div, neg_sub]
  have hu : s''.displacement = s.displacement := by
    funext n i
    rw [g1, hdt, h1, h2]; ring
  refine ⟨hu, ?_, by rw [g3, hu, hs]⟩
  funext n i
  rw [g2, hdt, h2, hu]; ring

/-! ## Concrete runs -/

/-- A free sheared cube thrown with unit velocity along the first axis: two steps, every step written. -/
def thrown : Config ℚ where
  manager :=
    { sets := fun i => if i = 1 then some [0, 1, 2, 3, 4, 5, 6, 7] else none
      bcs := [⟨.initialVelocity, 1, 0, .inl 1⟩]
      dim := 3
      scheme := .explicit }
  X := fun n i => Hex.demo (3 * n + i)
  mass := fun _ => 3
  initialTime := 0
  finalTime := 1
  numSteps := 2
  frequency := 1

theorem thrown_unconstrained : Unconstrained thrown := by
  intro n i bc hb
  simp only [thrown, List.mem_singleton] at hb
  subst hb
  rintro ⟨h, -⟩
  exact absurd h (by decide)

theorem thrown_kinematic (tc tp : ℚ) (u v : Nodal ℚ) : kinematic thrown tc tp u v = (u, v) := rfl

theorem thrown_velocity (n : ℕ) (hn : n < 8) (d : Fin 3) :
    (start thrown ()).velocity n d = if d = 0 then 1 else 0 := by
  unfold start
  simp only [thrown_kinematic]
  interval_cases n <;> fin_cases d <;> rfl

/-- The mesh of one element. -/
def thrownMesh : List (Blk ℚ × List ℕ) := [(demoBlk, [0])]

theorem thrown_mesh : InMesh 8 thrownMesh := by
  intro b hb e he c hc
  simp only [thrownMesh, List.mem_singleton] at hb
  subst hb
  simp only [List.mem_singleton] at he
  subst he
  simpa [Blk.nodeId, demoBlk] using hc

/-- Non-vacuity of C43 and C68: the first step of the thrown cube succeeds. -/
theorem thrown_runs : ∃ s, loop thrown (meshPhysics Hex.gaussVal thrown.X thrownMesh) 1 (start thrown ()) = some s := by
  rw [loop_succ, loop_zero, Option.bind_some]
  unfold step
  simp only [thrown_kinematic, contactForce, meshPhysics]
  set u : Nodal ℚ := axpy (start thrown ()).displacement
    ((start thrown ()).time + thrown.dt - (start thrown ()).time)
    (axpy (start thrown ()).velocity (0.5 * ((start thrown ()).time + thrown.dt - (start thrown ()).time))
      (start thrown ()).acceleration) with hu
  have hval : ∀ n < 8, ∀ d : Fin 3, u n d = if d = 0 then 1 / 2 else 0 := by
    intro n hn d
    rw [hu]
    unfold axpy
    rw [thrown_velocity n hn d]
    have h1 : (start thrown ()).displacement n d = 0 := rfl
    have h2 : (start thrown ()).acceleration n d = 0 := rfl
    have h3 : thrown.dt = 1 / 2 := by unfold Config.dt thrown; norm_num
    have h4 : (start thrown ()).time = 0 := rfl
    rw [h1, h2, h3, h4]
    split_ifs <;> norm_num
  have hX : ∀ n < 8, ∀ d : Fin 3, flat thrown.X (3 * n + d) = Hex.demo (3 * n + d) := by
    intro n _ d; rw [flat_apply]; rfl
  have hJ : ∀ p : Fin 8, Hex.Jac Hex.gaussVal (gather demoBlk 0 (flat thrown.X)) p = Hex.Jac Hex.gaussVal Hex.demo p := by
    intro p
    have := Hex.Jac_affine Hex.gaussVal Hex.demo (gather demoBlk 0 (flat thrown.X)) 1 0
      (by
        intro n hn d
        rw [gather_val demoBlk 0 _ hn d, show demoBlk.nodeId 0 n = n by simp [Blk.nodeId, demoBlk],
          hX n hn d]
        simp [Matrix.one_apply]) p
    rw [this, Matrix.one_mul]
  have hJ' : ∀ p : Fin 8, Hex.Jac Hex.gaussVal (gather demoBlk 0 fun k => flat thrown.X k + flat u k) p
      = Hex.Jac Hex.gaussVal Hex.demo p := by
    intro p
    have := Hex.Jac_affine Hex.gaussVal Hex.demo (gather demoBlk 0 fun k => flat thrown.X k + flat u k) 1
      (fun d => if d = 0 then 1 / 2 else 0)
      (by
        intro n hn d
        rw [gather_val demoBlk 0 _ hn d, show demoBlk.nodeId 0 n = n by simp [Blk.nodeId, demoBlk],
          hX n hn d, flat_apply, hval n hn d]
        simp [Matrix.one_apply]) p
    rw [this, Matrix.one_mul]
  obtain ⟨F, hF⟩ := (internal_force_defined Hex.gaussVal (flat thrown.X) (flat u) thrownMesh).mpr (by
    intro b hb e he
    simp only [thrownMesh, List.mem_singleton] at hb
    subst hb
    simp only [List.mem_singleton] at he
    subst he
    apply elementForce_defined
    · intro F; exact ⟨_, rfl⟩
    · intro p; rw [hJ]; exact Hex.demo_ok p
    · intro p; rw [hJ']; exact Hex.demo_ok p)
  rw [hF]
  exact ⟨_, rfl⟩

/-- A spring at every degree of freedom. -/
def springs : Physics ℚ Unit where
  external := fun _ _ _ _ => fun _ _ => 0
  internal := fun _ _ _ _ u => some (fun n i => -u n i, ())
  contact := none
  updateStates := id

/-- Springs driven by the conditions of `demoManager` from time 1 to time 2. -/
def driven : Config ℚ where
  manager := demoManager
  X := fun n _ => n
  mass := fun _ => 2
  initialTime := 1
  finalTime := 2
  numSteps := 2
  frequency := 0

/-- Non-vacuity of C40-C42: the driven run finishes, and node 1 follows the displacement `x + 3 t`. -/
example : (∃ s, integrate driven springs () 0 = .finished s) ∧ 0 < driven.dt ∧
    ∃ s, loop driven springs 2 (start driven ()) = some s ∧ s.displacement 1 0 = 1 + 3 * 2 := by
  have hfin := explicit_finishes driven springs () 0 (fun _ _ _ _ _ => ⟨_, rfl⟩)
    (fun f hf => by simp [springs] at hf) (by norm_num [driven])
  have hdt : 0 < driven.dt := by unfold Config.dt driven; norm_num
  refine ⟨hfin, hdt, ?_⟩
  obtain ⟨s, hs⟩ := hfin
  obtain ⟨sn, hsn, -⟩ := (explicit_times driven (by decide) springs () 0 s hs).2.1 2 le_rfl
  refine ⟨sn, hsn, ?_⟩
  rw [prescribed_displacement_met driven (by decide) hdt springs () 1 sn hsn _ 1 0 demo_governs rfl]
  unfold Config.dt driven prescribed
  norm_num

/-- Non-vacuity of C44: the springs on a free body. -/
example : ForceLaw { driven with manager := { demoManager with bcs := [] } } springs
      (fun u n i => -u n i / 2) ∧
    Unconstrained { driven with manager := { demoManager with bcs := [] } } := by
  refine ⟨⟨rfl, fun u n i => -u n i, fun _ _ => 0, fun s tp tc o u => ⟨(), rfl⟩, fun _ _ _ _ => rfl, ?_⟩, ?_⟩
  · intro u n i; simp [driven]
  · intro n i b hb; simp at hb

/-- The claim "a prescribed velocity holds at the end of every step" is false: the last update of the
velocity follows the last application of the conditions unless the step is written. -/
theorem velocity_after_every_step_refuted :
    ¬ ∀ (c : Config ℚ) (p : Physics ℚ Unit) (k : ℕ) (s : Sim ℚ Unit) (bc : BoundaryCondition ℚ) (n i : ℕ),
      c.manager.scheme ≠ .quasistatic → 0 < c.dt → Governs c.manager bc n i →
      bc.type = .prescribedVelocity → loop c p (k + 1) (start c ()) = some s →
      s.velocity n i = prescribed c.manager bc c.X n s.time := by
  intro h
  obtain ⟨s, hs⟩ : ∃ s, loop driven springs (0 + 1) (start driven ()) = some s := ⟨_, rfl⟩
  have hv : s.velocity 0 0 = 75 / 16 := by
    have : (loop driven springs (0 + 1) (start driven ())).map (fun s => s.velocity 0 0) = some (75 / 16) := by
      decide +kernel
    rw [hs] at this
    exact Option.some.inj this
  have hdt : 0 < driven.dt := by unfold Config.dt driven; norm_num
  have := h driven springs 0 s ⟨.prescribedVelocity, 1, 0, .inl 5⟩ 0 0 (by decide) hdt ?_ rfl hs
  · rw [hv] at this
    revert this
    unfold prescribed
    norm_num
  · refine ⟨[], _, rfl, ⟨by decide, rfl, [0, 1], by decide, by decide⟩, ?_⟩
    intro b hb
    simp only [List.mem_cons, List.not_mem_nil, or_false] at hb
    rcases hb with rfl | rfl
    · rintro ⟨-, -, l, hl, hn⟩
      have h2 : demoManager.sets 2 = some [1, 2] := by decide
      have : l = [1, 2] := by
        have hl' : demoManager.sets 2 = some l := hl
        rw [h2] at hl'
        exact (Option.some.inj hl').symm
      rw [this] at hn
      exact absurd hn (by decide)
    · rintro ⟨h, -⟩
      exact absurd h (by decide)

/-- A velocity given by the expression `t`, in a run that starts at time 1. -/
def lateStart : Config ℚ :=
  { driven with manager := { demoManager with bcs := [⟨.prescribedVelocity, 1, 0, .inr fun _ _ _ t => t⟩] } }

/-- The claim "every output, including the initial one, shows the prescribed velocity at its own time" is
false when the run does not start at time 0: the initial conditions are always evaluated at time 0. -/
theorem initial_output_velocity_refuted :
    ¬ ∀ (c : Config ℚ) (bc : BoundaryCondition ℚ) (n i : ℕ),
      c.manager.scheme ≠ .quasistatic → Governs c.manager bc n i → bc.type = .prescribedVelocity →
      ∀ o ∈ (start c ()).outputs, o.velocity n i = prescribed c.manager bc c.X n o.time := by
  intro h
  have := h lateStart ⟨.prescribedVelocity, 1, 0, .inr fun _ _ _ t => t⟩ 0 0 (by decide)
    ⟨[], [], rfl, ⟨by decide, rfl, [0, 1], by decide, by decide⟩, by simp⟩ rfl _ List.mem_cons_self
  have h1 := start_velocity lateStart (by decide) () ⟨.prescribedVelocity, 1, 0, .inr fun _ _ _ t => t⟩ 0 0
    ⟨[], [], rfl, ⟨by decide, rfl, [0, 1], by decide, by decide⟩, by simp⟩ rfl
  have h2 : (start lateStart ()).velocity 0 0 = 1 := this
  rw [h1] at h2
  revert h2
  unfold prescribed
  norm_num

end NimbleSM.Integrate
