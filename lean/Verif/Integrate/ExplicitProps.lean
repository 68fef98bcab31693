import Verif.Integrate.Explicit
import Verif.Bc.KinematicProps
import Mathlib.Algebra.BigOperators.Group.Finset.Basic
import Mathlib.Algebra.BigOperators.Group.Finset.Sigma
import Mathlib.Algebra.BigOperators.Ring.Finset
import Mathlib.Tactic.LinearCombination

/-!
# C40-C44: what explicit time integration guarantees
-/

open scoped BigOperators

namespace NimbleSM.Integrate

open NimbleSM.Bc

variable {K S : Type*} [Field K] [LinearOrder K] [IsStrictOrderedRing K]

theorem half_eq : (0.5 : K) = 1 / 2 := by norm_num

theorem loop_zero (c : Config K) (p : Physics K S) (s : Sim K S) : loop c p 0 s = some s := rfl

theorem loop_succ (c : Config K) (p : Physics K S) (n : ℕ) (s : Sim K S) :
    loop c p (n + 1) s = (loop c p n s).bind (step c p n) := by
  unfold loop
  rw [List.range_succ (n := n), List.foldlM_append]
  simp [Option.bind_eq_bind]

/-- Everything one pass of the loop does, in one place. -/
theorem step_spec (c : Config K) (hm : c.manager.scheme ≠ .quasistatic) (p : Physics K S) (k : ℕ)
    (s s' : Sim K S) (h : step c p k s = some s') :
    ∃ (vh F E : Nodal K) (C : Option (Nodal K)) (st st' : S) (vm : Nodal K),
      -- velocity used to move the nodes
      vh = (kinematic c (s.time + c.dt) s.time s.displacement (axpy s.velocity (c.dt / 2) s.acceleration)).2 ∧
      s'.displacement = axpy s.displacement c.dt vh ∧
      vm = (kinematic c (s.time + c.dt) s.time s'.displacement vh).2 ∧
      E = p.external s.state s.time (s.time + c.dt) (c.isOutputStep k) ∧
      p.internal s.state s.time (s.time + c.dt) (c.isOutputStep k) s'.displacement = some (F, st) ∧
      contactForce p st (k + 1) s'.displacement = some (C, st') ∧
      s'.acceleration = accel c F E C ∧
      s'.velocity = (if c.isOutputStep k = true then
        (kinematic c (s.time + c.dt) s.time s'.displacement (axpy vm (c.dt / 2) s'.acceleration)).2
        else axpy vm (c.dt / 2) s'.acceleration) ∧
      s'.time = s.time + c.dt ∧ s'.state = p.updateStates st' ∧
      s'.outputs = (if c.isOutputStep k = true then
        s.outputs ++ [⟨s'.time, s'.displacement, s'.velocity, s'.acceleration⟩] else s.outputs) := by
  have hk1 : ∀ tc tp (u v : Nodal K), (kinematic c tc tp u v).1 = u := fun tc tp u v =>
    applyKinematicBC_displacement c.manager hm tc tp c.X _
  unfold step at h
  simp only [add_sub_cancel_left, Option.bind_eq_bind, Option.bind_eq_some_iff, Option.some.injEq] at h
  obtain ⟨⟨F, st⟩, hF, ⟨C, st'⟩, hC, rfl⟩ := h
  have hhalf : (0.5 : K) * c.dt = c.dt / 2 := by rw [half_eq]; ring
  refine ⟨_, F, _, C, st, st', _, rfl, ?_, rfl, rfl, ?_, ?_, ?_, ?_, ?_, ?_, ?_⟩
  all_goals simp only [hk1, hhalf] at hF hC ⊢
  all_goals try split_ifs <;> simp_all

/-! ## C42: times and outputs -/

theorem loop_time (c : Config K) (hm : c.manager.scheme ≠ .quasistatic) (p : Physics K S) (n : ℕ)
    (s s' : Sim K S) (h : loop c p n s = some s') : s'.time = s.time + n * c.dt := by
  induction n generalizing s' with
  | zero => rw [loop_zero] at h; cases h; simp
  | succ n ih =>
    rw [loop_succ, Option.bind_eq_some_iff] at h
    obtain ⟨s1, h1, h2⟩ := h
    obtain ⟨_, _, _, _, _, _, _, _, _, _, _, _, _, _, _, ht, _⟩ := step_spec c hm p n s1 s' h2
    rw [ht, ih s1 h1]; push_cast; ring

/-- Specification: step `k` (counted from 0) is written exactly when output is requested and `k` is a
multiple of the output frequency or the last step. -/
def Written (c : Config K) (k : ℕ) : Prop := c.frequency ≠ 0 ∧ (c.frequency ∣ (k : ℤ) ∨ k + 1 = c.numSteps)

theorem isOutputStep_iff (c : Config K) (k : ℕ) : c.isOutputStep k = true ↔ Written c k := by
  unfold Config.isOutputStep Written
  simp only [decide_eq_true_eq, Int.dvd_iff_emod_eq_zero]
  have : ((k : ℤ) = (c.numSteps : ℤ) - 1) ↔ k + 1 = c.numSteps := by omega
  rw [this]

open Classical in
theorem loop_output_times (c : Config K) (hm : c.manager.scheme ≠ .quasistatic) (p : Physics K S) (n : ℕ)
    (s s' : Sim K S) (h : loop c p n s = some s') :
    s'.outputs.map Output.time = s.outputs.map Output.time ++
      ((List.range n).filter fun k => decide (Written c k)).map fun k : ℕ => s.time + ((k : K) + 1) * c.dt := by
  induction n generalizing s' with
  | zero => rw [loop_zero] at h; cases h; simp
  | succ n ih =>
    rw [loop_succ, Option.bind_eq_some_iff] at h
    obtain ⟨s1, h1, h2⟩ := h
    obtain ⟨_, _, _, _, _, _, _, _, _, _, _, _, _, _, _, ht, _, ho⟩ := step_spec c hm p n s1 s' h2
    rw [ho, List.range_succ, List.filter_append, List.map_append, ← List.append_assoc, ← ih s1 h1]
    have htime := loop_time c hm p n s s1 h1
    by_cases hw : Written c n
    · rw [if_pos ((isOutputStep_iff c n).mpr hw)]
      simp only [List.map_append, List.map_cons, List.map_nil, hw, decide_true, List.filter_cons_of_pos,
        List.filter_nil]
      rw [ht, htime]
      congr 2
      ring
    · rw [if_neg (fun h => hw ((isOutputStep_iff c n).mp h))]
      simp [hw]

open Classical in
/-- **C42.**  A run that finishes has performed exactly `numSteps` steps of size `(tf - t0)/n`, ends at the
final time, and has written, in this order, the initial time and the end times of the steps that the output
frequency selects. -/
theorem explicit_times (c : Config K) (hm : c.manager.scheme ≠ .quasistatic) (p : Physics K S) (s0 : S)
    (rank : ℕ) (s : Sim K S) (h : integrate c p s0 rank = .finished s) :
    (c.numSteps ≠ 0 → s.time = c.finalTime) ∧
    (∀ n ≤ c.numSteps, ∃ sn, loop c p n (start c s0) = some sn ∧
      sn.time = c.initialTime + n * ((c.finalTime - c.initialTime) / c.numSteps)) ∧
    s.outputs.map Output.time = c.initialTime ::
      ((List.range c.numSteps).filter fun k => decide (Written c k)).map fun k : ℕ =>
        c.initialTime + ((k : K) + 1) * ((c.finalTime - c.initialTime) / c.numSteps) := by
  unfold integrate at h
  split_ifs at h with hr
  cases hl : loop c p c.numSteps (start c s0) with
  | none => rw [hl] at h; simp at h
  | some s1 =>
    rw [hl] at h
    simp only [Result.finished.injEq] at h
    subst h
    have ht := loop_time c hm p _ _ _ hl
    have hst : (start c s0).time = c.initialTime := rfl
    refine ⟨?_, ?_, ?_⟩
    · intro hn
      rw [ht, hst, Config.dt]
      have : (c.numSteps : K) ≠ 0 := Nat.cast_ne_zero.mpr hn
      field_simp; ring
    · intro n hn
      have hprefix : ∀ m, ∃ sn, loop c p (n + m) (start c s0) = some sn → True := fun _ => ⟨s1, fun _ => trivial⟩
      have : ∀ m s, loop c p (n + m) (start c s0) = some s → ∃ sn, loop c p n (start c s0) = some sn := by
        intro m
        induction m with
        | zero => intro s h; exact ⟨s, h⟩
        | succ m ih =>
          intro s h
          rw [← Nat.add_assoc, loop_succ, Option.bind_eq_some_iff] at h
          obtain ⟨s1, h1, _⟩ := h
          exact ih s1 h1
      obtain ⟨sn, hsn⟩ := this (c.numSteps - n) s1 (by rw [Nat.add_sub_cancel' hn]; exact hl)
      exact ⟨sn, hsn, by rw [loop_time c hm p _ _ _ hsn]; rfl⟩
    · rw [loop_output_times c hm p _ _ _ hl]
      rfl

/-- **C42.**  A final time before the initial time is rejected (by rank 0). -/
theorem explicit_rejects (c : Config K) (p : Physics K S) (s0 : S) (h : c.finalTime < c.initialTime) :
    integrate c p s0 0 = .invalidArgument := by
  unfold integrate
  rw [if_pos ⟨rfl, h⟩]

/-- **C42.**  With frequency 0 only the initial state is written. -/
theorem explicit_frequency_zero (c : Config K) (hm : c.manager.scheme ≠ .quasistatic) (p : Physics K S)
    (s0 : S) (rank : ℕ) (s : Sim K S) (hf : c.frequency = 0) (h : integrate c p s0 rank = .finished s) :
    s.outputs.map Output.time = [c.initialTime] := by
  classical
  rw [(explicit_times c hm p s0 rank s h).2.2]
  simp [Written, hf]

/-- **C42.**  A run fails only if a force evaluation aborts: if none does, it finishes. -/
theorem explicit_finishes (c : Config K) (p : Physics K S) (s0 : S) (rank : ℕ)
    (hint : ∀ s tp tc o u, ∃ r, p.internal s tp tc o u = some r)
    (hcon : ∀ f, p.contact = some f → ∀ s k u, ∃ r, f s k u = some r)
    (hr : ¬ (rank = 0 ∧ c.finalTime < c.initialTime)) : ∃ s, integrate c p s0 rank = .finished s := by
  have hstep : ∀ k s, ∃ s', step c p k s = some s' := by
    intro k s
    unfold step
    simp only [Option.bind_eq_bind]
    obtain ⟨r, hr⟩ := hint s.state s.time (s.time + c.dt) (c.isOutputStep k)
      (kinematic c (s.time + c.dt) s.time _ _).1
    rw [hr]
    simp only [Option.bind_some]
    unfold contactForce
    cases hp : p.contact with
    | none => exact ⟨_, rfl⟩
    | some f =>
      simp only
      obtain ⟨r2, hr2⟩ := hcon f hp r.2 (k + 1) (kinematic c (s.time + c.dt) s.time _ _).1
      rw [hr2]
      exact ⟨_, rfl⟩
  have hloop : ∀ n, ∃ s', loop c p n (start c s0) = some s' := by
    intro n
    induction n with
    | zero => exact ⟨_, rfl⟩
    | succ n ih =>
      obtain ⟨s1, h1⟩ := ih
      obtain ⟨s2, h2⟩ := hstep n s1
      exact ⟨s2, by rw [loop_succ, h1]; exact h2⟩
  obtain ⟨s, hs⟩ := hloop c.numSteps
  exact ⟨s, by unfold integrate; rw [if_neg hr, hs]⟩

/-! ## C40: prescribed displacements -/

theorem kinematic_velocity (c : Config K) (tc tp : K) (u v : Nodal K) :
    (kinematic c tc tp u v).2
      = (applyKinematicBC c.manager tc tp c.X { displacement := u, velocity := v, offnom := [] }).velocity :=
  rfl

theorem step_displacement (c : Config K) (hm : c.manager.scheme ≠ .quasistatic) (hdt : 0 < c.dt)
    (p : Physics K S) (k : ℕ) (s s' : Sim K S) (h : step c p k s = some s')
    (bc : BoundaryCondition K) (n i : ℕ) (hg : Governs c.manager bc n i) :
    (bc.type = .prescribedDisplacement → s'.displacement n i = prescribed c.manager bc c.X n s'.time) ∧
    (bc.type = .prescribedVelocity →
      s'.displacement n i = s.displacement n i + c.dt * prescribed c.manager bc c.X n s'.time) := by
  obtain ⟨vh, F, E, C, st, st', vm, hvh, hu, -, -, -, -, -, -, ht, -, -⟩ := step_spec c hm p k s s' h
  rw [kinematic_velocity] at hvh
  have hgv := governs_velocity c.manager hm (s.time + c.dt) s.time c.X
    { displacement := s.displacement, velocity := axpy s.velocity (c.dt / 2) s.acceleration, offnom := [] }
    bc n i hg
  rw [hu, ht]
  constructor
  · intro hty
    have := hgv.2 hty (by simpa using hdt)
    simp only [add_sub_cancel_left] at this
    unfold axpy
    rw [hvh, this]
    have : c.dt ≠ 0 := hdt.ne'
    field_simp
    ring
  · intro hty
    have := (hgv.1 hty).1
    unfold axpy
    rw [hvh, this]

/-- **C40.**  After every step the displacement of a degree of freedom governed by a prescribed
displacement equals the prescribed value at the new time: whatever the forces, the masses, the contact,
the other conditions and the number of steps. -/
theorem prescribed_displacement_met (c : Config K) (hm : c.manager.scheme ≠ .quasistatic) (hdt : 0 < c.dt)
    (p : Physics K S) (s0 : S) (k : ℕ) (s : Sim K S) (h : loop c p (k + 1) (start c s0) = some s)
    (bc : BoundaryCondition K) (n i : ℕ) (hg : Governs c.manager bc n i)
    (hty : bc.type = .prescribedDisplacement) :
    s.displacement n i = prescribed c.manager bc c.X n (c.initialTime + (k + 1) * c.dt) := by
  have ht := loop_time c hm p _ _ _ h
  rw [loop_succ, Option.bind_eq_some_iff] at h
  obtain ⟨s1, h1, h2⟩ := h
  rw [(step_displacement c hm hdt p k s1 s h2 bc n i hg).1 hty, ht]
  push_cast
  rfl

/-! ## C41: prescribed velocities -/

theorem start_displacement (c : Config K) (hm : c.manager.scheme ≠ .quasistatic) (s0 : S) :
    (start c s0).displacement = fun _ _ => 0 :=
  applyKinematicBC_displacement c.manager hm 0 0 c.X _

/-- **C41.**  The displacement accumulated by a degree of freedom governed by a prescribed velocity is the
sum over the steps of the step size times the prescribed velocity at the end of the step. -/
theorem prescribed_velocity_displacement (c : Config K) (hm : c.manager.scheme ≠ .quasistatic)
    (hdt : 0 < c.dt) (p : Physics K S) (s0 : S) (k : ℕ) (s : Sim K S)
    (h : loop c p k (start c s0) = some s) (bc : BoundaryCondition K) (n i : ℕ)
    (hg : Governs c.manager bc n i) (hty : bc.type = .prescribedVelocity) :
    s.displacement n i
      = ∑ j ∈ Finset.range k, c.dt * prescribed c.manager bc c.X n (c.initialTime + (j + 1) * c.dt) := by
  induction k generalizing s with
  | zero => rw [loop_zero] at h; cases h; rw [start_displacement c hm]; simp
  | succ k ih =>
    have ht := loop_time c hm p _ _ _ h
    rw [loop_succ, Option.bind_eq_some_iff] at h
    obtain ⟨s1, h1, h2⟩ := h
    rw [(step_displacement c hm hdt p k s1 s h2 bc n i hg).2 hty, ih s1 h1, Finset.sum_range_succ, ht]
    push_cast
    rfl

/-- All outputs written by the first `n` steps satisfy `P` if those of each step do. -/
theorem loop_outputs (c : Config K) (hm : c.manager.scheme ≠ .quasistatic) (p : Physics K S)
    (P : Output K → Prop) (n : ℕ) (s s' : Sim K S) (h : loop c p n s = some s')
    (hP : ∀ k s1 s2, step c p k s1 = some s2 → c.isOutputStep k = true →
      P ⟨s2.time, s2.displacement, s2.velocity, s2.acceleration⟩) :
    ∃ new, s'.outputs = s.outputs ++ new ∧ ∀ o ∈ new, P o := by
  induction n generalizing s' with
  | zero => rw [loop_zero] at h; cases h; exact ⟨[], by simp, by simp⟩
  | succ n ih =>
    rw [loop_succ, Option.bind_eq_some_iff] at h
    obtain ⟨s1, h1, h2⟩ := h
    obtain ⟨new, hnew, hall⟩ := ih s1 h1
    obtain ⟨_, _, _, _, _, _, _, _, _, _, _, _, _, _, _, _, _, ho⟩ := step_spec c hm p n s1 s' h2
    by_cases hw : c.isOutputStep n = true
    · rw [if_pos hw] at ho
      refine ⟨new ++ [⟨s'.time, s'.displacement, s'.velocity, s'.acceleration⟩], by rw [ho, hnew]; simp, ?_⟩
      intro o ho'
      rcases List.mem_append.mp ho' with h' | h'
      · exact hall o h'
      · rw [List.mem_singleton.mp h']; exact hP n s1 s' h2 hw
    · rw [if_neg hw] at ho
      exact ⟨new, by rw [ho, hnew], hall⟩

/-- **C40, C41, in the output file.**  Every output after the initial one shows, at its own time, exactly
the prescribed displacement (with zero velocity) or the prescribed velocity on the governed degrees of
freedom. -/
theorem outputs_meet_conditions (c : Config K) (hm : c.manager.scheme ≠ .quasistatic) (hdt : 0 < c.dt)
    (p : Physics K S) (s0 : S) (k : ℕ) (s : Sim K S) (h : loop c p k (start c s0) = some s) :
    ∃ new, s.outputs = (start c s0).outputs ++ new ∧ ∀ o ∈ new,
      ∀ bc n i, Governs c.manager bc n i →
        (bc.type = .prescribedDisplacement →
          o.displacement n i = prescribed c.manager bc c.X n o.time ∧ o.velocity n i = 0) ∧
        (bc.type = .prescribedVelocity → o.velocity n i = prescribed c.manager bc c.X n o.time) := by
  apply loop_outputs c hm p _ k _ _ h
  intro j s1 s2 hstep hout bc n i hg
  obtain ⟨vh, F, E, C, st, st', vm, hvh, hu, hvm, -, -, -, ha, hv, ht, -, -⟩ := step_spec c hm p j s1 s2 hstep
  rw [if_pos hout, kinematic_velocity] at hv
  have hgv := governs_velocity c.manager hm (s1.time + c.dt) s1.time c.X
    { displacement := s2.displacement, velocity := axpy vm (c.dt / 2) s2.acceleration, offnom := [] } bc n i hg
  rw [← ht] at hgv hv
  constructor
  · intro hty
    have hd := (step_displacement c hm hdt p j s1 s2 hstep bc n i hg).1 hty
    refine ⟨hd, ?_⟩
    have := hgv.2 hty (by rw [ht]; simpa using hdt)
    simp only
    rw [hv, this]
    simp only [hd, sub_self, zero_div]
  · intro hty
    simp only
    rw [hv]
    exact (hgv.1 hty).1

/-- **C41.**  The velocity used to move a governed node, after the first half step, is the prescribed one;
so is the initial velocity (evaluated at time 0). -/
theorem start_velocity (c : Config K) (hm : c.manager.scheme ≠ .quasistatic) (s0 : S)
    (bc : BoundaryCondition K) (n i : ℕ) (hg : Governs c.manager bc n i)
    (hty : bc.type = .prescribedVelocity) :
    (start c s0).velocity n i = prescribed c.manager bc c.X n 0 :=
  ((governs_velocity c.manager hm 0 0 c.X _ bc n i hg).1 hty).1

/-- **C41.**  A degree of freedom without kinematic condition is never modified by conditions: one step
moves it by the velocity Verlet formula with the acceleration of the force evaluation. -/
theorem free_dof_step (c : Config K) (hm : c.manager.scheme ≠ .quasistatic) (p : Physics K S) (k : ℕ)
    (s s' : Sim K S) (h : step c p k s = some s') (n i : ℕ) (hfree : Free c.manager n i) :
    s'.displacement n i
      = s.displacement n i + c.dt * s.velocity n i + c.dt ^ 2 / 2 * s.acceleration n i ∧
    s'.velocity n i = s.velocity n i + c.dt / 2 * (s.acceleration n i + s'.acceleration n i) := by
  obtain ⟨vh, F, E, C, st, st', vm, hvh, hu, hvm, -, -, -, ha, hv, ht, -, -⟩ := step_spec c hm p k s s' h
  have hk : ∀ tc tp (u v : Nodal K), (kinematic c tc tp u v).2 n i = v n i := fun tc tp u v =>
    (free_dof_untouched c.manager tc tp c.X _ n i hfree).2.1
  have hvh' : vh n i = s.velocity n i + c.dt / 2 * s.acceleration n i := by rw [hvh, hk]; rfl
  have hvm' : vm n i = vh n i := by rw [hvm, hk]
  constructor
  · rw [hu]; unfold axpy; rw [hvh']; ring
  · rw [hv]
    split_ifs
    · rw [hk]; unfold axpy; rw [hvm', hvh']; ring
    · unfold axpy; rw [hvm', hvh']; ring

/-- The acceleration after a step is the force of the evaluation at the new displacement over the mass. -/
theorem step_acceleration (c : Config K) (hm : c.manager.scheme ≠ .quasistatic) (p : Physics K S) (k : ℕ)
    (s s' : Sim K S) (h : step c p k s = some s') (hc : p.contact = none) :
    ∃ F st, p.internal s.state s.time (s.time + c.dt) (c.isOutputStep k) s'.displacement = some (F, st) ∧
      s'.state = p.updateStates st ∧
      ∀ n i, s'.acceleration n i
        = (F n i + p.external s.state s.time (s.time + c.dt) (c.isOutputStep k) n i) / c.mass n := by
  obtain ⟨vh, F, E, C, st, st', vm, hvh, hu, hvm, hE, hF, hC, ha, hv, ht, hs, -⟩ := step_spec c hm p k s s' h
  unfold contactForce at hC
  rw [hc] at hC
  simp only [Option.some.injEq, Prod.mk.injEq] at hC
  obtain ⟨rfl, rfl⟩ := hC
  refine ⟨F, st, hF, hs, fun n i => ?_⟩
  rw [ha, hE]
  unfold accel
  simp only
  rw [one_div_mul_eq_div]

end NimbleSM.Integrate
