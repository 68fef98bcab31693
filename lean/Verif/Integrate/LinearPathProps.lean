import Verif.Integrate.LinearDemo

/-!
# C146: the solution of a linear problem does not depend on the load path

Two quasistatic runs (src/integrators/quasistatic_time_integrator.cc:121-421) of the same linear problem
with the same final time and different numbers of load steps or starting times.
-/

namespace NimbleSM.Integrate

open NimbleSM.Bc NimbleSM.Solver

variable {K S : Type*} [Field K] [LinearOrder K] [IsStrictOrderedRing K]

/-! ## Specification -/

/-- The displacement balances the forces at every free degree of freedom. -/
def Equilibrium (c : QConfig K) (force : Nodal K → Nodal K) (u : Nodal K) : Prop :=
  ∀ n < c.numNodes, ∀ i < c.dim, ¬ Held c.manager n i → force u n i = 0

/-- The convergence test sees every unknown: it is zero only for the zero residual. -/
def SeesAll (c : QConfig K) : Prop := ∀ r : ℕ → K, residualNorm c r = 0 → ∀ a < c.unknowns, r a = 0

/-! ## Equilibrium is unique -/

/-- **C146 (a)**.  Of a linear problem that is positive definite at the free degrees of freedom there is at most
one equilibrium with given displacements at the held ones. -/
theorem equilibrium_unique (c : QConfig K) (hc : Consistent c) (p : QPhysics K S) {A : Crs K}
    {force : Nodal K → Nodal K} (hl : LinearProblem c p A force) (hP : FreeSPD c A) (u u' : Nodal K)
    (h : Equilibrium c force u) (h' : Equilibrium c force u')
    (hheld : ∀ n i, Held c.manager n i → u n i = u' n i) :
    ∀ n < c.numNodes, ∀ i < c.dim, u n i = u' n i := by
  set σ : ℕ → K := fun a => u (c.ids.idxOf (a / c.dim)) (a % c.dim) - u' (c.ids.idxOf (a / c.dim)) (a % c.dim)
    with hσ
  have hplace : ∀ n < c.numNodes, ∀ i < c.dim, σ (place c n i) = u n i - u' n i := by
    intro n hn i hi
    have hn' : n < c.ids.length := hn
    have e1 : place c n i / c.dim = c.ids[n] := by
      unfold place
      rw [getD_lt _ hn', Nat.add_comm, Nat.add_mul_div_right _ _ (by omega), Nat.div_eq_of_lt hi, Nat.zero_add]
    have e2 : place c n i % c.dim = i := by
      unfold place
      rw [Nat.add_comm, Nat.add_mul_mod_self_right, Nat.mod_eq_of_lt hi]
    rw [hσ]
    simp only
    rw [e1, e2, hc.ids.1.idxOf_getElem n hn']
  have haff := hl.affine u u' σ (fun n hn i hi => by rw [hplace n hn i hi]; ring)
  have hσheld : ∀ n < c.numNodes, ∀ i < c.dim, Held c.manager n i → σ (place c n i) = 0 := by
    intro n hn i hi hh
    rw [hplace n hn i hi, hheld n i hh, sub_self]
  have hzero : ∑ a ∈ Finset.range c.unknowns, σ a * ∑ b ∈ Finset.range c.unknowns, entry A a b * σ b = 0 := by
    apply Finset.sum_eq_zero
    intro a ha
    obtain ⟨n, hn, i, hi, rfl⟩ := place_surj c hc.ids (Finset.mem_range.mp ha)
    by_cases hh : Held c.manager n i
    · rw [hσheld n hn i hi hh, zero_mul]
    · have := haff n hn i hi
      rw [h n hn i hi hh, h' n hn i hi hh, zero_add] at this
      rw [← this, mul_zero]
  intro n hn i hi
  by_contra hne
  have hpos := hP.pos σ hσheld ⟨place c n i, index_lt c hc.ids hn hi, by
    rw [hplace n hn i hi]; exact sub_ne_zero.mpr hne⟩
  rw [hzero] at hpos
  exact lt_irrefl _ hpos

/-! ## Load steps -/

/-- The loop ends where it started or after an iteration. -/
theorem newtonLoop_last (c : QConfig K) (p : QPhysics K S) (step : ℕ) (tp tc : K) (out : Bool) (tol : K)
    (fuel it : ℕ) (x x' : Newton K S) (it' : ℕ) (hx : NewtonInv c p tp tc out x)
    (h : newtonLoop c p step tp tc out tol fuel it x = .ok (x', it')) :
    (x' = x ∧ (fuel = 0 ∨ x.residual ≤ tol)) ∨
      ∃ y j, NewtonInv c p tp tc out y ∧ newtonStep c p step j tp tc out y = .ok x' := by
  induction fuel generalizing it x with
  | zero =>
    simp only [newtonLoop, Except.ok.injEq, Prod.mk.injEq] at h
    exact Or.inl ⟨h.1.symm, Or.inl rfl⟩
  | succ fuel ih =>
    unfold newtonLoop at h
    split_ifs at h with hgt
    · split at h
      · simp at h
      · rename_i x1 h1
        rcases ih (it + 1) x1 (newtonStep_inv c p step it tp tc out x x1 h1) h with ⟨rfl, -⟩ | hr
        · exact Or.inr ⟨x, it, hx, h1⟩
        · exact Or.inr hr
    · simp only [Except.ok.injEq, Prod.mk.injEq] at h
      exact Or.inl ⟨h.1.symm, Or.inr (not_lt.mp hgt)⟩

/-- **C146 (b)**.  With an exact linear solver and a convergence test that sees every unknown, every accepted
load step of a linear problem ends in equilibrium. -/
theorem linear_step_equilibrium_partial (c : QConfig K) (p : QPhysics K S) {pairs : List (ℕ × ℕ)} {A : Crs K}
    {force : Nodal K → Nodal K} {lo hi : K} (hr : LinearRun c p pairs A force lo hi) (hcg : c.cgTol = 0)
    (hrel : c.relTol < 1) (hsees : SeesAll c) (k : ℕ) (s s' : QSim K S) (h : loadStep c p k s = .ok s') :
    Equilibrium c force s'.displacement := by
  unfold loadStep at h
  simp only at h
  split at h
  · simp at h
  · rename_i r0 ρ0 st0 h0
    split at h
    · simp at h
    · rename_i x it hx
      split at h
      · simp at h
      · simp only [Except.ok.injEq] at h
        subst h
        simp only
        rcases newtonLoop_last c p k _ _ _ _ _ _ _ _ _ ⟨s.state, st0, h0⟩ hx with ⟨rfl, hor⟩ | ⟨y, j, hy, hstep⟩
        · have hle : ρ0 ≤ c.relTol * ρ0 := by
            rcases hor with hf | hle
            · have := hr.maxIter; omega
            · exact hle
          set u := (kinematic c.toConfig (s.time + c.dt) s.time s.displacement s.velocity).1 with hu
          obtain ⟨s1, h1⟩ := hr.linear.internal s.state s.time (s.time + c.dt) (c.isOutputStep k) u
          obtain ⟨r, hr0, hrv⟩ := residual_vector_spec c hr.consistent p s.state s.time (s.time + c.dt)
            (c.isOutputStep k) u (force u) s1 h1
          rw [h0] at hr0
          simp only [Option.some.injEq, Prod.mk.injEq] at hr0
          obtain ⟨rfl, rfl, -⟩ := hr0
          have hnn := residualNorm_nonneg c hr.sqrt r0
          have hz : residualNorm c r0 = 0 := by nlinarith
          intro n hn i hi hh
          have h2 := hrv n hn i hi
          rw [if_neg hh, hsees r0 hz _ (index_lt c hr.consistent.ids hn hi)] at h2
          exact neg_eq_zero.mp h2.symm
        · exact linear_exact_equilibrium c hr.consistent p hr.regular
            (by have := hr.cgMax; omega) hcg hr.linear (fun a ha => lt_of_lt_of_le hr.pos (hr.diag a ha).1)
            k j _ _ _ y x hy hstep

/-- Some condition governs every held degree of freedom. -/
theorem held_governed (m : Manager K) {n i : ℕ} (h : Held m n i) : ∃ bc ∈ m.bcs, Governs m bc n i := by
  classical
  have key : ∀ l : List (BoundaryCondition K), (∃ bc ∈ l, Acts m bc n i) →
      ∃ pre bc post, l = pre ++ bc :: post ∧ Acts m bc n i ∧ ∀ b ∈ post, ¬ Acts m b n i := by
    intro l
    induction l with
    | nil => rintro ⟨bc, hb, -⟩; exact absurd hb List.not_mem_nil
    | cons b l ih =>
      rintro ⟨bc, hb, ha⟩
      by_cases hl : ∃ bc ∈ l, Acts m bc n i
      · obtain ⟨pre, bc', post, rfl, h2, h3⟩ := ih hl
        exact ⟨b :: pre, bc', post, rfl, h2, h3⟩
      · push Not at hl
        rcases List.mem_cons.mp hb with rfl | hb
        · exact ⟨[], bc, l, rfl, ha, hl⟩
        · exact absurd ha (hl bc hb)
  obtain ⟨pre, bc, post, h1, h2, h3⟩ := key m.bcs h
  exact ⟨bc, by rw [h1]; simp, pre, post, h1, h2, h3⟩

/-- The same problem: all inputs equal but starting time, number of steps, output, tolerances, limits. -/
structure SameProblem (c d : QConfig K) : Prop where
  manager : c.manager = d.manager
  X : c.X = d.X
  ids : c.ids = d.ids

/-- **C146 (c)**.  Two load steps of the same linear problem that end at the same time end with the same
displacement, whatever the states, step sizes and step numbers before (exact linear solver, a convergence
test that sees every unknown, no prescribed velocities). -/
theorem linear_step_path_independent_partial (c d : QConfig K) (hcd : SameProblem c d) (p p' : QPhysics K S)
    {pairs pairs' : List (ℕ × ℕ)} {A : Crs K} {force : Nodal K → Nodal K} {lo hi lo' hi' : K}
    (hc : LinearRun c p pairs A force lo hi) (hd : LinearRun d p' pairs' A force lo' hi')
    (hcg : c.cgTol = 0 ∧ d.cgTol = 0) (hrel : c.relTol < 1 ∧ d.relTol < 1) (hsees : SeesAll c ∧ SeesAll d)
    (hm : c.manager.scheme = .quasistatic) (hbc : ∀ bc ∈ c.manager.bcs, bc.type ≠ .prescribedVelocity)
    (hdt : 0 < c.dt ∧ 0 < d.dt) (k j : ℕ) (s s' t t' : QSim K S)
    (hs : loadStep c p k s = .ok s') (ht : loadStep d p' j t = .ok t') (htime : s'.time = t'.time) :
    ∀ n < c.numNodes, ∀ i < c.dim, s'.displacement n i = t'.displacement n i := by
  have e1 := linear_step_equilibrium_partial c p hc hcg.1 hrel.1 hsees.1 k s s' hs
  have e2 := linear_step_equilibrium_partial d p' hd hcg.2 hrel.2 hsees.2 j t t' ht
  obtain ⟨ts, -, hds⟩ := loadStep_spec c p k s s' hs
  obtain ⟨tt, -, hdt'⟩ := loadStep_spec d p' j t t' ht
  apply equilibrium_unique c hc.consistent p hc.linear hc.spd _ _ e1
  · intro n hn i hi hh
    apply e2 n
    · unfold QConfig.numNodes at hn ⊢; rw [← hcd.ids]; exact hn
    · unfold QConfig.dim at hi ⊢; rw [← hcd.manager]; exact hi
    · rw [← hcd.manager]; exact hh
  · intro n i hh
    have hh' : Held d.manager n i := by rw [← hcd.manager]; exact hh
    rw [hds pairs hc.consistent hc.regular n i hh, hdt' pairs' hd.consistent hd.regular n i hh']
    obtain ⟨bc, hmem, hg⟩ := held_governed c.manager hh
    have hty : bc.type = .prescribedDisplacement := by
      obtain ⟨pre, post, -, ha, -⟩ := hg
      have := ha.1
      have h2 := hbc bc hmem
      simp only [BoundaryCondition.isKinematic] at this
      simpa [h2] using this
    have g1 := governs_displacement_quasistatic c.manager hm (s.time + c.dt) s.time c.X
      { displacement := s.displacement, velocity := s.velocity, offnom := [] } bc n i hg hty
      (by rw [add_sub_cancel_left]; exact hdt.1)
    have g2 := governs_displacement_quasistatic d.manager (by rw [← hcd.manager]; exact hm) (t.time + d.dt) t.time
      d.X { displacement := t.displacement, velocity := t.velocity, offnom := [] } bc n i
      (by rw [← hcd.manager]; exact hg) hty (by rw [add_sub_cancel_left]; exact hdt.2)
    unfold kinematic
    simp only
    rw [g1, g2, ← ts, ← tt, htime, hcd.manager, hcd.X]

/-- **C146 (d)**.  Two runs of the same linear problem to the same final time, with any numbers of load steps,
end with the same displacement. -/
theorem linear_run_path_independent_partial (c d : QConfig K) (hcd : SameProblem c d) (p p' : QPhysics K S)
    {pairs pairs' : List (ℕ × ℕ)} {A : Crs K} {force : Nodal K → Nodal K} {lo hi lo' hi' : K}
    (hc : LinearRun c p pairs A force lo hi) (hd : LinearRun d p' pairs' A force lo' hi')
    (hcg : c.cgTol = 0 ∧ d.cgTol = 0) (hrel : c.relTol < 1 ∧ d.relTol < 1) (hsees : SeesAll c ∧ SeesAll d)
    (hm : c.manager.scheme = .quasistatic) (hbc : ∀ bc ∈ c.manager.bcs, bc.type ≠ .prescribedVelocity)
    (hn : c.numSteps ≠ 0 ∧ d.numSteps ≠ 0) (hlt : c.initialTime < c.finalTime ∧ d.initialTime < d.finalTime)
    (hfin : c.finalTime = d.finalTime) (s0 t0 : S) (s t : QSim K S)
    (hs : qIntegrate c p s0 = .finished s) (ht : qIntegrate d p' t0 = .finished t) :
    ∀ n < c.numNodes, ∀ i < c.dim, s.displacement n i = t.displacement n i := by
  have hlast : ∀ (c : QConfig K) (p : QPhysics K S) (s0 : S) (s : QSim K S), c.numSteps ≠ 0 →
      qIntegrate c p s0 = .finished s → ∃ k s1, loadStep c p k s1 = .ok s := by
    intro c p s0 s hn h
    unfold qIntegrate at h
    split_ifs at h with h1 h2
    cases hl : qLoop c p c.numSteps (qStart c s0) with
    | error e => rw [hl] at h; simp at h
    | ok s1 =>
      rw [hl] at h
      simp only [QResult.finished.injEq] at h
      subst h
      obtain ⟨m, hm⟩ := Nat.exists_eq_succ_of_ne_zero hn
      rw [hm] at hl
      obtain ⟨s2, -, h4⟩ := qLoop_succ c p m _ _ hl
      exact ⟨m, s2, h4⟩
  have hpos : ∀ c : QConfig K, c.numSteps ≠ 0 → c.initialTime < c.finalTime → 0 < c.dt := by
    intro c hn h
    unfold Config.dt
    exact div_pos (sub_pos.mpr h) (Nat.cast_pos.mpr (Nat.pos_of_ne_zero hn))
  obtain ⟨k, s1, h1⟩ := hlast c p s0 s hn.1 hs
  obtain ⟨j, t1, h2⟩ := hlast d p' t0 t hn.2 ht
  exact linear_step_path_independent_partial c d hcd p p' hc hd hcg hrel hsees hm hbc
    ⟨hpos c hn.1 hlt.1, hpos d hn.2 hlt.2⟩ k j s1 s t1 t h1 h2
    (by rw [(quasistatic_times c p s0 s hs).2.2.1 hn.1, (quasistatic_times d p' t0 t ht).2.2.1 hn.2, hfin])

/-- In one dimension the convergence test sees every unknown. -/
theorem seesAll_of_dim_one (c : QConfig K) (hids : c.ids.Nodup) (hdim : c.dim = 1)
    (hsqrt : ∀ x, 0 ≤ x → 0 ≤ c.sqrt x ∧ c.sqrt x * c.sqrt x = x) : SeesAll c := by
  intro r h a ha
  have hU : c.unknowns = c.numNodes := by unfold QConfig.unknowns; rw [lsNodes_eq c hids, hdim, Nat.mul_one]
  have := residualNorm_bounds c hsqrt r a (by rw [← hU]; exact ha)
  rw [h] at this
  have h2 := abs_nonneg (r a)
  exact abs_eq_zero.mp (by linarith)

/-! ## Concrete cases -/

/-- Non-vacuity: the spring with an exact linear solver, in 1 and in 5 load steps. -/
noncomputable def springSteps (n : ℕ) : QConfig ℝ := { springR with numSteps := n, cgTol := 0 }

theorem springSteps_run (n : ℕ) :
    LinearRun (springSteps n) springPhysics [(0, 0), (0, 1), (1, 0), (1, 1)] springMatrix springForce 1 1 where
  consistent := ⟨springR_consistent.ids, springR_consistent.posed, springR_consistent.coord⟩
  sqrt := springR_run.sqrt
  dim := springR_run.dim
  regular := ⟨springR_regular.tangent, springR_regular.scratch⟩
  linear := ⟨springR_linear.tangent, springR_linear.internal, springR_linear.affine⟩
  spd := ⟨springR_spd.symm, springR_spd.pos⟩
  pos := one_pos
  diag := springR_run.diag
  cgTol := by constructor <;> norm_num [springSteps]
  cgMax := springR_run.cgMax
  relTol := springR_run.relTol
  maxIter := springR_run.maxIter

theorem springSteps_sees (n : ℕ) : SeesAll (springSteps n) :=
  seesAll_of_dim_one _ springR_consistent.ids.1 rfl springR_run.sqrt

theorem springSteps_finishes (n : ℕ) : ∃ q, qIntegrate (springSteps n) springPhysics 0 = .finished q := by
  apply linear_run (springSteps n) springPhysics (springSteps_run n) (by simp [springSteps, springR])
    (by norm_num [springSteps, springR])
  intro r
  have e1 : (springSteps n).cgTol = 0 := rfl
  rw [e1]
  have := mul_self_nonneg ((springSteps n).relTol * residualNorm (springSteps n) r)
  linarith

example : ∃ s t, qIntegrate (springSteps 1) springPhysics 0 = .finished s ∧
    qIntegrate (springSteps 5) springPhysics 0 = .finished t ∧ s.displacement 1 0 = t.displacement 1 0 := by
  obtain ⟨s, hs⟩ := springSteps_finishes 1
  obtain ⟨t, ht⟩ := springSteps_finishes 5
  refine ⟨s, t, hs, ht, ?_⟩
  exact linear_run_path_independent_partial (springSteps 1) (springSteps 5) ⟨rfl, rfl, rfl⟩ springPhysics
    springPhysics (springSteps_run 1) (springSteps_run 5) ⟨rfl, rfl⟩
    ⟨by norm_num [springSteps, springR], by norm_num [springSteps, springR]⟩
    ⟨springSteps_sees 1, springSteps_sees 5⟩ rfl
    (by intro bc hbc; rw [List.mem_singleton.mp hbc]; decide)
    ⟨by simp [springSteps], by simp [springSteps]⟩
    ⟨by norm_num [springSteps, springR], by norm_num [springSteps, springR]⟩ rfl 0 0 s t hs ht 1
    (by decide) 0 (by decide)

/-! ## C146 is false in three dimensions -/

/-- Two nodes in three dimensions joined by springs in all directions; node 0 is held, its displacement at
time `t` is `(t (2 - t), 0, t)`. -/
def pathConfig (n : ℕ) : QConfig ℚ where
  manager :=
    { sets := fun i => if i = 7 then some [0] else none
      bcs := [⟨.prescribedDisplacement, 7, 0, .inr fun _ _ _ t => t * (2 - t)⟩,
        ⟨.prescribedDisplacement, 7, 1, .inl 0⟩, ⟨.prescribedDisplacement, 7, 2, .inr fun _ _ _ t => t⟩]
      dim := 3, scheme := .quasistatic }
  X := fun n _ => n
  mass := fun _ => 1
  initialTime := 0
  finalTime := 2
  numSteps := n
  frequency := 0
  numRanks := 1
  ids := [1, 0]
  relTol := 1 / 1000
  maxIter := 10
  cgTol := 1 / 10000000000000000
  cgMax := 1000
  sqrt := ratSqrt

/-- The stiffness of the springs: `[[I, -I], [-I, I]]`. -/
def pathMatrix : Crs ℚ :=
  { allocated (Crs.empty : Crs ℚ)
      [(0, 0), (0, 3), (1, 1), (1, 4), (2, 2), (2, 5), (3, 0), (3, 3), (4, 1), (4, 4), (5, 2), (5, 5)] with
    data := [1, -1, 1, -1, 1, -1, -1, 1, -1, 1, -1, 1] }

def pathPhysics : QPhysics ℚ Unit where
  internal := fun _ _ _ _ u => some (fun n i => if n = 0 then u 1 i - u 0 i else u 0 i - u 1 i, ())
  tangent := fun _ _ => some pathMatrix
  updateStates := id
  scratch := fun _ _ => CgScratch.fresh

/-- The final displacement of node 1. -/
def finalOf : QResult ℚ Unit → Option (List ℚ)
  | .finished s => some ((List.range 3).map fun i => s.displacement 1 i)
  | _ => none

/-- **C146 is false of the code**: with two load steps node 1 follows node 0 to `(0, 0, 2)`; with one load step
status 0 is returned and node 1 has not moved. -/
theorem load_path_independence_refuted :
    finalOf (qIntegrate (pathConfig 2) pathPhysics ()) = some [0, 0, 2] ∧
    finalOf (qIntegrate (pathConfig 1) pathPhysics ()) = some [0, 0, 0] := by
  decide +kernel

end NimbleSM.Integrate
