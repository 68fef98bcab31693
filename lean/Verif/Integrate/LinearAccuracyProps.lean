import Mathlib.Algebra.Order.Chebyshev
import Verif.Integrate.LinearEnergyProps

/-!
# C153: accuracy of quasistatic solutions

How far accepted load steps of a linear problem (src/integrators/quasistatic_time_integrator.cc:233-416) are from the
exact solution and from each other, whatever the tolerance and the limit of the linear solver.
-/

namespace NimbleSM.Integrate

open NimbleSM.Bc NimbleSM.Solver

variable {K S : Type*} [Field K] [LinearOrder K] [IsStrictOrderedRing K]

/-! ## Specification -/

/-- The forces at the free degrees of freedom are at most `ε`. -/
def NearEquilibrium (c : QConfig K) (force : Nodal K → Nodal K) (ε : K) (u : Nodal K) : Prop :=
  ∀ n < c.numNodes, ∀ i < c.dim, ¬ Held c.manager n i → |force u n i| ≤ ε

/-- The stiffness at the free degrees of freedom is at least `m`. -/
def Stiff (c : QConfig K) (A : Crs K) (m : K) : Prop :=
  ∀ v : ℕ → K, (∀ n < c.numNodes, ∀ i < c.dim, Held c.manager n i → v (place c n i) = 0) →
    m * ∑ a ∈ Finset.range c.unknowns, v a ^ 2
      ≤ ∑ a ∈ Finset.range c.unknowns, v a * ∑ b ∈ Finset.range c.unknowns, entry A a b * v b

/-- No unknown is larger than `C` times the number of the convergence test. -/
def SeesAllBy (c : QConfig K) (C : K) : Prop := ∀ r : ℕ → K, ∀ a < c.unknowns, |r a| ≤ C * residualNorm c r

/-- The residual at the start of the load step, after the conditions have been applied (printed for iteration 0). -/
def StartResidual (c : QConfig K) (p : QPhysics K S) (k : ℕ) (s : QSim K S) (ρ : K) : Prop :=
  ∃ r st, computeResidual c p s.state s.time (s.time + c.dt) (c.isOutputStep k)
    (kinematic c.toConfig (s.time + c.dt) s.time s.displacement s.velocity).1 = some (r, ρ, st)

/-- The squared distance of two displacements. -/
def distSq (c : QConfig K) (u w : Nodal K) : K :=
  ∑ n ∈ Finset.range c.numNodes, ∑ i ∈ Finset.range c.dim, (u n i - w n i) ^ 2

/-! ## Near equilibria are near each other -/

/-- **C153 (a)**.  Displacements with forces at most `ε` and `ε'` that agree at the held degrees of freedom: the
squared distance is at most `unknowns · ((ε + ε') / m)²`. -/
theorem near_equilibria_close (c : QConfig K) (hc : Consistent c) (p : QPhysics K S) {A : Crs K}
    {force : Nodal K → Nodal K} (hl : LinearProblem c p A force) {m : K} (hm : Stiff c A m) (hm0 : 0 < m) {ε ε' : K}
    {u w : Nodal K} (hu : NearEquilibrium c force ε u) (hw : NearEquilibrium c force ε' w)
    (hheld : ∀ n i, Held c.manager n i → u n i = w n i) :
    m ^ 2 * distSq c u w ≤ c.unknowns * (ε + ε') ^ 2 := by
  set δ : ℕ → K := fun a => asVector c u a - asVector c w a with hδ
  have hplace : ∀ n < c.numNodes, ∀ i < c.dim, δ (place c n i) = u n i - w n i := by
    intro n hn i hi
    rw [hδ]
    simp only
    rw [asVector_place c hc.ids u hn hi, asVector_place c hc.ids w hn hi]
  have hforce : ∀ n < c.numNodes, ∀ i < c.dim, ∑ b ∈ Finset.range c.unknowns, entry A (place c n i) b * δ b
      = force w n i - force u n i := by
    intro n hn i hi
    have := hl.affine u w δ (fun n hn i hi => by rw [hplace n hn i hi]; ring) n hn i hi
    rw [this]; ring
  have hzero : ∀ n < c.numNodes, ∀ i < c.dim, Held c.manager n i → δ (place c n i) = 0 := by
    intro n hn i hi hh
    rw [hplace n hn i hi, hheld n i hh, sub_self]
  have hS : distSq c u w = ∑ a ∈ Finset.range c.unknowns, δ a ^ 2 := by
    rw [← sum_place c hc.ids]
    refine Finset.sum_congr rfl fun n hn => Finset.sum_congr rfl fun i hi => ?_
    rw [hplace n (Finset.mem_range.mp hn) i (Finset.mem_range.mp hi)]
  have hQ : ∑ a ∈ Finset.range c.unknowns, δ a * ∑ b ∈ Finset.range c.unknowns, entry A a b * δ b
      ≤ (ε + ε') * ∑ a ∈ Finset.range c.unknowns, |δ a| := by
    rw [Finset.mul_sum]
    apply Finset.sum_le_sum
    intro a ha
    obtain ⟨n, hn, i, hi, rfl⟩ := place_surj c hc.ids (Finset.mem_range.mp ha)
    by_cases hh : Held c.manager n i
    · rw [hzero n hn i hi hh]; simp
    · rw [hforce n hn i hi]
      have h1 := hu n hn i hi hh
      have h2 := hw n hn i hi hh
      have h3 : |force w n i - force u n i| ≤ ε + ε' := by
        have := abs_sub (force w n i) (force u n i)
        linarith
      calc δ (place c n i) * (force w n i - force u n i)
          ≤ |δ (place c n i) * (force w n i - force u n i)| := le_abs_self _
        _ = |force w n i - force u n i| * |δ (place c n i)| := by rw [abs_mul, mul_comm]
        _ ≤ (ε + ε') * |δ (place c n i)| := mul_le_mul_of_nonneg_right h3 (abs_nonneg _)
  have hlow := hm δ hzero
  set s := ∑ a ∈ Finset.range c.unknowns, δ a ^ 2 with hs
  set L := ∑ a ∈ Finset.range c.unknowns, |δ a| with hL
  have hcs : L ^ 2 ≤ c.unknowns * s := by
    have := sq_sum_le_card_mul_sum_sq (s := Finset.range c.unknowns) (f := fun a => |δ a|)
    simpa [sq_abs] using this
  have hs0 : 0 ≤ s := Finset.sum_nonneg fun a _ => sq_nonneg _
  have hbound : m * s ≤ (ε + ε') * L := le_trans hlow hQ
  rw [hS]
  rcases hs0.eq_or_lt with h0 | hpos
  · rw [← h0, mul_zero]
    exact mul_nonneg (Nat.cast_nonneg _) (sq_nonneg _)
  · have h1 : (m * s) ^ 2 ≤ ((ε + ε') * L) ^ 2 := pow_le_pow_left₀ (mul_nonneg hm0.le hs0) hbound 2
    have h2 : ((ε + ε') * L) ^ 2 ≤ (ε + ε') ^ 2 * (c.unknowns * s) := by
      rw [mul_pow]
      exact mul_le_mul_of_nonneg_left hcs (sq_nonneg _)
    have h3 : s * (m ^ 2 * s) ≤ s * (c.unknowns * (ε + ε') ^ 2) := by
      calc s * (m ^ 2 * s) = (m * s) ^ 2 := by ring
        _ ≤ (ε + ε') ^ 2 * (c.unknowns * s) := h1.trans h2
        _ = _ := by ring
    exact le_of_mul_le_mul_left h3 hpos

/-! ## Accepted load steps -/

/-- **C153 (b)**.  The forces at the free degrees of freedom of an accepted load step are at most `C` times the
relative tolerance times the residual at the start of the step. -/
theorem accepted_near_equilibrium_partial (c : QConfig K) (hc : Consistent c) (p : QPhysics K S) {A : Crs K}
    {force : Nodal K → Nodal K} (hl : LinearProblem c p A force) {C : K} (hC : SeesAllBy c C) (hC0 : 0 ≤ C)
    (hmax : 0 ≤ c.maxIter)     (k : ℕ) (s s' : QSim K S) (h : loadStep c p k s = .ok s') :
    ∃ ρ, StartResidual c p k s ρ ∧ NearEquilibrium c force (C * (c.relTol * ρ)) s'.displacement := by
  unfold loadStep at h
  simp only at h
  split at h
  · simp at h
  · rename_i r0 ρ0 st0 h0
    split at h
    · simp at h
    · rename_i x it hx
      split at h
      · simp at h
      · rename_i hit
        simp only [Except.ok.injEq] at h
        subst h
        refine ⟨ρ0, ⟨r0, st0, h0⟩, ?_⟩
        obtain ⟨⟨s1, s2, hcomp⟩, hle, hor⟩ := newtonLoop_spec c p k _ _ _ _ _ 0 _ x it ⟨s.state, st0, h0⟩ hx
        have htol : x.residual ≤ c.relTol * ρ0 := by
          rcases hor with he | hle'
          · exfalso
            rw [Nat.zero_add] at he
            exact hit (by rw [he]; exact Int.toNat_of_nonneg hmax)
          · exact hle'
        obtain ⟨s3, hint⟩ := hl.internal s1 s.time (s.time + c.dt) (c.isOutputStep k) x.displacement
        obtain ⟨r, hr, hrv⟩ := residual_vector_spec c hc p s1 s.time (s.time + c.dt) (c.isOutputStep k)
          x.displacement (force x.displacement) s3 hint
        rw [hcomp] at hr
        simp only [Option.some.injEq, Prod.mk.injEq] at hr
        obtain ⟨e1, e2, -⟩ := hr
        intro n hn i hi hh
        have h1 := hrv n hn i hi
        rw [if_neg hh] at h1
        have h2 := hC r _ (index_lt c hc.ids hn hi)
        have h3 : |force x.displacement n i| = |r (place c n i)| := by
          have : r (place c n i) = -force x.displacement n i := h1
          rw [this, abs_neg]
        simp only
        rw [h3]
        refine h2.trans (mul_le_mul_of_nonneg_left ?_ hC0)
        rw [← e2]
        exact htol

/-- The displacement at the end of a load step at a held degree of freedom is the prescribed one. -/
theorem accepted_held (c : QConfig K) (p : QPhysics K S) {pairs : List (ℕ × ℕ)} (hc : Consistent c)
    (hreg : Regular c p pairs) (hm : c.manager.scheme = .quasistatic)
    (hbc : ∀ bc ∈ c.manager.bcs, bc.type ≠ .prescribedVelocity) (hdt : 0 < c.dt) (k : ℕ) (s s' : QSim K S)
    (h : loadStep c p k s = .ok s') (bc : BoundaryCondition K) (n i : ℕ) (hg : Governs c.manager bc n i) :
    s'.displacement n i = prescribed c.manager bc c.X n s'.time := by
  obtain ⟨ht, -, hd⟩ := loadStep_spec c p k s s' h
  obtain ⟨pre, post, hsplit, ha, hpost⟩ := hg
  have hmem : bc ∈ c.manager.bcs := by rw [hsplit]; simp
  have hty : bc.type = .prescribedDisplacement := by
    have hk := ha.1
    have hnv := hbc bc hmem
    simp only [BoundaryCondition.isKinematic] at hk
    simpa [hnv] using hk
  rw [hd pairs hc hreg n i ⟨bc, hmem, ha⟩, ht]
  unfold kinematic
  simp only
  exact governs_displacement_quasistatic c.manager hm (s.time + c.dt) s.time c.X _ bc n i ⟨pre, post, hsplit, ha, hpost⟩ hty
    (by rw [add_sub_cancel_left]; exact hdt)

/-- **C153 (c)**.  Accuracy: the squared distance of the displacement at the end of an accepted load step from the
exact solution of the step is at most `unknowns · (C · tolerance · starting residual / m)²`. -/
theorem accepted_accuracy_partial (c : QConfig K) (p : QPhysics K S) {pairs : List (ℕ × ℕ)} (hc : Consistent c)
    (hreg : Regular c p pairs) {A : Crs K} {force : Nodal K → Nodal K} (hl : LinearProblem c p A force) {m C : K}
    (hm : Stiff c A m) (hm0 : 0 < m) (hC : SeesAllBy c C) (hC0 : 0 ≤ C) (hmax : 0 ≤ c.maxIter)
    (hscheme : c.manager.scheme = .quasistatic) (hbc : ∀ bc ∈ c.manager.bcs, bc.type ≠ .prescribedVelocity)
    (hdt : 0 < c.dt) (k : ℕ) (s s' : QSim K S) (h : loadStep c p k s = .ok s') :
    ∃ ρ, StartResidual c p k s ρ ∧
      ∀ w, Equilibrium c force w →
        (∀ bc n i, Governs c.manager bc n i → w n i = prescribed c.manager bc c.X n s'.time) →
        m ^ 2 * distSq c s'.displacement w ≤ c.unknowns * (C * (c.relTol * ρ)) ^ 2 := by
  obtain ⟨ρ, hρ, hnear⟩ := accepted_near_equilibrium_partial c hc p hl hC hC0 hmax k s s' h
  refine ⟨ρ, hρ, fun w hw hheld => ?_⟩
  have hw' : NearEquilibrium c force 0 w := fun n hn i hi hh => by rw [hw n hn i hi hh, abs_zero]
  have := near_equilibria_close c hc p hl hm hm0 hnear hw' (fun n i hh => by
    obtain ⟨bc, -, hg⟩ := held_governed c.manager hh
    rw [accepted_held c p hc hreg hscheme hbc hdt k s s' h bc n i hg, hheld bc n i hg])
  rw [add_zero] at this
  exact this

/-- **C153 (d)**.  Superposition up to the tolerances: the three problems of C151, with any linear tolerances. -/
theorem accepted_superposition_partial {α β : K} {c₁ c₂ c₃ : QConfig K} (h : SuperposedQ α β c₁ c₂ c₃)
    {p₁ p₂ p₃ : QPhysics K S} {l₁ l₂ l₃ : List (ℕ × ℕ)} {A : Crs K} {force : Nodal K → Nodal K}
    (h₁ : Consistent c₁ ∧ Regular c₁ p₁ l₁ ∧ LinearProblem c₁ p₁ A force)
    (h₂ : Consistent c₂ ∧ Regular c₂ p₂ l₂ ∧ LinearProblem c₂ p₂ A force)
    (h₃ : Consistent c₃ ∧ Regular c₃ p₃ l₃ ∧ LinearProblem c₃ p₃ A force)
    (hrest : ∀ n < c₃.numNodes, ∀ i < c₃.dim, force (fun _ _ => 0) n i = 0) {m C₁ C₂ C₃ : K} (hm : Stiff c₃ A m)
    (hm0 : 0 < m) (hC : SeesAllBy c₁ C₁ ∧ SeesAllBy c₂ C₂ ∧ SeesAllBy c₃ C₃) (hC0 : 0 ≤ C₁ ∧ 0 ≤ C₂ ∧ 0 ≤ C₃)
    (hmax : 0 ≤ c₁.maxIter ∧ 0 ≤ c₂.maxIter ∧ 0 ≤ c₃.maxIter) (hdt : 0 < c₁.dt ∧ 0 < c₂.dt ∧ 0 < c₃.dt)
    (k₁ k₂ k₃ : ℕ) (s₁ s₂ s₃ t₁ t₂ t₃ : QSim K S) (e₁ : loadStep c₁ p₁ k₁ s₁ = .ok t₁)
    (e₂ : loadStep c₂ p₂ k₂ s₂ = .ok t₂) (e₃ : loadStep c₃ p₃ k₃ s₃ = .ok t₃)
    (ht : t₁.time = t₃.time ∧ t₂.time = t₃.time) :
    ∃ ρ₁ ρ₂ ρ₃, StartResidual c₁ p₁ k₁ s₁ ρ₁ ∧ StartResidual c₂ p₂ k₂ s₂ ρ₂ ∧ StartResidual c₃ p₃ k₃ s₃ ρ₃ ∧
      m ^ 2 * distSq c₃ t₃.displacement (comb α β t₁.displacement t₂.displacement)
        ≤ c₃.unknowns * (C₃ * (c₃.relTol * ρ₃)
            + (|α| * (C₁ * (c₁.relTol * ρ₁)) + |β| * (C₂ * (c₂.relTol * ρ₂)))) ^ 2 := by
  obtain ⟨ρ₁, r₁, n₁⟩ := accepted_near_equilibrium_partial c₁ h₁.1 p₁ h₁.2.2 hC.1 hC0.1 hmax.1 k₁ s₁ t₁ e₁
  obtain ⟨ρ₂, r₂, n₂⟩ := accepted_near_equilibrium_partial c₂ h₂.1 p₂ h₂.2.2 hC.2.1 hC0.2.1 hmax.2.1 k₂ s₂ t₂ e₂
  obtain ⟨ρ₃, r₃, n₃⟩ := accepted_near_equilibrium_partial c₃ h₃.1 p₃ h₃.2.2 hC.2.2 hC0.2.2 hmax.2.2 k₃ s₃ t₃ e₃
  refine ⟨ρ₁, ρ₂, ρ₃, r₁, r₂, r₃, ?_⟩
  have N1 : c₁.numNodes = c₃.numNodes := by unfold QConfig.numNodes; rw [h.ids.1]
  have N2 : c₂.numNodes = c₃.numNodes := by unfold QConfig.numNodes; rw [h.ids.2]
  have D1 : c₁.dim = c₃.dim := h.dim.1
  have D2 : c₂.dim = c₃.dim := h.dim.2
  obtain ⟨l, eb1, eb2, eb3, hl⟩ := h.bcs
  have hno : ∀ b ∈ l, b.2.2.type ≠ .prescribedVelocity := fun b hb =>
    h.displacements _ (by rw [eb3]; exact List.mem_map_of_mem hb)
  have hno1 : ∀ bc ∈ c₁.manager.bcs, bc.type ≠ .prescribedVelocity := by
    intro bc hbc
    rw [eb1] at hbc
    obtain ⟨b, hb, rfl⟩ := List.mem_map.mp hbc
    rw [(hl b hb).type.1]
    exact hno b hb
  have hno2 : ∀ bc ∈ c₂.manager.bcs, bc.type ≠ .prescribedVelocity := by
    intro bc hbc
    rw [eb2] at hbc
    obtain ⟨b, hb, rfl⟩ := List.mem_map.mp hbc
    rw [(hl b hb).type.2]
    exact hno b hb
  apply near_equilibria_close c₃ h₃.1 p₃ h₃.2.2 hm hm0 n₃
  · intro n hn i hi hh
    rw [linear_force c₃ h₃.1 p₃ h₃.2.2 hrest α β _ _ n hn i hi]
    have a1 := n₁ n (by rw [N1]; exact hn) i (by rw [D1]; exact hi) (fun x => hh ((superposed_held h n i).1.mp x))
    have a2 := n₂ n (by rw [N2]; exact hn) i (by rw [D2]; exact hi) (fun x => hh ((superposed_held h n i).2.mp x))
    refine (abs_add_le _ _).trans (add_le_add ?_ ?_)
    · rw [abs_mul]; exact mul_le_mul_of_nonneg_left a1 (abs_nonneg _)
    · rw [abs_mul]; exact mul_le_mul_of_nonneg_left a2 (abs_nonneg _)
  · intro n i hh
    obtain ⟨b₁, b₂, b₃, hb, hmem, v₁, v₂, v₃, -, -⟩ := governed_triple h hh
    unfold comb
    rw [accepted_held c₁ p₁ h₁.1 h₁.2.1 h.scheme.1 hno1 hdt.1 k₁ s₁ t₁ e₁ b₁ n i v₁,
      accepted_held c₂ p₂ h₂.1 h₂.2.1 h.scheme.2.1 hno2 hdt.2.1 k₂ s₂ t₂ e₂ b₂ n i v₂,
      accepted_held c₃ p₃ h₃.1 h₃.2.1 h.scheme.2.2 h.displacements hdt.2.2 k₃ s₃ t₃ e₃ b₃ n i v₃, ht.1, ht.2, h.X.1,
      h.X.2]
    exact hb.value n t₃.time

/-- In one dimension the convergence test bounds every unknown. -/
theorem seesAllBy_of_dim_one (c : QConfig K) (hids : c.ids.Nodup) (hdim : c.dim = 1)
    (hsqrt : ∀ x, 0 ≤ x → 0 ≤ c.sqrt x ∧ c.sqrt x * c.sqrt x = x) : SeesAllBy c (1 / 21) := by
  intro r a ha
  have hU : c.unknowns = c.numNodes := by unfold QConfig.unknowns; rw [lsNodes_eq c hids, hdim, Nat.mul_one]
  have := residualNorm_bounds c hsqrt r a (by rw [← hU]; exact ha)
  linarith

/-! ## Concrete cases -/

theorem springR_stiff : Stiff springR springMatrix 1 := by
  intro v hv
  have h0 : v 0 = 0 := hv 0 (by decide) 0 (by decide) springR_held
  obtain ⟨e1, e2, e3, e4⟩ := springMatrix_entry
  rw [springR_unknowns]
  simp only [Finset.sum_range_succ, Finset.sum_range_zero, e1, e2, e3, e4, h0]
  nlinarith [sq_nonneg (v 1)]

/-- Non-vacuity: the spring with node 0 at `3 t` and a linear tolerance that is not zero: the run finishes, and node 1
is close to 6. -/
example : springR.cgTol ≠ 0 ∧ ∃ t, qIntegrate springR springPhysics 0 = .finished t ∧
    ∃ k s ρ, StartResidual springR springPhysics k s ρ ∧
      (t.displacement 1 0 - 6) ^ 2 ≤ 2 * (1 / 21 * (1 / 1000 * ρ)) ^ 2 := by
  refine ⟨by norm_num [springR], ?_⟩
  obtain ⟨t, ht⟩ := springR_finishes
  refine ⟨t, ht, ?_⟩
  have hr := springR_run
  obtain ⟨k, s, hstep⟩ := finished_last_step springR springPhysics 0 t (by decide) ht
  have htime : t.time = 2 := (quasistatic_times springR springPhysics 0 t ht).2.2.1 (by decide)
  obtain ⟨ρ, hρ, hall⟩ := accepted_accuracy_partial springR springPhysics (m := 1) (C := 1 / 21) hr.consistent hr.regular
    hr.linear springR_stiff one_pos (seesAllBy_of_dim_one springR springR_consistent.ids.1 rfl hr.sqrt) (by norm_num)
    (by norm_num [springR]) rfl (by intro bc hbc; rw [List.mem_singleton.mp hbc]; simp)
    (positive_dt springR (by decide) (by norm_num [springR])) k s t hstep
  refine ⟨k, s, ρ, hρ, ?_⟩
  have hsp := hall (fun _ _ => 6) (by intro n hn i hi hh; simp [springForce]) ?_
  · have hN : springR.numNodes = 2 := by decide
    have hD : springR.dim = 1 := rfl
    have hrel : springR.relTol = 1 / 1000 := rfl
    unfold distSq at hsp
    rw [hN, hD, springR_unknowns, hrel] at hsp
    simp only [Finset.sum_range_succ, Finset.sum_range_zero] at hsp
    have := sq_nonneg (t.displacement 0 0 - 6)
    push_cast at hsp
    linarith
  · intro bc n i hg
    obtain ⟨pre, post, hsplit, ha, -⟩ := hg
    have hmem : bc ∈ springR.manager.bcs := by rw [hsplit]; simp
    rw [List.mem_singleton.mp hmem, htime]
    simp only [prescribed]
    split_ifs <;> norm_num

/-- **C153 is false of the code** in three dimensions: the run of `least_energy_refuted` is accepted at rest, where
the convergence test gave 0 (at the start and at the end), a distance of 2 from the exact solution. -/
theorem accuracy_refuted :
    ∃ t, qIntegrate (pathPulled 0 1) pathPhysics () = .finished t ∧
      distSq (pathPulled 0 1) t.displacement (fun _ i => if i = 2 then 2 else 0) = 4 ∧
      Equilibrium (pathPulled 0 1) pathForce (fun _ i => if i = 2 then 2 else 0) ∧
      residualNorm (pathPulled 0 1) (fun a => if a = 2 then 2 else 0) = 0 := by
  obtain ⟨t, ht, ⟨a0, a1, a2⟩, b0, b1, b2⟩ := final_of_both (qIntegrate (pathPulled 0 1) pathPhysics ())
    (a0 := 0) (a1 := 0) (a2 := 2) (b0 := 0) (b1 := 0) (b2 := 0) (by decide +kernel)
  have hN : (pathPulled 0 1).numNodes = 2 := rfl
  have hD : (pathPulled 0 1).dim = 3 := rfl
  refine ⟨t, ht, ?_, ?_, by decide +kernel⟩
  · unfold distSq
    rw [hN, hD]
    simp only [Finset.sum_range_succ, Finset.sum_range_zero, a0, a1, a2, b0, b1, b2]
    norm_num
  · intro n hn i hi hh
    unfold pathForce
    simp

end NimbleSM.Integrate
