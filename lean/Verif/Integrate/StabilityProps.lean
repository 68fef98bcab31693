import Verif.Integrate.ReversibleProps
import Mathlib.Tactic.LinearCombination
import Mathlib.Algebra.Order.Archimedean.Basic

/-!
# C110: explicit runs below the stability limit stay bounded
-/

open scoped BigOperators

namespace NimbleSM.Integrate

open NimbleSM.Bc NimbleSM.Assembly

variable {K S : Type*} [Field K] [LinearOrder K] [IsStrictOrderedRing K]

/-! ## Specification -/

/-- The degrees of freedom of the nodes below `N`. -/
def dofs (N : ℕ) : Finset (ℕ × ℕ) := Finset.range N ×ˢ Finset.range 3

/-- `uᵀ M w` with the lumped masses. -/
def massForm (c : Config K) (N : ℕ) (u w : Nodal K) : K := ∑ a ∈ dofs N, c.mass a.1 * u a.1 a.2 * w a.1 a.2

/-- `wᵀ K u` with a stiffness matrix. -/
def stiffForm (N : ℕ) (stiff : ℕ × ℕ → ℕ × ℕ → K) (u w : Nodal K) : K :=
  ∑ a ∈ dofs N, ∑ b ∈ dofs N, w a.1 a.2 * stiff a b * u b.1 b.2

/-- Kinetic energy. -/
def kineticEnergy (c : Config K) (N : ℕ) (v : Nodal K) : K := 1 / 2 * massForm c N v v

/-- Elastic energy. -/
def elasticEnergy (N : ℕ) (stiff : ℕ × ℕ → ℕ × ℕ → K) (u : Nodal K) : K := 1 / 2 * stiffForm N stiff u u

/-- The forces are those of a linear elastic body with the symmetric stiffness matrix `stiff`: no external force
and no contact. -/
structure LinearBody (p : Physics K S) (N : ℕ) (stiff : ℕ × ℕ → ℕ × ℕ → K) : Prop where
  contact : p.contact = none
  external : ∀ s tp tc o n i, p.external s tp tc o n i = 0
  internal : ∀ s tp tc o u, ∃ F s', p.internal s tp tc o u = some (F, s') ∧
    ∀ a ∈ dofs N, F a.1 a.2 = - ∑ b ∈ dofs N, stiff a b * u b.1 b.2
  symm : ∀ a ∈ dofs N, ∀ b ∈ dofs N, stiff a b = stiff b a

/-! ## Bilinear forms -/

section Forms
variable (c : Config K) (N : ℕ) (stiff : ℕ × ℕ → ℕ × ℕ → K)

theorem massForm_comm (u w : Nodal K) : massForm c N u w = massForm c N w u := by
  unfold massForm; apply Finset.sum_congr rfl; intro a _; ring

theorem massForm_comb (u u' w : Nodal K) (x y : K) :
    massForm c N (fun n i => x * u n i + y * u' n i) w = x * massForm c N u w + y * massForm c N u' w := by
  unfold massForm
  rw [Finset.mul_sum, Finset.mul_sum, ← Finset.sum_add_distrib]
  apply Finset.sum_congr rfl; intro a _; ring

theorem massForm_comb_right (w u u' : Nodal K) (x y : K) :
    massForm c N w (fun n i => x * u n i + y * u' n i) = x * massForm c N w u + y * massForm c N w u' := by
  rw [massForm_comm, massForm_comb, massForm_comm, massForm_comm c N u']

theorem stiffForm_comb_right (w u u' : Nodal K) (x y : K) :
    stiffForm N stiff w (fun n i => x * u n i + y * u' n i) = x * stiffForm N stiff w u + y * stiffForm N stiff w u' := by
  unfold stiffForm
  rw [Finset.mul_sum, Finset.mul_sum, ← Finset.sum_add_distrib]
  apply Finset.sum_congr rfl; intro a _
  rw [Finset.mul_sum, Finset.mul_sum, ← Finset.sum_add_distrib]
  apply Finset.sum_congr rfl; intro b _; ring

theorem stiffForm_comm (hs : ∀ a ∈ dofs N, ∀ b ∈ dofs N, stiff a b = stiff b a) (u w : Nodal K) :
    stiffForm N stiff u w = stiffForm N stiff w u := by
  unfold stiffForm
  rw [Finset.sum_comm]
  apply Finset.sum_congr rfl; intro a ha
  apply Finset.sum_congr rfl; intro b hb
  rw [hs b hb a ha]; ring

theorem stiffForm_comb (hs : ∀ a ∈ dofs N, ∀ b ∈ dofs N, stiff a b = stiff b a) (u u' w : Nodal K) (x y : K) :
    stiffForm N stiff (fun n i => x * u n i + y * u' n i) w = x * stiffForm N stiff u w + y * stiffForm N stiff u' w := by
  rw [stiffForm_comm N stiff hs, stiffForm_comb_right, stiffForm_comm N stiff hs w u, stiffForm_comm N stiff hs w u']

theorem massForm_nonneg (hmass : ∀ n < N, 0 ≤ c.mass n) (u : Nodal K) : 0 ≤ massForm c N u u := by
  unfold massForm
  apply Finset.sum_nonneg
  intro a ha
  have := hmass a.1 (Finset.mem_range.mp (Finset.mem_product.mp ha).1)
  rw [mul_assoc]
  exact mul_nonneg this (mul_self_nonneg _)

end Forms

/-- `M a = - K u`. -/
def Accelerated (c : Config K) (N : ℕ) (stiff : ℕ × ℕ → ℕ × ℕ → K) (u a : Nodal K) : Prop :=
  ∀ w, massForm c N a w = - stiffForm N stiff u w

/-- The conserved quantity. -/
def discreteEnergy (c : Config K) (N : ℕ) (stiff : ℕ × ℕ → ℕ × ℕ → K) (u v a : Nodal K) : K :=
  kineticEnergy c N v + elasticEnergy N stiff u - c.dt ^ 2 / 8 * massForm c N a a

theorem accelerated_step (c : Config K) (hm : c.manager.scheme ≠ .quasistatic) (p : Physics K S) (N : ℕ)
    (stiff : ℕ × ℕ → ℕ × ℕ → K) (hL : LinearBody p N stiff) (hmass : ∀ n < N, c.mass n ≠ 0) (k : ℕ) (s s' : Sim K S)
    (h : step c p k s = some s') : Accelerated c N stiff s'.displacement s'.acceleration := by
  intro w
  obtain ⟨F, st, hF, -, ha⟩ := step_acceleration c hm p k s s' h hL.contact
  obtain ⟨F', st', hF', hval⟩ := hL.internal s.state s.time (s.time + c.dt) (c.isOutputStep k) s'.displacement
  rw [hF'] at hF
  obtain ⟨rfl, -⟩ := Prod.mk.inj (Option.some.inj hF)
  unfold massForm stiffForm
  rw [← Finset.sum_neg_distrib]
  apply Finset.sum_congr rfl
  intro a hain
  have hne := hmass a.1 (Finset.mem_range.mp (Finset.mem_product.mp hain).1)
  rw [ha, hL.external, add_zero, hval a hain, mul_div_cancel₀ _ hne, neg_mul, Finset.sum_mul]
  congr 1
  apply Finset.sum_congr rfl; intro b _; ring

theorem discreteEnergy_step (c : Config K) (N : ℕ) (stiff : ℕ × ℕ → ℕ × ℕ → K)
    (hs : ∀ a ∈ dofs N, ∀ b ∈ dofs N, stiff a b = stiff b a) (u v a u' v' a' : Nodal K)
    (hu : ∀ n i, u' n i = u n i + c.dt * v n i + c.dt ^ 2 / 2 * a n i)
    (hv : ∀ n i, v' n i = v n i + c.dt / 2 * (a n i + a' n i))
    (hA : Accelerated c N stiff u a) (hA' : Accelerated c N stiff u' a') :
    discreteEnergy c N stiff u' v' a' = discreteEnergy c N stiff u v a := by
  have eu : u' = fun n i => 1 * u n i + c.dt * (fun n i => 1 * v n i + (c.dt / 2) * a n i) n i := by
    funext n i; rw [hu]; ring
  have ev : v' = fun n i => 1 * v n i + (c.dt / 2) * (fun n i => 1 * a n i + 1 * a' n i) n i := by
    funext n i; rw [hv]; ring
  have h1 : massForm c N v' v' = massForm c N v v + c.dt * (massForm c N v a + massForm c N v a')
      + c.dt ^ 2 / 4 * (massForm c N a a + 2 * massForm c N a a' + massForm c N a' a') := by
    rw [ev]
    simp only [massForm_comb, massForm_comb_right]
    rw [massForm_comm c N a v, massForm_comm c N a' v, massForm_comm c N a' a]
    ring
  have h2 : stiffForm N stiff u' u' = stiffForm N stiff u u
      - c.dt * (massForm c N v a + massForm c N v a') - c.dt ^ 2 / 2 * (massForm c N a a + massForm c N a a') := by
    have e1 : stiffForm N stiff u' u' = stiffForm N stiff u' u
        + c.dt * (stiffForm N stiff u' v + (c.dt / 2) * stiffForm N stiff u' a) := by
      conv_lhs => rw [show stiffForm N stiff u' u' = stiffForm N stiff u'
        (fun n i => 1 * u n i + c.dt * (fun n i => 1 * v n i + (c.dt / 2) * a n i) n i) from by rw [← eu]]
      rw [stiffForm_comb_right, stiffForm_comb_right]; ring
    have e2 : stiffForm N stiff u' u = stiffForm N stiff u u
        + c.dt * (stiffForm N stiff u v + (c.dt / 2) * stiffForm N stiff u a) := by
      rw [stiffForm_comm N stiff hs, eu, stiffForm_comb_right, stiffForm_comb_right]; ring
    have g1 := hA v; have g2 := hA a; have g3 := hA' v; have g4 := hA' a
    rw [massForm_comm] at g1 g3
    rw [massForm_comm] at g4
    rw [e1, e2]
    linear_combination c.dt * (g1 + g3) + c.dt ^ 2 / 2 * (g2 + g4)
  unfold discreteEnergy kineticEnergy elasticEnergy
  rw [h1, h2]
  ring

theorem start_free (c : Config K) (s0 : S) (hfree : Unconstrained c) (n i : ℕ) :
    (start c s0).displacement n i = 0 ∧ (start c s0).acceleration n i = 0 := by
  refine ⟨?_, rfl⟩
  exact (free_dof_untouched c.manager 0 0 c.X _ n i (hfree n i)).1

/-- **C110, exact balance.**  An unconstrained linear elastic body: for every time step, every number of steps and all
initial velocities, kinetic plus elastic energy minus `Δt²/8 aᵀMa` is the initial kinetic energy. -/
theorem explicit_energy_balance (c : Config K) (hm : c.manager.scheme ≠ .quasistatic) (p : Physics K S) (s0 : S) (N : ℕ)
    (stiff : ℕ × ℕ → ℕ × ℕ → K) (hL : LinearBody p N stiff) (hmass : ∀ n < N, c.mass n ≠ 0) (hfree : Unconstrained c)
    (k : ℕ) (s : Sim K S) (h : loop c p k (start c s0) = some s) :
    kineticEnergy c N s.velocity + elasticEnergy N stiff s.displacement - c.dt ^ 2 / 8 * massForm c N s.acceleration s.acceleration
      = kineticEnergy c N (start c s0).velocity ∧
    ∀ w, massForm c N s.acceleration w = - stiffForm N stiff s.displacement w := by
  induction k generalizing s with
  | zero =>
    rw [loop_zero] at h; cases h
    have hu : (start c s0).displacement = fun _ _ => 0 := by funext n i; exact (start_free c s0 hfree n i).1
    have ha : (start c s0).acceleration = fun _ _ => 0 := by funext n i; exact (start_free c s0 hfree n i).2
    rw [hu, ha]
    refine ⟨?_, fun w => ?_⟩
    · simp [elasticEnergy, stiffForm, massForm, kineticEnergy]
    · simp [stiffForm, massForm]
  | succ k ih =>
    rw [loop_succ, Option.bind_eq_some_iff] at h
    obtain ⟨s1, h1, h2⟩ := h
    obtain ⟨ihE, ihA⟩ := ih s1 h1
    have hA' := accelerated_step c hm p N stiff hL hmass k s1 s h2
    refine ⟨?_, hA'⟩
    rw [← ihE]
    exact discreteEnergy_step c N stiff hL.symm s1.displacement s1.velocity s1.acceleration s.displacement s.velocity
      s.acceleration (fun n i => (free_dof_step c hm p k s1 s h2 n i (hfree n i)).1)
      (fun n i => (free_dof_step c hm p k s1 s h2 n i (hfree n i)).2) ihA hA'

/-- **C110.**  Below the stability limit - `Δt² wᵀKw ≤ 4 θ wᵀMw` for all `w`, that is `Δt ≤ √θ · 2/ω` for the largest
frequency `ω` - the kinetic energy plus `1 - θ` times the elastic energy never exceeds the initial kinetic energy,
after any number of steps. -/
theorem explicit_stable (c : Config K) (hm : c.manager.scheme ≠ .quasistatic) (p : Physics K S) (s0 : S) (N : ℕ)
    (stiff : ℕ × ℕ → ℕ × ℕ → K) (hL : LinearBody p N stiff) (hmass : ∀ n < N, 0 < c.mass n) (hfree : Unconstrained c)
    (θ : K) (hθ : 0 < θ) (hpsd : ∀ w, 0 ≤ stiffForm N stiff w w)
    (hdt : ∀ w, c.dt ^ 2 * stiffForm N stiff w w ≤ 4 * θ * massForm c N w w)
    (k : ℕ) (s : Sim K S) (h : loop c p k (start c s0) = some s) :
    kineticEnergy c N s.velocity + (1 - θ) * elasticEnergy N stiff s.displacement ≤
      kineticEnergy c N (start c s0).velocity := by
  obtain ⟨hE, hA⟩ := explicit_energy_balance c hm p s0 N stiff hL (fun n hn => (hmass n hn).ne') hfree k s h
  rw [← hE]
  have key : c.dt ^ 2 / 4 * massForm c N s.acceleration s.acceleration ≤
      θ * stiffForm N stiff s.displacement s.displacement := by
    set u := s.displacement
    set a := s.acceleration
    have h1 := hpsd (fun n i => (4 * θ) * u n i + (c.dt ^ 2) * a n i)
    rw [stiffForm_comb_right, stiffForm_comb N stiff hL.symm, stiffForm_comb N stiff hL.symm,
      stiffForm_comm N stiff hL.symm a u] at h1
    have h2 := hA a
    have h3 := hdt a
    have h4 : stiffForm N stiff u a = - massForm c N a a := by rw [h2]; ring
    rw [h4] at h1
    have h5 : c.dt ^ 2 * (c.dt ^ 2 * stiffForm N stiff a a) ≤ c.dt ^ 2 * (4 * θ * massForm c N a a) :=
      mul_le_mul_of_nonneg_left h3 (sq_nonneg _)
    have h6 : 0 ≤ θ * (16 * (θ * stiffForm N stiff u u) - 4 * (c.dt ^ 2 * massForm c N a a)) := by nlinarith
    have h7 := nonneg_of_mul_nonneg_right h6 hθ
    linarith
  unfold elasticEnergy
  nlinarith

/-- **C110.**  In particular no node ever moves faster than the initial energy allows. -/
theorem explicit_velocity_bound (c : Config K) (hm : c.manager.scheme ≠ .quasistatic) (p : Physics K S) (s0 : S) (N : ℕ)
    (stiff : ℕ × ℕ → ℕ × ℕ → K) (hL : LinearBody p N stiff) (hmass : ∀ n < N, 0 < c.mass n) (hfree : Unconstrained c)
    (hpsd : ∀ w, 0 ≤ stiffForm N stiff w w)
    (hdt : ∀ w, c.dt ^ 2 * stiffForm N stiff w w ≤ 4 * massForm c N w w)
    (k : ℕ) (s : Sim K S) (h : loop c p k (start c s0) = some s) {n i : ℕ} (hn : n < N) (hi : i < 3) :
    c.mass n * s.velocity n i ^ 2 ≤ 2 * kineticEnergy c N (start c s0).velocity := by
  have h1 := explicit_stable c hm p s0 N stiff hL hmass hfree 1 one_pos hpsd (by simpa using hdt) k s h
  rw [sub_self, zero_mul, add_zero] at h1
  have h2 : c.mass n * s.velocity n i * s.velocity n i ≤ massForm c N s.velocity s.velocity := by
    unfold massForm
    refine Finset.single_le_sum (f := fun a : ℕ × ℕ => c.mass a.1 * s.velocity a.1 a.2 * s.velocity a.1 a.2)
      (fun a ha => ?_) (Finset.mem_product.mpr ⟨Finset.mem_range.mpr hn, Finset.mem_range.mpr hi⟩ : (n, i) ∈ dofs N)
    have := hmass a.1 (Finset.mem_range.mp (Finset.mem_product.mp ha).1)
    rw [mul_assoc]
    exact mul_nonneg this.le (mul_self_nonneg _)
  have h3 : massForm c N s.velocity s.velocity = 2 * kineticEnergy c N s.velocity := by
    unfold kineticEnergy; ring
  rw [h3] at h2
  nlinarith

/-! ## Above the limit -/

/-- `U 0 = 0, U 1 = 1, U (k+2) = 2 μ U (k+1) - U k`. -/
def growth (μ : K) : ℕ → K
  | 0 => 0
  | 1 => 1
  | k + 2 => 2 * μ * growth μ (k + 1) - growth μ k

theorem growth_ge (μ : K) (hμ : 1 ≤ μ) (k : ℕ) : (k : K) ≤ growth μ k ∧ growth μ k + 1 ≤ growth μ (k + 1) := by
  induction k with
  | zero => simp [growth]
  | succ k ih =>
    obtain ⟨h1, h2⟩ := ih
    have hk : (0 : K) ≤ k := Nat.cast_nonneg k
    refine ⟨by push_cast; linarith, ?_⟩
    rw [growth]
    nlinarith

/-- Amplitudes of a mode with `Δt² ω² = 2 z` in a velocity Verlet run from rest position. -/
theorem mode_growth (dt z : K) (hdt : dt ≠ 0) (q r : ℕ → K) (q0 : q 0 = 0) (hq : ∀ k, q (k + 1) = q k + dt * r k - z * q k)
    (hr : ∀ k, r (k + 1) = r k - z / dt * (q k + q (k + 1))) (k : ℕ) :
    q k = (-1) ^ (k + 1) * (dt * r 0) * growth (z - 1) k := by
  have hrec : ∀ k, q (k + 2) = 2 * (1 - z) * q (k + 1) - q k := by
    intro k
    have e1 := hq k
    have e2 := hq (k + 1)
    have e3 := hr k
    have e4 : dt * r (k + 1) = dt * r k - z * (q k + q (k + 1)) := by
      rw [e3]; field_simp
    rw [e2, e4]
    linear_combination (-1 : K) * e1
  have h : ∀ k, q k = (-1) ^ (k + 1) * (dt * r 0) * growth (z - 1) k ∧
      q (k + 1) = (-1) ^ (k + 2) * (dt * r 0) * growth (z - 1) (k + 1) := by
    intro k
    induction k with
    | zero =>
      refine ⟨by simp [q0, growth], ?_⟩
      rw [hq 0, q0]; simp [growth]
    | succ k ih =>
      refine ⟨ih.2, ?_⟩
      rw [hrec, ih.1, ih.2, growth]
      ring
  exact (h k).1

/-- Amplitudes of displacement and velocity of a mode with `Δt² ω² = 2 z`. -/
def amplitude (dt z v0 : K) : ℕ → K × K
  | 0 => (0, v0)
  | k + 1 =>
    ((amplitude dt z v0 k).1 + dt * (amplitude dt z v0 k).2 - z * (amplitude dt z v0 k).1,
     (amplitude dt z v0 k).2 - z / dt * ((amplitude dt z v0 k).1 +
       ((amplitude dt z v0 k).1 + dt * (amplitude dt z v0 k).2 - z * (amplitude dt z v0 k).1)))

theorem amplitude_eq (dt z v0 : K) (hdt : dt ≠ 0) (k : ℕ) :
    (amplitude dt z v0 k).1 = (-1) ^ (k + 1) * (dt * v0) * growth (z - 1) k :=
  mode_growth dt z hdt (fun k => (amplitude dt z v0 k).1) (fun k => (amplitude dt z v0 k).2) rfl (fun _ => rfl)
    (fun _ => rfl) k

/-- **C110, the limit is sharp.**  If `φ` is a mode, `K φ = λ M φ`, with `Δt² λ > 4`, then a run that starts with a velocity
`v₀ φ`, however small, exceeds every bound. -/
theorem explicit_unstable [Archimedean K] (c : Config K) (hm : c.manager.scheme ≠ .quasistatic) (p : Physics K S) (s0 : S) (N : ℕ)
    (stiff : ℕ × ℕ → ℕ × ℕ → K) (hL : LinearBody p N stiff) (hmass : ∀ n < N, 0 < c.mass n) (hfree : Unconstrained c)
    (φ : Nodal K) (lam v0 : K) (hmode : ∀ a ∈ dofs N, ∑ b ∈ dofs N, stiff a b * φ b.1 b.2 = lam * c.mass a.1 * φ a.1 a.2)
    (hlim : 4 < c.dt ^ 2 * lam) (hv0 : v0 ≠ 0) (hstart : ∀ n < N, ∀ i < 3, (start c s0).velocity n i = v0 * φ n i)
    (bound : K) :
    ∃ k s, loop c p k (start c s0) = some s ∧ ∀ n < N, ∀ i < 3, φ n i ≠ 0 → bound * |φ n i| ≤ |s.displacement n i| := by
  have hdt : c.dt ≠ 0 := by
    intro h0; rw [h0] at hlim; norm_num at hlim
  -- the run never stops
  have hdef : ∀ k, ∃ s, loop c p k (start c s0) = some s := by
    intro k
    induction k with
    | zero => exact ⟨_, rfl⟩
    | succ k ih =>
      obtain ⟨s, h⟩ := ih
      rw [loop_succ, h, Option.bind_some]
      unfold step
      simp only [contactForce, hL.contact]
      obtain ⟨F, s', hF, -⟩ := hL.internal s.state s.time (s.time + c.dt) (c.isOutputStep k)
        (kinematic c (s.time + c.dt) s.time (axpy (kinematic c (s.time + c.dt) s.time s.displacement
          (axpy s.velocity (0.5 * (s.time + c.dt - s.time)) s.acceleration)).1 (s.time + c.dt - s.time)
          (kinematic c (s.time + c.dt) s.time s.displacement
          (axpy s.velocity (0.5 * (s.time + c.dt - s.time)) s.acceleration)).2)
          (kinematic c (s.time + c.dt) s.time s.displacement
          (axpy s.velocity (0.5 * (s.time + c.dt - s.time)) s.acceleration)).2).1
      rw [hF]
      exact ⟨_, rfl⟩
  choose st hst using hdef
  -- amplitudes
  let z := c.dt ^ 2 * lam / 2
  let amp : ℕ → K × K := amplitude c.dt z v0
  have hamp : ∀ k, ∀ n < N, ∀ i < 3, (st k).displacement n i = (amp k).1 * φ n i ∧ (st k).velocity n i = (amp k).2 * φ n i ∧
      (st k).acceleration n i = - lam * (amp k).1 * φ n i := by
    intro k
    induction k with
    | zero =>
      intro n hn i hi
      have e : st 0 = start c s0 := (Option.some.inj (hst 0)).symm
      rw [e]
      obtain ⟨h1, h2⟩ := start_free c s0 hfree n i
      refine ⟨by rw [h1]; simp [amp, amplitude], by rw [hstart n hn i hi]; rfl, by rw [h2]; simp [amp, amplitude]⟩
    | succ k ih =>
      have h2 : step c p k (st k) = some (st (k + 1)) := by
        have := hst (k + 1)
        rw [loop_succ, hst k, Option.bind_some] at this
        exact this
      have hu : ∀ n < N, ∀ i < 3, (st (k + 1)).displacement n i = (amp (k + 1)).1 * φ n i := by
        intro n hn i hi
        obtain ⟨i1, i2, i3⟩ := ih n hn i hi
        rw [(free_dof_step c hm p k _ _ h2 n i (hfree n i)).1, i1, i2, i3]
        simp only [amp, amplitude, z]
        ring
      have ha : ∀ n < N, ∀ i < 3, (st (k + 1)).acceleration n i = - lam * (amp (k + 1)).1 * φ n i := by
        intro n hn i hi
        obtain ⟨F, s', hF, -, ha⟩ := step_acceleration c hm p k _ _ h2 hL.contact
        obtain ⟨F', s'', hF', hval⟩ := hL.internal (st k).state (st k).time ((st k).time + c.dt) (c.isOutputStep k)
          (st (k + 1)).displacement
        rw [hF'] at hF
        obtain ⟨rfl, -⟩ := Prod.mk.inj (Option.some.inj hF)
        have hmem : (n, i) ∈ dofs N := Finset.mem_product.mpr ⟨Finset.mem_range.mpr hn, Finset.mem_range.mpr hi⟩
        have hne := (hmass n hn).ne'
        have hsum : ∑ b ∈ dofs N, stiff (n, i) b * (st (k + 1)).displacement b.1 b.2 =
            (amp (k + 1)).1 * (lam * c.mass n * φ n i) := by
          rw [← hmode (n, i) hmem, Finset.mul_sum]
          apply Finset.sum_congr rfl
          intro b hb
          obtain ⟨hb1, hb2⟩ := Finset.mem_product.mp hb
          rw [hu b.1 (Finset.mem_range.mp hb1) b.2 (Finset.mem_range.mp hb2)]
          ring
        rw [ha, hL.external, add_zero, hval (n, i) hmem, hsum]
        field_simp
      intro n hn i hi
      refine ⟨hu n hn i hi, ?_, ha n hn i hi⟩
      obtain ⟨i1, i2, i3⟩ := ih n hn i hi
      rw [(free_dof_step c hm p k _ _ h2 n i (hfree n i)).2, i2, i3, ha n hn i hi]
      simp only [amp, amplitude, z]
      field_simp
      ring
  have hq := amplitude_eq c.dt z v0 hdt
  -- choose the step
  have hpos : 0 < |c.dt * v0| := abs_pos.mpr (mul_ne_zero hdt hv0)
  obtain ⟨k, hk⟩ := exists_nat_ge (bound / |c.dt * v0|)
  refine ⟨k, st k, hst k, fun n hn i hi _ => ?_⟩
  have hz : 1 ≤ z - 1 := by simp only [z]; linarith
  obtain ⟨g1, -⟩ := growth_ge (z - 1) hz k
  have hk0 : (0 : K) ≤ k := Nat.cast_nonneg k
  rw [(hamp k n hn i hi).1, abs_mul]
  apply mul_le_mul_of_nonneg_right _ (abs_nonneg _)
  have hqk : (amp k).1 = (-1) ^ (k + 1) * (c.dt * v0) * growth (z - 1) k := hq k
  rw [hqk, abs_mul, abs_mul, abs_pow, abs_neg, abs_one, one_pow, one_mul, abs_of_nonneg (hk0.trans g1)]
  have h1 : bound ≤ |c.dt * v0| * k := by
    rw [div_le_iff₀ hpos] at hk; linarith
  exact h1.trans (mul_le_mul_of_nonneg_left g1 hpos.le)

/-! ## Non-vacuity -/

/-- A free body of three nodes with masses 2, started with velocity 5 along the first axis; unit springs. -/
def freeSprings : Config ℚ :=
  { driven with manager := { demoManager with bcs := [⟨.initialVelocity, 1, 0, .inl 5⟩] } }

/-- The springs are a linear body, the run is free and moves, and its step of 1/2 is below the stability limit:
`Δt² wᵀKw ≤ 4 θ wᵀMw` with `θ = 1/32`. -/
example : LinearBody springs 3 (fun a b => if a = b then 1 else 0) ∧ Unconstrained freeSprings ∧
    (start freeSprings ()).velocity 0 0 = 5 ∧ (∀ n < 3, 0 < freeSprings.mass n) ∧
    (∀ w : Nodal ℚ, 0 ≤ stiffForm 3 (fun a b => if a = b then 1 else 0) w w) ∧
    ∀ w : Nodal ℚ, freeSprings.dt ^ 2 * stiffForm 3 (fun a b => if a = b then 1 else 0) w w
      ≤ 4 * (1 / 32) * massForm freeSprings 3 w w := by
  have hform : ∀ w : Nodal ℚ, stiffForm 3 (fun a b => if a = b then 1 else 0) w w
      = ∑ a ∈ dofs 3, w a.1 a.2 * w a.1 a.2 := by
    intro w
    unfold stiffForm
    apply Finset.sum_congr rfl
    intro a ha
    rw [Finset.sum_eq_single a (fun b _ hb => by simp [Ne.symm hb]) (fun h => absurd ha h)]
    simp
  have hdt : freeSprings.dt = 1 / 2 := by unfold Config.dt freeSprings driven; norm_num
  refine ⟨⟨rfl, fun _ _ _ _ _ _ => rfl, fun _ _ _ _ u => ⟨_, _, rfl, ?_⟩, fun a _ b _ => by simp [eq_comm]⟩, ?_, ?_, ?_, ?_, ?_⟩
  · intro a ha
    rw [Finset.sum_eq_single a (fun b _ hb => by simp [Ne.symm hb]) (fun h => absurd ha h)]
    simp
  · intro n i b hb
    simp only [freeSprings, List.mem_singleton] at hb
    subst hb
    rintro ⟨h, -⟩
    exact absurd h (by decide)
  · decide +kernel
  · intro n _; simp [freeSprings, driven]
  · intro w
    rw [hform]
    exact Finset.sum_nonneg fun a _ => mul_self_nonneg _
  · intro w
    rw [hform, hdt]
    have : massForm freeSprings 3 w w = 2 * ∑ a ∈ dofs 3, w a.1 a.2 * w a.1 a.2 := by
      unfold massForm
      rw [Finset.mul_sum]
      apply Finset.sum_congr rfl
      intro a _
      have hm : freeSprings.mass a.1 = 2 := rfl
      rw [hm]; ring
    rw [this]
    exact le_of_eq (by ring)

/-- A step of 4 with the same springs is above the limit: the velocities `(5, 0, 0)` are a mode with `λ = 1/2` and
`4 < Δt² λ`. -/
example : (∀ a ∈ dofs 3, ∑ b ∈ dofs 3, (if a = b then (1 : ℚ) else 0) * (if b.1 < 2 ∧ b.2 = 0 then 1 else 0)
      = 1 / 2 * freeSprings.mass a.1 * (if a.1 < 2 ∧ a.2 = 0 then 1 else 0)) ∧
    4 < ({ freeSprings with finalTime := 9 }).dt ^ 2 * (1 / 2) ∧
    ∀ n < 3, ∀ i < 3, (start { freeSprings with finalTime := 9 } ()).velocity n i = 5 * (if n < 2 ∧ i = 0 then 1 else 0) := by
  refine ⟨?_, ?_, ?_⟩
  · intro a ha
    rw [Finset.sum_eq_single a (fun b _ hb => by simp [Ne.symm hb]) (fun h => absurd ha h)]
    have hm : freeSprings.mass a.1 = 2 := rfl
    rw [hm]; norm_num
  · unfold Config.dt freeSprings driven; norm_num
  · decide +kernel

end NimbleSM.Integrate
