import Verif.Integrate.ReversibleProps
import Mathlib.Analysis.Calculus.MeanValue
import Mathlib.Analysis.Calculus.Deriv.Pow
import Mathlib.Analysis.SpecialFunctions.Exp

/-!
# C132: convergence of explicit runs - estimates

Taylor estimates for the motion, the growth of the error over the steps, and the general convergence theorem
for forces that are a function of the displacement.
-/

set_option linter.unusedSectionVars false

namespace NimbleSM.Integrate

open NimbleSM.Bc

/-! ## Specification -/

/-- The functions `y, v, a, j` of time are a motion on `[t₀, T]` with velocity `v`, acceleration `a` and jerk
`j` of every component, with bounds `M₃` for the jerk and `M₄` for its derivative. -/
structure SmoothMotion (N : ℕ) (t₀ T : ℝ) (y v a j : ℝ → Nodal ℝ) (M₃ M₄ : ℝ) : Prop where
  vel : ∀ n < N, ∀ i < 3, ∀ t ∈ Set.Icc t₀ T, HasDerivWithinAt (fun t => y t n i) (v t n i) (Set.Icc t₀ T) t
  acc : ∀ n < N, ∀ i < 3, ∀ t ∈ Set.Icc t₀ T, HasDerivWithinAt (fun t => v t n i) (a t n i) (Set.Icc t₀ T) t
  jerk : ∀ n < N, ∀ i < 3, ∀ t ∈ Set.Icc t₀ T, HasDerivWithinAt (fun t => a t n i) (j t n i) (Set.Icc t₀ T) t
  snap : ∀ n < N, ∀ i < 3, ∀ t ∈ Set.Icc t₀ T, ∃ b, |b| ≤ M₄ ∧ HasDerivWithinAt (fun t => j t n i) b (Set.Icc t₀ T) t
  bound : ∀ n < N, ∀ i < 3, ∀ t ∈ Set.Icc t₀ T, |j t n i| ≤ M₃

/-- Every component of the first `N` nodes of `u` is within `ε` of the one of `w`. -/
def Within (N : ℕ) (ε : ℝ) (u w : Nodal ℝ) : Prop := ∀ n < N, ∀ i < 3, |u n i - w n i| ≤ ε

/-- The motion `y` is what the input prescribes at the components that are not free: a prescribed displacement,
or a prescribed velocity that is constant in time. -/
def MeetsConditions (c : Config ℝ) (N : ℕ) (y : ℝ → Nodal ℝ) : Prop :=
  ∀ n < N, ∀ i < 3, Free c.manager n i ∨ ∃ bc, Governs c.manager bc n i ∧
    ((bc.type = .prescribedDisplacement ∧
        ∀ t ∈ Set.Icc c.initialTime c.finalTime, y t n i = prescribed c.manager bc c.X n t) ∨
      (bc.type = .prescribedVelocity ∧ ∃ V, ∀ t ∈ Set.Icc c.initialTime c.finalTime,
        prescribed c.manager bc c.X n t = V ∧ y t n i = (t - c.initialTime) * V))

/-- The forces near the motion: a function `f` of the displacement, defined for all displacements within `r` of
the motion, changing by at most `L ε` (per unit mass) over a distance `ε` from it; no contact, constant external
force `g`; and the motion satisfies the equation of motion at every free component. -/
structure ForcesNear {S : Type*} (c : Config ℝ) (p : Physics ℝ S) (N : ℕ) (y a : ℝ → Nodal ℝ)
    (f : Nodal ℝ → Nodal ℝ) (g : Nodal ℝ) (L r : ℝ) : Prop where
  contact : p.contact = none
  external : ∀ s tp tc o, p.external s tp tc o = g
  internal : ∀ t ∈ Set.Icc c.initialTime c.finalTime, ∀ u, Within N r u (y t) →
    ∀ s tp tc o, ∃ s', p.internal s tp tc o u = some (f u, s')
  lipschitz : ∀ t ∈ Set.Icc c.initialTime c.finalTime, ∀ u ε, ε ≤ r → Within N ε u (y t) →
    ∀ n < N, ∀ i < 3, |(f u n i - f (y t) n i) / c.mass n| ≤ L * ε
  motion : ∀ t ∈ Set.Icc c.initialTime c.finalTime, ∀ n < N, ∀ i < 3, Free c.manager n i →
    a t n i = (f (y t) n i + g n i) / c.mass n

/-! ## Taylor estimates -/

theorem step_estimate {φ φ' : ℝ → ℝ} {s h C : ℝ} (hh : 0 ≤ h)
    (hd : ∀ t ∈ Set.Icc s (s + h), HasDerivWithinAt φ (φ' t) (Set.Icc s (s + h)) t)
    (hC : ∀ t ∈ Set.Icc s (s + h), |φ' t| ≤ C) (h0 : φ s = 0) : ∀ t ∈ Set.Icc s (s + h), |φ t| ≤ C * h := by
  intro t ht
  have := Convex.norm_image_sub_le_of_norm_hasDerivWithin_le hd hC (convex_Icc _ _)
    (⟨le_rfl, by linarith⟩ : s ∈ Set.Icc s (s + h)) ht
  rw [h0, sub_zero, Real.norm_eq_abs, Real.norm_eq_abs, abs_of_nonneg (by linarith [ht.1] : 0 ≤ t - s)] at this
  have hC0 : 0 ≤ C := (abs_nonneg _).trans (hC s ⟨le_rfl, by linarith⟩)
  exact this.trans (mul_le_mul_of_nonneg_left (by linarith [ht.2]) hC0)

/-- One step of size `h` of a component with three or four derivatives. -/
theorem taylor_step {y v a j : ℝ → ℝ} {s h M₃ M₄ : ℝ} (hh : 0 ≤ h)
    (hv : ∀ t ∈ Set.Icc s (s + h), HasDerivWithinAt y (v t) (Set.Icc s (s + h)) t)
    (ha : ∀ t ∈ Set.Icc s (s + h), HasDerivWithinAt v (a t) (Set.Icc s (s + h)) t)
    (hj : ∀ t ∈ Set.Icc s (s + h), HasDerivWithinAt a (j t) (Set.Icc s (s + h)) t)
    (hs : ∀ t ∈ Set.Icc s (s + h), ∃ b, |b| ≤ M₄ ∧ HasDerivWithinAt j b (Set.Icc s (s + h)) t)
    (hb : ∀ t ∈ Set.Icc s (s + h), |j t| ≤ M₃) :
    |y (s + h) - (y s + h * v s + h ^ 2 / 2 * a s)| ≤ M₃ * h ^ 3 ∧
    |v (s + h) - (v s + h / 2 * (a s + a (s + h)))| ≤ 3 / 2 * M₄ * h ^ 3 := by
  have hend : s + h ∈ Set.Icc s (s + h) := ⟨by linarith, le_rfl⟩
  have hid : ∀ t, HasDerivWithinAt (fun t : ℝ => t - s) 1 (Set.Icc s (s + h)) t :=
    fun t => ((hasDerivAt_id t).sub_const s).hasDerivWithinAt
  -- with the bound on the jerk
  have e1 : ∀ t ∈ Set.Icc s (s + h), |a t - a s| ≤ M₃ * h :=
    step_estimate hh (fun t ht => (hj t ht).sub_const _) hb (sub_self _)
  have e2 : ∀ t ∈ Set.Icc s (s + h), |v t - v s - (t - s) * a s| ≤ M₃ * h * h := by
    refine step_estimate (φ' := fun t => a t - a s) hh (fun t ht => ?_) e1 (by simp)
    exact (((ha t ht).sub_const (v s)).sub ((hid t).mul_const (a s))).congr_deriv (by simp)
  have e3 : ∀ t ∈ Set.Icc s (s + h), |y t - y s - (t - s) * v s - (t - s) ^ 2 / 2 * a s| ≤ M₃ * h * h * h := by
    refine step_estimate (φ' := fun t => v t - v s - (t - s) * a s) hh (fun t ht => ?_) e2 (by simp)
    have h2 : HasDerivWithinAt (fun t : ℝ => (t - s) ^ 2 / 2) (t - s) (Set.Icc s (s + h)) t := by
      exact ((((hasDerivAt_id t).sub_const s).pow 2).div_const 2).hasDerivWithinAt.congr_deriv (by simp)
    exact ((((hv t ht).sub_const (y s)).sub ((hid t).mul_const (v s))).sub (h2.mul_const (a s))).congr_deriv (by simp)
  -- with the bound on its derivative
  choose! b hbM hbd using hs
  have f1 : ∀ t ∈ Set.Icc s (s + h), |j t - j s| ≤ M₄ * h :=
    step_estimate hh (fun t ht => (hbd t ht).sub_const _) hbM (sub_self _)
  have f2 : ∀ t ∈ Set.Icc s (s + h), |a t - a s - (t - s) * j s| ≤ M₄ * h * h := by
    refine step_estimate (φ' := fun t => j t - j s) hh (fun t ht => ?_) f1 (by simp)
    exact (((hj t ht).sub_const (a s)).sub ((hid t).mul_const (j s))).congr_deriv (by simp)
  have f3 : ∀ t ∈ Set.Icc s (s + h), |v t - v s - (t - s) * a s - (t - s) ^ 2 / 2 * j s| ≤ M₄ * h * h * h := by
    refine step_estimate (φ' := fun t => a t - a s - (t - s) * j s) hh (fun t ht => ?_) f2 (by simp)
    have h2 : HasDerivWithinAt (fun t : ℝ => (t - s) ^ 2 / 2) (t - s) (Set.Icc s (s + h)) t := by
      exact ((((hasDerivAt_id t).sub_const s).pow 2).div_const 2).hasDerivWithinAt.congr_deriv (by simp)
    exact ((((ha t ht).sub_const (v s)).sub ((hid t).mul_const (a s))).sub (h2.mul_const (j s))).congr_deriv (by simp)
  refine ⟨?_, ?_⟩
  · have := e3 _ hend
    simp only [add_sub_cancel_left] at this
    calc _ = |y (s + h) - y s - h * v s - h ^ 2 / 2 * a s| := by congr 1; ring
      _ ≤ _ := by linarith
  · have g2 := f2 _ hend
    have g3 := f3 _ hend
    simp only [add_sub_cancel_left] at g2 g3
    calc |v (s + h) - (v s + h / 2 * (a s + a (s + h)))|
        = |(v (s + h) - v s - h * a s - h ^ 2 / 2 * j s) - h / 2 * (a (s + h) - a s - h * j s)| := by congr 1; ring
      _ ≤ |v (s + h) - v s - h * a s - h ^ 2 / 2 * j s| + |h / 2 * (a (s + h) - a s - h * j s)| := abs_sub _ _
      _ ≤ M₄ * h * h * h + h / 2 * (M₄ * h * h) := by
          rw [abs_mul, abs_of_nonneg (by linarith : 0 ≤ h / 2)]
          exact add_le_add g3 (mul_le_mul_of_nonneg_left g2 (by linarith))
      _ = _ := by ring

/-! ## Growth of the error -/

/-- The bound on the error after `k` steps of size `h`: `L` bounds the stiffness per mass, `M₃, M₄` the
derivatives of the motion, `α` the acceleration the run starts with wrongly (as zero). -/
noncomputable def errorBound (L M₃ M₄ α h : ℝ) (k : ℕ) : ℝ :=
  Real.exp ((1 + L) ^ 2 * h * k) * (((1 + L) * M₃ + 2 * M₄) * h ^ 3 * k + (1 + L) * α * h)

theorem errorBound_mono {L M₃ M₄ α h : ℝ} (hL : 0 ≤ L) (h3 : 0 ≤ M₃) (h4 : 0 ≤ M₄) (hα : 0 ≤ α) (hh : 0 ≤ h) {k l : ℕ}
    (hkl : k ≤ l) : errorBound L M₃ M₄ α h k ≤ errorBound L M₃ M₄ α h l := by
  have : (k : ℝ) ≤ l := by exact_mod_cast hkl
  unfold errorBound
  gcongr

theorem errorBound_step {L M₃ M₄ α h E E' : ℝ} (hL : 0 ≤ L) (h3 : 0 ≤ M₃) (h4 : 0 ≤ M₄) (hα : 0 ≤ α) (hh : 0 ≤ h) (k : ℕ)
    (hE0 : 0 ≤ E) (hE : E ≤ errorBound L M₃ M₄ α h k)
    (hE' : E' ≤ (1 + (1 + L) ^ 2 * h) * E + ((1 + L) * M₃ + 2 * M₄) * h ^ 3) : E' ≤ errorBound L M₃ M₄ α h (k + 1) := by
  have h1 : 1 + (1 + L) ^ 2 * h ≤ Real.exp ((1 + L) ^ 2 * h) := by linarith [Real.add_one_le_exp ((1 + L) ^ 2 * h)]
  have hexp : Real.exp ((1 + L) ^ 2 * h * ((k + 1 : ℕ) : ℝ)) = Real.exp ((1 + L) ^ 2 * h) * Real.exp ((1 + L) ^ 2 * h * k) := by
    rw [← Real.exp_add]; congr 1; push_cast; ring
  have hone : 1 ≤ Real.exp ((1 + L) ^ 2 * h * ((k + 1 : ℕ) : ℝ)) := by
    rw [Real.one_le_exp_iff]; positivity
  have hC : 0 ≤ ((1 + L) * M₃ + 2 * M₄) * h ^ 3 := by positivity
  calc E' ≤ (1 + (1 + L) ^ 2 * h) * E + ((1 + L) * M₃ + 2 * M₄) * h ^ 3 := hE'
    _ ≤ Real.exp ((1 + L) ^ 2 * h) * errorBound L M₃ M₄ α h k
        + Real.exp ((1 + L) ^ 2 * h * ((k + 1 : ℕ) : ℝ)) * (((1 + L) * M₃ + 2 * M₄) * h ^ 3) := by
      refine add_le_add (mul_le_mul h1 hE hE0 (Real.exp_pos _).le) ?_
      nlinarith
    _ = errorBound L M₃ M₄ α h (k + 1) := by
      unfold errorBound
      rw [hexp]
      push_cast
      ring

/-! ## A step whose force evaluation is defined -/

/-- The displacement a step moves to does not depend on the forces: `dry` is the step with zero forces. -/
theorem step_defined {S : Type*} (c : Config ℝ) (hm : c.manager.scheme ≠ .quasistatic) (p : Physics ℝ S) (hc : p.contact = none)
    (k : ℕ) (s : Sim ℝ S) :
    ∃ u, (∀ n i, Free c.manager n i →
        u n i = s.displacement n i + c.dt * s.velocity n i + c.dt ^ 2 / 2 * s.acceleration n i) ∧
      (0 < c.dt → ∀ bc n i, Governs c.manager bc n i →
        (bc.type = .prescribedDisplacement → u n i = prescribed c.manager bc c.X n (s.time + c.dt)) ∧
        (bc.type = .prescribedVelocity →
          u n i = s.displacement n i + c.dt * prescribed c.manager bc c.X n (s.time + c.dt))) ∧
      ((∃ r, p.internal s.state s.time (s.time + c.dt) (c.isOutputStep k) u = some r) →
        ∃ s', step c p k s = some s' ∧ s'.displacement = u) := by
  let dry : Physics ℝ S := { p with internal := fun s _ _ _ _ => some (fun _ _ => 0, s) }
  obtain ⟨s1, hs1⟩ : ∃ s1, step c dry k s = some s1 := by
    unfold step
    simp only [contactForce, dry, hc]
    exact ⟨_, rfl⟩
  refine ⟨s1.displacement, fun n i hf => (free_dof_step c hm _ k _ _ hs1 n i hf).1, fun hdt bc n i hg => ?_, ?_⟩
  · have ht : s1.time = s.time + c.dt := by
      obtain ⟨_, _, _, _, _, _, _, _, _, _, _, _, _, _, _, ht, _⟩ := step_spec c hm dry k s s1 hs1
      exact ht
    have := step_displacement c hm hdt dry k s s1 hs1 bc n i hg
    rw [ht] at this
    exact this
  · rintro ⟨⟨F, st⟩, hF⟩
    have hd : s1.displacement = (kinematic c (s.time + c.dt) s.time (axpy (kinematic c (s.time + c.dt) s.time s.displacement
        (axpy s.velocity (0.5 * (s.time + c.dt - s.time)) s.acceleration)).1 (s.time + c.dt - s.time)
        (kinematic c (s.time + c.dt) s.time s.displacement
          (axpy s.velocity (0.5 * (s.time + c.dt - s.time)) s.acceleration)).2)
        (kinematic c (s.time + c.dt) s.time s.displacement
          (axpy s.velocity (0.5 * (s.time + c.dt - s.time)) s.acceleration)).2).1 := by
      unfold step at hs1
      simp only [contactForce, dry, hc, Option.bind_eq_bind, Option.bind_some, Option.some.injEq] at hs1
      subst hs1
      dsimp only
      split
      · exact applyKinematicBC_displacement c.manager hm _ _ c.X _
      · rfl
    have hstep : ∃ s', step c p k s = some s' := by
      unfold step
      simp only [contactForce, hc, Option.bind_eq_bind]
      rw [← hd, hF]
      exact ⟨_, rfl⟩
    obtain ⟨s', hs'⟩ := hstep
    refine ⟨s', hs', ?_⟩
    obtain ⟨vh, _, _, _, _, _, _, hvh, hu, -⟩ := step_spec c hm p k s s' hs'
    obtain ⟨vh1, _, _, _, _, _, _, hvh1, hu1, -⟩ := step_spec c hm dry k s s1 hs1
    rw [hu, hu1, hvh, hvh1]

/-! ## Convergence -/

/-- The state `s` of a run at time `t` is within `e` (displacement), `d` (velocity) and `α` (acceleration) of the
motion. -/
structure Close {S : Type*} (c : Config ℝ) (N : ℕ) (y v a : ℝ → Nodal ℝ) (t e d α : ℝ) (s : Sim ℝ S) : Prop where
  disp : Within N e s.displacement (y t)
  vel : ∀ n < N, ∀ i < 3, Free c.manager n i → |s.velocity n i - v t n i| ≤ d
  acc : ∀ n < N, ∀ i < 3, Free c.manager n i → |s.acceleration n i - a t n i| ≤ α

theorem abs_three (x y z w : ℝ) {X Y Z W : ℝ} (hx : |x| ≤ X) (hy : |y| ≤ Y) (hz : |z| ≤ Z) (hw : |w| ≤ W) :
    |x + y + z - w| ≤ X + Y + Z + W := by
  have h1 := abs_le.mp hx
  have h2 := abs_le.mp hy
  have h3 := abs_le.mp hz
  have h4 := abs_le.mp hw
  rw [abs_le]
  constructor <;> linarith [h1.1, h1.2]

theorem close_step {S : Type*} {c : Config ℝ} (hm : c.manager.scheme ≠ .quasistatic) {p : Physics ℝ S} {N : ℕ}
    {y v a j : ℝ → Nodal ℝ} {f : Nodal ℝ → Nodal ℝ} {g : Nodal ℝ} {L r M₃ M₄ : ℝ}
    (hy : SmoothMotion N c.initialTime c.finalTime y v a j M₃ M₄) (hM₃ : 0 ≤ M₃) (hcond : MeetsConditions c N y)
    (hf : ForcesNear c p N y a f g L r) (hdt : 0 < c.dt)
    {k : ℕ} {s : Sim ℝ S} {s0 : S} (hl : loop c p k (start c s0) = some s) (hk : k < c.numSteps)
    {e d α : ℝ} (hd0 : 0 ≤ d) (hα0 : 0 ≤ α)
    (hclose : Close c N y v a (c.initialTime + k * c.dt) e d α s)
    (hr : e + c.dt * d + c.dt ^ 2 / 2 * α + M₃ * c.dt ^ 3 ≤ r) :
    ∃ s', loop c p (k + 1) (start c s0) = some s' ∧
      Close c N y v a (c.initialTime + (k + 1 : ℕ) * c.dt) (e + c.dt * d + c.dt ^ 2 / 2 * α + M₃ * c.dt ^ 3)
        (d + c.dt / 2 * (α + L * (e + c.dt * d + c.dt ^ 2 / 2 * α + M₃ * c.dt ^ 3)) + 3 / 2 * M₄ * c.dt ^ 3)
        (L * (e + c.dt * d + c.dt ^ 2 / 2 * α + M₃ * c.dt ^ 3)) s' := by
  set h := c.dt with hh
  set t := c.initialTime + k * h with ht
  set e' := e + h * d + h ^ 2 / 2 * α + M₃ * h ^ 3 with he'
  have hstime : s.time = t := by rw [loop_time c hm p _ _ _ hl]; rfl
  have htn : c.initialTime + (k + 1 : ℕ) * h = t + h := by rw [ht]; push_cast; ring
  have hfin : c.finalTime = c.initialTime + c.numSteps * h := by
    have : (c.numSteps : ℝ) ≠ 0 := by
      have : 0 < c.numSteps := by omega
      positivity
    rw [hh]; unfold Config.dt; field_simp; ring
  have hkn : ((k : ℝ) + 1) ≤ c.numSteps := by exact_mod_cast hk
  have hsub : Set.Icc t (t + h) ⊆ Set.Icc c.initialTime c.finalTime := by
    intro x hx
    refine ⟨?_, ?_⟩
    · have : 0 ≤ (k : ℝ) * h := by positivity
      linarith [hx.1]
    · have : ((k : ℝ) + 1) * h ≤ c.numSteps * h := mul_le_mul_of_nonneg_right hkn hdt.le
      rw [hfin]
      linarith [hx.2]
  have htmem : t ∈ Set.Icc c.initialTime c.finalTime := hsub ⟨le_rfl, by linarith⟩
  have htmem' : t + h ∈ Set.Icc c.initialTime c.finalTime := hsub ⟨by linarith, le_rfl⟩
  have htay : ∀ n < N, ∀ i < 3,
      |y (t + h) n i - (y t n i + h * v t n i + h ^ 2 / 2 * a t n i)| ≤ M₃ * h ^ 3 ∧
      |v (t + h) n i - (v t n i + h / 2 * (a t n i + a (t + h) n i))| ≤ 3 / 2 * M₄ * h ^ 3 := by
    intro n hn i hi
    refine taylor_step (y := fun t => y t n i) (v := fun t => v t n i) (a := fun t => a t n i) (j := fun t => j t n i) hdt.le
      (fun x hx => (hy.vel n hn i hi x (hsub hx)).mono hsub) (fun x hx => (hy.acc n hn i hi x (hsub hx)).mono hsub)
      (fun x hx => (hy.jerk n hn i hi x (hsub hx)).mono hsub) (fun x hx => ?_) (fun x hx => hy.bound n hn i hi x (hsub hx))
    obtain ⟨b, hb, hd⟩ := hy.snap n hn i hi x (hsub hx)
    exact ⟨b, hb, hd.mono hsub⟩
  obtain ⟨u, hfree, hgov, hdef⟩ := step_defined c hm p hf.contact k s
  have he0 : ∀ n < N, ∀ i < 3, 0 ≤ e := fun n hn i hi => (abs_nonneg _).trans (hclose.disp n hn i hi)
  have hw : Within N e' u (y (t + h)) := by
    intro n hn i hi
    have hpos : 0 ≤ e' := by
      have := he0 n hn i hi
      rw [he']; positivity
    rcases hcond n hn i hi with hF | ⟨bc, hg, hD | hV⟩
    · rw [hfree n i hF]
      have := abs_three (s.displacement n i - y t n i) (h * (s.velocity n i - v t n i)) (h ^ 2 / 2 * (s.acceleration n i - a t n i))
        (y (t + h) n i - (y t n i + h * v t n i + h ^ 2 / 2 * a t n i)) (hclose.disp n hn i hi)
        (Y := h * d) (by rw [abs_mul, abs_of_pos hdt]; exact mul_le_mul_of_nonneg_left (hclose.vel n hn i hi hF) hdt.le)
        (Z := h ^ 2 / 2 * α) (by
          rw [abs_mul, abs_of_pos (by positivity : 0 < h ^ 2 / 2)]
          exact mul_le_mul_of_nonneg_left (hclose.acc n hn i hi hF) (by positivity))
        (htay n hn i hi).1
      refine le_trans (le_of_eq ?_) this
      congr 1; ring
    · rw [((hgov hdt bc n i hg).1 hD.1), hstime, ← hh, hD.2 _ htmem', sub_self, abs_zero]
      exact hpos
    · obtain ⟨hty, V, hV⟩ := hV
      have hsum := prescribed_velocity_displacement c hm hdt p s0 k s hl bc n i hg hty
      rw [((hgov hdt bc n i hg).2 hty), hstime, ← hh, (hV _ htmem').1, (hV _ htmem').2]
      have : s.displacement n i = k * h * V := by
        rw [hsum, Finset.sum_congr rfl fun l hl => ?_, Finset.sum_const, Finset.card_range, nsmul_eq_mul]
        rotate_left
        · exact h * V
        · rw [(hV (c.initialTime + (l + 1) * h) ?_).1]
          have hlk : (l : ℝ) + 1 ≤ k := by exact_mod_cast Finset.mem_range.mp hl
          have h1 : ((l : ℝ) + 1) * h ≤ k * h := mul_le_mul_of_nonneg_right hlk hdt.le
          have h2 : 0 ≤ ((l : ℝ) + 1) * h := by positivity
          exact ⟨by linarith, by linarith [htmem.2]⟩
        · ring
      rw [this]
      have : k * h * V + h * V - (t + h - c.initialTime) * V = 0 := by rw [ht]; ring
      rw [this, abs_zero]
      exact hpos
  have hwr : Within N r u (y (t + h)) := fun n hn i hi => (hw n hn i hi).trans hr
  obtain ⟨st, hst⟩ := hf.internal (t + h) htmem' u hwr s.state s.time (s.time + c.dt) (c.isOutputStep k)
  obtain ⟨s', hs', hu⟩ := hdef ⟨_, hst⟩
  have hα' : ∀ n < N, ∀ i < 3, Free c.manager n i → |s'.acceleration n i - a (t + h) n i| ≤ L * e' := by
    intro n hn i hi hF
    obtain ⟨F, st', hF', -, ha⟩ := step_acceleration c hm p k s s' hs' hf.contact
    rw [hu, hst] at hF'
    simp only [Option.some.injEq, Prod.mk.injEq] at hF'
    rw [ha, hf.external, ← hF'.1, hf.motion _ htmem' n hn i hi hF]
    have := hf.lipschitz _ htmem' u e' hr hw n hn i hi
    refine le_trans (le_of_eq ?_) this
    congr 1; ring
  refine ⟨s', by rw [loop_succ, hl]; exact hs', ?_⟩
  rw [htn]
  refine ⟨by rw [hu]; exact hw, fun n hn i hi hF => ?_, hα'⟩
  rw [(free_dof_step c hm p k s s' hs' n i hF).2]
  have := abs_three (s.velocity n i - v t n i) (h / 2 * (s.acceleration n i - a t n i)) (h / 2 * (s'.acceleration n i - a (t + h) n i))
    (v (t + h) n i - (v t n i + h / 2 * (a t n i + a (t + h) n i))) (hclose.vel n hn i hi hF)
    (Y := h / 2 * α) (by
      rw [abs_mul, abs_of_pos (by positivity : 0 < h / 2)]
      exact mul_le_mul_of_nonneg_left (hclose.acc n hn i hi hF) (by positivity))
    (Z := h / 2 * (L * e')) (by
      rw [abs_mul, abs_of_pos (by positivity : 0 < h / 2)]
      exact mul_le_mul_of_nonneg_left (hα' n hn i hi hF) (by positivity))
    (htay n hn i hi).2
  refine le_trans (le_of_eq ?_) (this.trans (le_of_eq ?_))
  · congr 1; ring
  · ring

/-- **C132**, for any forces that are a function of the displacement near the motion: a run with step size at most
one whose error bound is within the tube completes every step, and displacements and velocities stay within the
error bound. -/
theorem explicit_converges {S : Type*} {c : Config ℝ} (hm : c.manager.scheme ≠ .quasistatic) {p : Physics ℝ S} {N : ℕ}
    {y v a j : ℝ → Nodal ℝ} {f : Nodal ℝ → Nodal ℝ} {g : Nodal ℝ} {L r M₃ M₄ α : ℝ}
    (hy : SmoothMotion N c.initialTime c.finalTime y v a j M₃ M₄) (hL : 0 ≤ L) (h3 : 0 ≤ M₃) (h4 : 0 ≤ M₄) (hα : 0 ≤ α)
    (hcond : MeetsConditions c N y) (hf : ForcesNear c p N y a f g L r) (hdt : 0 < c.dt) (hdt1 : c.dt ≤ 1) (s0 : S)
    (hy0 : ∀ n < N, ∀ i < 3, y c.initialTime n i = 0)
    (hv0 : ∀ n < N, ∀ i < 3, Free c.manager n i → v c.initialTime n i = (start c s0).velocity n i)
    (ha0 : ∀ n < N, ∀ i < 3, Free c.manager n i → |a c.initialTime n i| ≤ α)
    (hr : errorBound L M₃ M₄ α c.dt c.numSteps ≤ r) (k : ℕ) (hk : k ≤ c.numSteps) :
    ∃ s, loop c p k (start c s0) = some s ∧
      Within N (errorBound L M₃ M₄ α c.dt k) s.displacement (y (c.initialTime + k * c.dt)) ∧
      ∀ n < N, ∀ i < 3, Free c.manager n i → |s.velocity n i - v (c.initialTime + k * c.dt) n i| ≤ errorBound L M₃ M₄ α c.dt k := by
  suffices hmain : ∃ s e d αk, loop c p k (start c s0) = some s ∧ 0 ≤ e ∧ 0 ≤ d ∧ 0 ≤ αk ∧
      Close c N y v a (c.initialTime + k * c.dt) e d αk s ∧ e + d ≤ errorBound L M₃ M₄ α c.dt k ∧
      (αk ≤ L * e ∨ (k = 0 ∧ e = 0 ∧ d = 0 ∧ αk = α)) by
    obtain ⟨s, e, d, αk, h1, h2, h3, h4, h5, h6, -⟩ := hmain
    exact ⟨s, h1, fun n hn i hi => (h5.disp n hn i hi).trans (by linarith),
      fun n hn i hi hF => (h5.vel n hn i hi hF).trans (by linarith)⟩
  induction k with
  | zero =>
    refine ⟨start c s0, 0, 0, α, rfl, le_rfl, le_rfl, hα, ⟨fun n hn i hi => ?_, fun n hn i hi hF => ?_, fun n hn i hi hF => ?_⟩, ?_,
      Or.inr ⟨rfl, rfl, rfl, rfl⟩⟩
    · rw [start_displacement c hm, Nat.cast_zero, zero_mul, add_zero, hy0 n hn i hi]; simp
    · rw [Nat.cast_zero, zero_mul, add_zero, hv0 n hn i hi hF]; simp
    · rw [Nat.cast_zero, zero_mul, add_zero]
      have : (start c s0).acceleration n i = 0 := rfl
      rw [this, zero_sub, abs_neg]; exact ha0 n hn i hi hF
    · rw [add_zero]; unfold errorBound; positivity
  | succ k ih =>
    obtain ⟨s, e, d, αk, hl, he, hd, hαk, hclose, hE, hcase⟩ := ih (by omega)
    set h := c.dt with hh
    have hh2 : h ^ 2 ≤ h := by nlinarith
    have hE' : (e + h * d + h ^ 2 / 2 * αk + M₃ * h ^ 3)
        + (d + h / 2 * (αk + L * (e + h * d + h ^ 2 / 2 * αk + M₃ * h ^ 3)) + 3 / 2 * M₄ * h ^ 3)
        ≤ errorBound L M₃ M₄ α h (k + 1) := by
      rcases hcase with hc | ⟨rfl, rfl, rfl, rfl⟩
      · refine errorBound_step hL h3 h4 hα hdt.le k (E := e + d) (by positivity) hE ?_
        have p0 : 0 ≤ h ^ 3 := by positivity
        -- everything is at most its coarse version
        have q1 : h ^ 2 / 2 * αk ≤ h / 2 * (L * (e + d)) := by
          calc h ^ 2 / 2 * αk ≤ h / 2 * αk := mul_le_mul_of_nonneg_right (by linarith) hαk
            _ ≤ h / 2 * (L * (e + d)) := mul_le_mul_of_nonneg_left (hc.trans (mul_le_mul_of_nonneg_left (by linarith) hL)) (by linarith)
        have q2 : h / 2 * αk ≤ h / 2 * (L * (e + d)) :=
          mul_le_mul_of_nonneg_left (hc.trans (mul_le_mul_of_nonneg_left (by linarith) hL)) (by linarith)
        have q3 : e + h * d + h ^ 2 / 2 * αk + M₃ * h ^ 3 ≤ (e + d) * (1 + L / 2) + M₃ * h ^ 3 := by
          have : h * d ≤ d := by nlinarith
          have : h / 2 * (L * (e + d)) ≤ L / 2 * (e + d) := by
            have : 0 ≤ L * (e + d) := by positivity
            nlinarith
          nlinarith
        have q4 : h / 2 * (L * (e + h * d + h ^ 2 / 2 * αk + M₃ * h ^ 3))
            ≤ h / 2 * L * ((e + d) * (1 + L / 2)) + L / 2 * (M₃ * h ^ 3) := by
          have hM : 0 ≤ M₃ * h ^ 3 := by positivity
          calc h / 2 * (L * (e + h * d + h ^ 2 / 2 * αk + M₃ * h ^ 3))
              ≤ h / 2 * (L * ((e + d) * (1 + L / 2) + M₃ * h ^ 3)) := by gcongr
            _ = h / 2 * L * ((e + d) * (1 + L / 2)) + h * (L / 2 * (M₃ * h ^ 3)) := by ring
            _ ≤ _ := by
              have : 0 ≤ L / 2 * (M₃ * h ^ 3) := by positivity
              nlinarith
        have q5 : h * d ≤ h * (e + d) := by nlinarith
        have z1 : 0 ≤ L * (h * (e + d)) := by positivity
        have z2 : 0 ≤ L ^ 2 * (h * (e + d)) := by positivity
        have z3 : 0 ≤ L * (M₃ * h ^ 3) := by positivity
        have z4 : 0 ≤ M₄ * h ^ 3 := by positivity
        nlinarith
      · have hM : 0 ≤ M₃ * h ^ 3 := by positivity
        have hexp : 1 ≤ Real.exp ((1 + L) ^ 2 * h * ((0 + 1 : ℕ) : ℝ)) := by rw [Real.one_le_exp_iff]; positivity
        have hpos : 0 ≤ ((1 + L) * M₃ + 2 * M₄) * h ^ 3 * ((0 + 1 : ℕ) : ℝ) + (1 + L) * αk * h := by positivity
        have hle : (0 + h * 0 + h ^ 2 / 2 * αk + M₃ * h ^ 3)
            + (0 + h / 2 * (αk + L * (0 + h * 0 + h ^ 2 / 2 * αk + M₃ * h ^ 3)) + 3 / 2 * M₄ * h ^ 3)
            ≤ ((1 + L) * M₃ + 2 * M₄) * h ^ 3 * ((0 + 1 : ℕ) : ℝ) + (1 + L) * αk * h := by
          have w1 : h ^ 2 / 2 * αk ≤ h / 2 * αk := mul_le_mul_of_nonneg_right (by linarith) hα
          have w2 : h / 2 * (L * (h ^ 2 / 2 * αk + M₃ * h ^ 3)) ≤ L * (h / 2 * αk + M₃ * h ^ 3) := by
            have : L * (h ^ 2 / 2 * αk + M₃ * h ^ 3) ≤ L * (h / 2 * αk + M₃ * h ^ 3) := by gcongr
            have h0 : 0 ≤ L * (h ^ 2 / 2 * αk + M₃ * h ^ 3) := by positivity
            nlinarith
          have w3 : 0 ≤ M₄ * h ^ 3 := by positivity
          have w4 : 0 ≤ L * (h * αk) := by positivity
          push_cast
          nlinarith
        unfold errorBound
        calc _ ≤ _ := hle
          _ = 1 * _ := (one_mul _).symm
          _ ≤ _ := mul_le_mul_of_nonneg_right hexp hpos
    have hfin : e + h * d + h ^ 2 / 2 * αk + M₃ * h ^ 3 ≤ r := by
      have h0 : 0 ≤ d + h / 2 * (αk + L * (e + h * d + h ^ 2 / 2 * αk + M₃ * h ^ 3)) + 3 / 2 * M₄ * h ^ 3 := by positivity
      have := errorBound_mono hL h3 h4 hα hdt.le hk
      linarith
    obtain ⟨s', hs', hcl⟩ := close_step hm hy h3 hcond hf hdt hl (by omega) hd hαk hclose hfin
    refine ⟨s', _, _, _, hs', ?_, ?_, ?_, hcl, hE', Or.inl le_rfl⟩ <;> positivity

end NimbleSM.Integrate
