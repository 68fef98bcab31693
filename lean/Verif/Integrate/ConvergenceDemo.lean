import Verif.Integrate.ConvergenceProps

/-!
# C132: a concrete motion, and what happens when the body is loaded at the start

The guided cube of C111 oscillates like a spring: its runs converge to the sine.  A run starts with zero
acceleration whatever the forces are (explicit_time_integrator.cc never evaluates them before the first step), so
with a constant external force the error is only of first order; in the code external forces are zero and
bodies start from an unloaded state, so this does not happen there.
-/

set_option linter.unusedSectionVars false

open scoped BigOperators

namespace NimbleSM.Integrate

open NimbleSM.Bc NimbleSM.Assembly NimbleSM.Hex NimbleSM.Constitutive

/-- First component of the corner of the reference element with number `n`. -/
noncomputable def corner0 (n : ℕ) : ℝ := if h : n < 8 then corner ⟨n, h⟩ 0 else 0

theorem corner0_abs (n : ℕ) : |corner0 n| ≤ 1 := by
  unfold corner0
  by_cases h : n < 8
  · rw [dif_pos h]
    rcases corner_cases (K := ℝ) ⟨n, h⟩ 0 with a | a <;> rw [a] <;> simp
  · rw [dif_neg h]; simp

/-- Frequency of the guided cube. -/
noncomputable def omega (m : Material ℝ) (h : ℝ) : ℝ := Real.sqrt (guidedRate m h)

/-- A nodal field along the first axis with the values `q` times the corners. -/
noncomputable def alongX (q : ℝ) : Nodal ℝ := fun n i => if i = 0 then corner0 n * q else 0

section Demo
variable (val : ℝ) (m : Material ℝ) (h v0 T : ℝ)

theorem omega_pos (hh : 0 < h) (hrho : 0 < m.density) (hk : 0 < m.bulk) (hg : 0 < m.shear) : 0 < omega m h := by
  unfold omega guidedRate
  exact Real.sqrt_pos.mpr (by positivity)

theorem alongX_deriv {q : ℝ → ℝ} {d t : ℝ} {I : Set ℝ} (hq : HasDerivAt q d t) (n i : ℕ) :
    HasDerivWithinAt (fun t => alongX (q t) n i) (alongX d n i) I t := by
  unfold alongX
  by_cases hi : i = 0
  · simp only [hi, if_true]
    exact (hq.const_mul (corner0 n)).hasDerivWithinAt
  · simp only [hi, if_false]
    exact hasDerivWithinAt_const _ _ _

theorem alongX_abs {q B : ℝ} (hq : |q| ≤ B) (n i : ℕ) : |alongX q n i| ≤ B := by
  unfold alongX
  have hB : 0 ≤ B := (abs_nonneg _).trans hq
  by_cases hi : i = 0
  · rw [if_pos hi, abs_mul]
    calc |corner0 n| * |q| ≤ 1 * B := mul_le_mul (corner0_abs n) hq (abs_nonneg _) zero_le_one
      _ = B := one_mul B
  · rw [if_neg hi]; simpa using hB

theorem alongX_stretched (q : ℝ) : Stretched (alongX q) q := by
  intro n
  simp [alongX, corner0, n.isLt]

/-- The sine solves the equations of motion of the guided cube. -/
theorem guided_motion (hh : 0 < h) (hrho : 0 < m.density) (hk : 0 < m.bulk) (hg : 0 < m.shear)
    (hv : 2 * |v0| < omega m h * h) :
    MeshMotion val (guidedCube val m h v0 T 1) (serial [cubeBlk m]) 8
      (fun t => alongX (v0 / omega m h * Real.sin (omega m h * t)))
      (fun t => alongX (v0 * Real.cos (omega m h * t)))
      (fun t => alongX (- (v0 * omega m h * Real.sin (omega m h * t))))
      (fun t => alongX (- (v0 * omega m h ^ 2 * Real.cos (omega m h * t))))
      (|v0| * omega m h ^ 2) (|v0| * omega m h ^ 3) := by
  set c := guidedCube val m h v0 T 1 with hc
  set ω := omega m h with hω
  have hω0 : 0 < ω := omega_pos m h hh hrho hk hg
  have hG := guidedCube_guided val m h v0 T 1
  have hX := guidedCube_X val m h v0 T 1
  have hM := guidedCube_mass val m h v0 T 1 hh
  have hlin : ∀ t : ℝ, HasDerivAt (fun t => ω * t) ω t := fun t => by simpa using (hasDerivAt_id t).const_mul ω
  have d1 : ∀ t, HasDerivAt (fun t => v0 / ω * Real.sin (ω * t)) (v0 * Real.cos (ω * t)) t := fun t =>
    (((hlin t).sin).const_mul (v0 / ω)).congr_deriv (by field_simp)
  have d2 : ∀ t, HasDerivAt (fun t => v0 * Real.cos (ω * t)) (- (v0 * ω * Real.sin (ω * t))) t := fun t =>
    (((hlin t).cos).const_mul v0).congr_deriv (by ring)
  have d3 : ∀ t, HasDerivAt (fun t => - (v0 * ω * Real.sin (ω * t))) (- (v0 * ω ^ 2 * Real.cos (ω * t))) t := fun t =>
    ((((hlin t).sin).const_mul (v0 * ω)).neg).congr_deriv (by ring)
  have d4 : ∀ t, HasDerivAt (fun t => - (v0 * ω ^ 2 * Real.cos (ω * t))) (v0 * ω ^ 3 * Real.sin (ω * t)) t := fun t =>
    ((((hlin t).cos).const_mul (v0 * ω ^ 2)).neg).congr_deriv (by ring)
  have hnotfree : ∀ n < 8, ∀ i, i = 1 ∨ i = 2 → ¬ Free c.manager n i := by
    intro n hn i hi hF
    obtain ⟨bc, ⟨pre, post, he, hact, _⟩, _⟩ := hG.held ⟨n, hn⟩ i hi
    exact hF bc (by rw [he]; simp) hact
  refine ⟨⟨fun n _ i _ t _ => alongX_deriv (d1 t) n i, fun n _ i _ t _ => alongX_deriv (d2 t) n i,
    fun n _ i _ t _ => alongX_deriv (d3 t) n i, fun n _ i _ t _ => ⟨alongX (v0 * ω ^ 3 * Real.sin (ω * t)) n i, ?_,
      alongX_deriv (d4 t) n i⟩,
    fun n _ i _ t _ => ?_⟩, ?_, ?_, ?_, ?_⟩
  · apply alongX_abs
    rw [abs_mul, abs_mul, abs_of_pos (by positivity : 0 < ω ^ 3)]
    calc |v0| * ω ^ 3 * |Real.sin (ω * t)| ≤ |v0| * ω ^ 3 * 1 := by gcongr; exact Real.abs_sin_le_one _
      _ = _ := mul_one _
  · apply alongX_abs
    rw [abs_neg, abs_mul, abs_mul, abs_of_pos (by positivity : 0 < ω ^ 2)]
    calc |v0| * ω ^ 2 * |Real.cos (ω * t)| ≤ |v0| * ω ^ 2 * 1 := by gcongr; exact Real.abs_cos_le_one _
      _ = _ := mul_one _
  · intro n hn i hi
    by_cases h0 : i = 0
    · subst h0; exact Or.inl (hG.free ⟨n, hn⟩)
    · obtain ⟨bc, hgov, hty, hmag⟩ := hG.held ⟨n, hn⟩ i (by omega)
      refine Or.inr ⟨bc, hgov, Or.inl ⟨hty, fun t _ => ?_⟩⟩
      simp [alongX, h0, prescribed, hmag]
  · intro n hn i hi
    have : c.initialTime = 0 := rfl
    simp [this, alongX]
  · intro n hn i hi hF
    have hi0 : i = 0 := by
      by_contra h0
      exact hnotfree n hn i (by omega) hF
    subst hi0
    have := guidedCube_start val m h v0 T 1 hh ⟨n, hn⟩
    simp only at this
    rw [hc, this]
    simp [guidedCube, alongX, corner0, hn, mul_comm]
  · intro t _
    set q := v0 / ω * Real.sin (ω * t) with hq
    have hst := alongX_stretched q
    have hpos : 0 < h + 2 * q := by
      have : |q| ≤ |v0| / ω := by
        rw [hq, abs_mul, abs_div, abs_of_pos hω0]
        calc |v0| / ω * |Real.sin (ω * t)| ≤ |v0| / ω * 1 := by gcongr; exact Real.abs_sin_le_one _
          _ = _ := mul_one _
      have h2 : 2 * (|v0| / ω) < h := by
        rw [mul_div_assoc', div_lt_iff₀ hω0]; linarith
      linarith [(abs_le.mp this).1]
    obtain ⟨f, hf⟩ := (cube_force_defined val m c.X _ h q hh hX hst).mpr hpos
    obtain ⟨G, hGd⟩ := (internal_force_defined val (flat c.X) (flat (alongX q)) (serial [cubeBlk m])).mpr (by
      intro b hb e he
      rw [serial_cube, List.mem_singleton] at hb
      subst hb
      rw [List.mem_singleton] at he
      subst he
      exact ⟨f, hf⟩)
    refine ⟨G, hGd, fun n hn i hi hF => ?_⟩
    have hi0 : i = 0 := by
      by_contra h0
      exact hnotfree n hn i (by omega) hF
    subst hi0
    have hsum := internal_force_sum val _ _ G _ (by rw [serial_cube] at hGd; exact hGd) n 0
    have hid : ∀ e, (cubeBlk m).nodeId 0 e = e := fun e => by simp [Blk.nodeId, cubeBlk]
    simp only [List.map_cons, List.map_nil, List.sum_cons, List.sum_nil, hf, Option.elim_some, add_zero, hid] at hsum
    rw [Finset.sum_ite_eq' (Finset.range 8) n (fun e => f e 0), if_pos (Finset.mem_range.mpr hn)] at hsum
    have hcf := cube_force val m c.X _ h q hh hX hst f hf ⟨n, hn⟩
    simp only at hcf
    rw [hcf] at hsum
    have hmass := cube_mass val m c.X h hX c.mass hM ⟨n, hn⟩
    simp only at hmass
    have hz3 : (3 * n + ((0 : Fin 3) : ℕ)) = 3 * n + 0 := rfl
    rw [hz3] at hsum
    rw [hsum, hmass]
    have hω2 : ω ^ 2 = guidedRate m h := Real.sq_sqrt (by unfold guidedRate; positivity)
    have hval : v0 * ω * Real.sin (ω * t) = guidedRate m h * q := by
      rw [hq, ← hω2]; field_simp
    simp only [alongX, if_true, corner0, hn, dif_pos, hval]
    rw [guidedRate]
    have hne : m.density ≠ 0 := hrho.ne'
    have hne' : h ≠ 0 := hh.ne'
    field_simp
    ring

/-- **C132**, concretely: explicit runs of the guided cube, for every elastic material, size and initial velocity that
does not turn it inside out, converge with second order to the harmonic oscillation. -/
theorem guided_cube_converges (hh : 0 < h) (hrho : 0 < m.density) (hk : 0 < m.bulk) (hg : 0 < m.shear)
    (hv : 2 * |v0| < omega m h * h) (hT : 0 < T) :
    ∃ (C : ℝ) (m₀ : ℕ), ∀ l ≥ m₀, ∃ s,
      integrate ((guidedCube val m h v0 T 1).withSteps l) (meshPhysics val (guidedCube val m h v0 T 1).X (serial [cubeBlk m])) () 0
        = .finished s ∧
      ∀ n : Fin 8, |s.displacement n 0 - corner n 0 * (v0 / omega m h * Real.sin (omega m h * T))| ≤ C / l ^ 2 := by
  have hfin : (guidedCube val m h v0 T 1).finalTime = T := by simp [guidedCube]
  have hω0 := omega_pos m h hh hrho hk hg
  obtain ⟨C, m₀, hC⟩ := explicit_result_converges val (guidedCube_guided val m h v0 T 1).scheme
    (by rw [hfin]; exact hT) (N := 8) (blocks := serial [cubeBlk m])
    (by
      intro b hb e he k hk'
      rw [serial_cube, List.mem_singleton] at hb
      subst hb
      rw [List.mem_singleton] at he
      subst he
      simpa [Blk.nodeId, cubeBlk] using hk')
    (mat := fun _ => m) (by
      intro b hb
      rw [serial_cube, List.mem_singleton] at hb
      subst hb
      rfl)
    (by positivity) (by positivity) (guided_motion val m h v0 T hh hrho hk hg hv) 0
  refine ⟨C, m₀, fun l hl => ?_⟩
  obtain ⟨s, h1, h2⟩ := hC l hl
  refine ⟨s, h1, fun n => ?_⟩
  have := h2 n n.isLt 0 (by norm_num)
  rw [hfin] at this
  simpa [alongX, corner0, n.isLt] using this

/-- Non-vacuity: unit cube, unit moduli and density, initial velocity 1/2. -/
example : ∃ (C : ℝ) (m₀ : ℕ), ∀ l ≥ m₀, ∃ s,
    integrate ((guidedCube 0 ⟨1, 1, 1⟩ 1 (1 / 2) 10 1).withSteps l)
      (meshPhysics 0 (guidedCube 0 ⟨1, 1, 1⟩ 1 (1 / 2) 10 1).X (serial [cubeBlk ⟨1, 1, 1⟩])) () 0 = .finished s ∧
    ∀ n : Fin 8, |s.displacement n 0 - corner n 0 *
      ((1 / 2) / omega ⟨1, 1, 1⟩ 1 * Real.sin (omega ⟨1, 1, 1⟩ 1 * 10))| ≤ C / l ^ 2 := by
  refine guided_cube_converges 0 ⟨1, 1, 1⟩ 1 (1 / 2) 10 one_pos one_pos one_pos one_pos ?_ (by norm_num)
  have : (1 : ℝ) < omega ⟨1, 1, 1⟩ 1 := by
    unfold omega guidedRate
    rw [Real.lt_sqrt (by norm_num)]
    norm_num
  rw [abs_of_pos (by norm_num)]
  linarith

end Demo

/-! ## A body that is loaded at the start -/

/-- **C132**, the start.  Under a constant external force `g` alone, after `k` steps the displacement is the exact one
minus half a step times the elapsed time times the acceleration: the first half step has no force. -/
theorem loaded_start {S : Type*} (c : Config ℝ) (hm : c.manager.scheme ≠ .quasistatic) (hfree : Unconstrained c) (p : Physics ℝ S)
    (hc : p.contact = none) (g : Nodal ℝ) (hext : ∀ s tp tc o, p.external s tp tc o = g)
    (hint : ∀ s tp tc o u F s', p.internal s tp tc o u = some (F, s') → F = fun _ _ => 0) (s0 : S) (k : ℕ) (s : Sim ℝ S)
    (hl : loop c p k (start c s0) = some s) (n i : ℕ) :
    s.displacement n i = (k * c.dt) * (start c s0).velocity n i + (k * c.dt) ^ 2 / 2 * (g n i / c.mass n)
      - c.dt / 2 * (k * c.dt) * (g n i / c.mass n) := by
  suffices h : s.displacement n i = (k * c.dt) * (start c s0).velocity n i + (k * c.dt) ^ 2 / 2 * (g n i / c.mass n)
      - c.dt / 2 * (k * c.dt) * (g n i / c.mass n) ∧
      s.velocity n i + c.dt / 2 * s.acceleration n i = (start c s0).velocity n i + k * c.dt * (g n i / c.mass n) from h.1
  induction k generalizing s with
  | zero =>
    rw [loop_zero] at hl; cases hl
    rw [start_displacement c hm]
    have : (start c s0).acceleration n i = 0 := rfl
    simp [this]
  | succ k ih =>
    rw [loop_succ, Option.bind_eq_some_iff] at hl
    obtain ⟨s1, h1, h2⟩ := hl
    obtain ⟨i1, i2⟩ := ih s1 h1
    obtain ⟨F, st, hF, -, ha⟩ := step_acceleration c hm p k s1 s h2 hc
    have hF0 := hint _ _ _ _ _ _ _ hF
    obtain ⟨e1, e2⟩ := free_dof_step c hm p k s1 s h2 n i (hfree n i)
    have hacc : s.acceleration n i = g n i / c.mass n := by rw [ha, hF0, hext]; simp
    refine ⟨?_, ?_⟩
    · rw [e1, i1]
      have : c.dt * s1.velocity n i + c.dt ^ 2 / 2 * s1.acceleration n i
          = c.dt * ((start c s0).velocity n i + k * c.dt * (g n i / c.mass n)) := by rw [← i2]; ring
      push_cast
      linear_combination this
    · rw [e2, hacc]
      push_cast
      linear_combination i2

end NimbleSM.Integrate
