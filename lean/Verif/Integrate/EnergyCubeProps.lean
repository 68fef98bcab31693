import Verif.Assembly.EnergyProps
import Verif.Integrate.ObjectiveDemo

/-!
# C120: the elastic material does not conserve energy; cases
-/

open scoped BigOperators

namespace NimbleSM.Integrate

open Matrix NimbleSM.Bc NimbleSM.Assembly NimbleSM.Hex NimbleSM.Tensor NimbleSM.Constitutive

/-- Displacements of nodes with positions `X` that multiply the first coordinate by `a` and the second one by `b`. -/
def boxU (X : Nodal ℝ) (a b : ℝ) : ℕ → ℝ := flat fun n d => if d = 0 then (a - 1) * X n 0 else if d = 1 then (b - 1) * X n 1 else 0

/-- Velocities that change these factors at the rates `α` and `β`. -/
def boxV (X : Nodal ℝ) (α β : ℝ) : ℕ → ℝ := flat fun n d => if d = 0 then α * X n 0 else if d = 1 then β * X n 1 else 0

theorem box_moved (m : Material ℝ) (X : Nodal ℝ) (a b : ℝ) :
    Moved (cubeBlk m) (cubeBlk m) 0 0 (flat X) (fun k => flat X k + boxU X a b k) (Matrix.diagonal ![a, b, 1]) 0 := by
  intro n hn d
  simp only [boxU, flat_apply]
  fin_cases d
  · simp [Fin.sum_univ_three, Matrix.diagonal]; ring
  · simp [Fin.sum_univ_three, Matrix.diagonal]; ring
  · simp [Fin.sum_univ_three, Matrix.diagonal]

/-- The stretched elastic cube: the power of its internal forces. -/
theorem box_power (val : ℝ) (m : Material ℝ) (X : Nodal ℝ) (hX : IsCube X 1) (a b : ℝ) (ha : 0 < a) (hb : 0 < b) (α β : ℝ) :
    ∃ F, computeInternalForce val (flat X) (boxU X a b) [(cubeBlk m, [0])] = some F ∧
      ∑ n ∈ Finset.range 8, ∑ d : Fin 3, boxV X α β (3 * n + d) * F (3 * n + d)
        = - (α * b * (m.bulk * (a + b - 2) + 2 * m.shear * ((a - 1) - (a + b - 2) / 3))
          + β * a * (m.bulk * (a + b - 2) + 2 * m.shear * ((b - 1) - (a + b - 2) / 3))) := by
  have hJX : ∀ p, Jac val (gather (cubeBlk m) 0 (flat X)) p = Matrix.diagonal fun _ => 1 / 2 :=
    fun p => Jac_box val _ _ _ (cube_reference m _ 1 hX) p
  have hmv := box_moved m X a b
  have hJx : ∀ p, Jac val (gather (cubeBlk m) 0 fun k => flat X k + boxU X a b k) p
      = Matrix.diagonal ![a, b, 1] * Matrix.diagonal fun _ => 1 / 2 := by
    intro p; rw [moved_jac val hmv p, hJX]
  have hdetx : ∀ p, (Jac val (gather (cubeBlk m) 0 fun k => flat X k + boxU X a b k) p).det = a * b / 8 := by
    intro p; rw [hJx, Matrix.det_mul]; simp [Matrix.det_diagonal, Fin.prod_univ_three]; ring
  obtain ⟨f, hf⟩ := elementForce_defined val (cubeBlk m) (flat X) (boxU X a b) 0 (fun F => ⟨_, rfl⟩)
    (fun p => by rw [hJX]; simp [Matrix.det_diagonal]) (fun p => by rw [hdetx]; positivity)
  obtain ⟨F, hF⟩ := (internal_force_defined val (flat X) (boxU X a b) [(cubeBlk m, [0])]).mpr (by
    intro c hc e he
    rw [List.mem_singleton] at hc
    subst hc
    rw [List.mem_singleton] at he
    subst he
    exact ⟨f, hf⟩)
  refine ⟨F, hF, ?_⟩
  have hmesh : InMesh 8 [(cubeBlk m, [0])] := cube_inMesh m
  rw [Finset.sum_comm]
  simp only [fun d : Fin 3 => internal_force_work val (flat X) (boxU X a b) F _ 8 hmesh hF (fun n => boxV X α β (3 * n + d)) d,
    List.map_cons, List.map_nil, List.sum_cons, List.sum_nil, add_zero, hf, Option.elim_some]
  unfold elementForce at hf
  simp only [Option.bind_eq_bind, Option.bind_eq_some_iff] at hf
  obtain ⟨G, hG, σ, hσ, hf⟩ := hf
  have hGa : ∀ p : Fin 8, fullMat (fun i : Fin 9 => G (9 * p + i)) = Matrix.diagonal ![a, b, 1] := by
    intro p
    have h1 := computeDeformationGradients_val val _ _ G hG p
    rw [hJx, hJX] at h1
    have hunit : IsUnit (Matrix.diagonal fun _ : Fin 3 => (1 / 2 : ℝ)) := by
      rw [Matrix.isUnit_iff_isUnit_det]; simp [Matrix.det_diagonal]
    exact hunit.mul_right_cancel h1
  have hσp : ∀ p : Fin 8, symMat (fun k : Fin 6 => σ (6 * p + k)) = hooke m.bulk m.shear (smallStrain (Matrix.diagonal ![a, b, 1])) := by
    intro p
    obtain ⟨sig, hs, hv⟩ := (pointLoop_val _ 8 G _ σ hσ).1 p p.isLt
    have e1 : (fun k : Fin 6 => σ (6 * p + k)) = elasticStress m (fun i : Fin 9 => G (9 * p + i.val)) := by
      funext k; rw [hv, ← Option.some.inj hs]
    rw [e1, elastic_stress_spec, hGa p]
  have hwork := nodal_forces_virtual_work val _ σ f hf (Matrix.diagonal ![α / a, β / b, 0]) 0
  have hL : ∑ d : Fin 3, ∑ n ∈ Finset.range 8, boxV X α β (3 * (cubeBlk m).nodeId 0 n + d) * f n d
      = ∑ n ∈ Finset.range 8, ∑ d : Fin 3, f n d * ((∑ k : Fin 3, (Matrix.diagonal ![α / a, β / b, 0] : Matrix (Fin 3) (Fin 3) ℝ) d k *
        gather (cubeBlk m) 0 (fun k => flat X k + boxU X a b k) (3 * n + k)) + (0 : Fin 3 → ℝ) d) := by
    rw [Finset.sum_comm]
    apply Finset.sum_congr rfl; intro n hn
    apply Finset.sum_congr rfl; intro d _
    simp only [gather_val _ _ _ (Finset.mem_range.mp hn), boxU, boxV, flat_apply]
    fin_cases d
    · simp [Fin.sum_univ_three, Matrix.diagonal]; field_simp; ring
    · simp [Fin.sum_univ_three, Matrix.diagonal]; field_simp; ring
    · simp [Fin.sum_univ_three, Matrix.diagonal]
  rw [hL, hwork]
  simp only [hσp, hdetx]
  simp [hooke, smallStrain, Matrix.trace, Fin.sum_univ_three, Matrix.diagonal]
  field_simp
  ring

theorem same_increment (f P p : ℝ → ℝ) (c : ℝ) (hc : 1 ≤ c) (hf : ∀ t ∈ Set.Icc 1 c, HasDerivAt f (p t) t)
    (hP : ∀ t ∈ Set.Icc 1 c, HasDerivAt P (p t) t) : f c - f 1 = P c - P 1 := by
  have hder : ∀ t ∈ Set.Icc 1 c, HasDerivAt (fun s => f s - P s) 0 t := by
    intro t ht
    exact HasDerivAt.congr_deriv ((hf t ht).sub (hP t ht)) (sub_self _)
  have h := constant_of_has_deriv_right_zero (fun t ht => (hder t ht).continuousAt.continuousWithinAt)
    (fun t ht => (hder t ⟨ht.1, ht.2.le⟩).hasDerivWithinAt) c ⟨hc, le_refl _⟩
  linarith

/-- **C120 fails for the elastic material.**  Unless three times the bulk modulus is eight times the shear modulus, the internal
forces of an elastic cube derive from no energy: there is no function of the displacements whose rate along all paths is minus
the power of the internal forces. -/
theorem elastic_no_energy (val : ℝ) (m : Material ℝ) (hm : 3 * m.bulk ≠ 8 * m.shear) (X : Nodal ℝ) (hX : IsCube X 1) :
    ¬ ∃ E : (ℕ → ℝ) → ℝ, ∀ (u : ℝ → ℕ → ℝ) (v F : ℕ → ℝ) (t : ℝ),
      (∀ n < 8, ∀ d : Fin 3, HasDerivAt (fun s => u s (3 * n + d)) (v (3 * n + d)) t) →
      computeInternalForce val (flat X) (u t) [(cubeBlk m, [0])] = some F →
      HasDerivAt (fun s => E (u s)) (- ∑ n ∈ Finset.range 8, ∑ d : Fin 3, v (3 * n + d) * F (3 * n + d)) t := by
  rintro ⟨E, hE⟩
  have h1 : ∀ b : ℝ, 0 < b → ∀ t, 0 < t → HasDerivAt (fun s => E (boxU X s b))
      (b * (m.bulk * (t + b - 2) + 2 * m.shear * ((t - 1) - (t + b - 2) / 3))) t := by
    intro b hb t ht
    obtain ⟨F, hF, hp⟩ := box_power val m X hX t b ht hb 1 0
    refine HasDerivAt.congr_deriv (hE (fun s => boxU X s b) (boxV X 1 0) F t ?_ hF) (by rw [hp]; ring)
    intro n _ d
    simp only [boxU, boxV, flat_apply]
    fin_cases d
    · simpa using ((hasDerivAt_id t).sub_const 1).mul_const (X n 0)
    · simpa using hasDerivAt_const t ((b - 1) * X n 1)
    · simpa using hasDerivAt_const t (0 : ℝ)
  have h2 : ∀ a : ℝ, 0 < a → ∀ t, 0 < t → HasDerivAt (fun s => E (boxU X a s))
      (a * (m.bulk * (a + t - 2) + 2 * m.shear * ((t - 1) - (a + t - 2) / 3))) t := by
    intro a ha t ht
    obtain ⟨F, hF, hp⟩ := box_power val m X hX a t ha ht 0 1
    refine HasDerivAt.congr_deriv (hE (fun s => boxU X a s) (boxV X 0 1) F t ?_ hF) (by rw [hp]; ring)
    intro n _ d
    simp only [boxU, boxV, flat_apply]
    fin_cases d
    · simpa using hasDerivAt_const t ((a - 1) * X n 0)
    · simpa using ((hasDerivAt_id t).sub_const 1).mul_const (X n 1)
    · simpa using hasDerivAt_const t (0 : ℝ)
  have hP : ∀ c0 t : ℝ, HasDerivAt (fun s => c0 * (m.bulk * (s ^ 2 / 2 + (c0 - 2) * s) + 2 * m.shear * ((s ^ 2 / 2 - s) - (s ^ 2 / 2 + (c0 - 2) * s) / 3)))
      (c0 * (m.bulk * (t + c0 - 2) + 2 * m.shear * ((t - 1) - (t + c0 - 2) / 3))) t := by
    intro c0 t
    have hs := (hasDerivAt_pow 2 t).div_const 2
    have hl := (hasDerivAt_id t).const_mul (c0 - 2)
    have h := (((hs.add hl).const_mul m.bulk).add (((hs.sub (hasDerivAt_id t)).sub ((hs.add hl).div_const 3)).const_mul (2 * m.shear))).const_mul c0
    refine HasDerivAt.congr_deriv h ?_
    push_cast
    ring
  have pos : ∀ {c t : ℝ}, t ∈ Set.Icc 1 c → 0 < t := fun ht => lt_of_lt_of_le one_pos ht.1
  have e1 := same_increment _ _ _ 2 (by norm_num) (fun t ht => h1 1 one_pos t (pos ht)) (fun t _ => hP 1 t)
  have e2 := same_increment _ _ _ 3 (by norm_num) (fun t ht => h2 2 two_pos t (pos ht)) (fun t _ => by
    refine HasDerivAt.congr_deriv (hP 2 t) ?_; ring)
  have e3 := same_increment _ _ _ 3 (by norm_num) (fun t ht => h2 1 one_pos t (pos ht)) (fun t _ => by
    refine HasDerivAt.congr_deriv (hP 1 t) ?_; ring)
  have e4 := same_increment _ _ _ 2 (by norm_num) (fun t ht => h1 3 three_pos t (pos ht)) (fun t _ => hP 3 t)
  apply hm
  linarith

example : ¬ ∃ E : (ℕ → ℝ) → ℝ, ∀ (u : ℝ → ℕ → ℝ) (v F : ℕ → ℝ) (t : ℝ),
      (∀ n < 8, ∀ d : Fin 3, HasDerivAt (fun s => u s (3 * n + d)) (v (3 * n + d)) t) →
      computeInternalForce (1 / 2) (flat unitX) (u t) [(cubeBlk ⟨7800, 160, 80⟩, [0])] = some F →
      HasDerivAt (fun s => E (u s)) (- ∑ n ∈ Finset.range 8, ∑ d : Fin 3, v (3 * n + d) * F (3 * n + d)) t :=
  elastic_no_energy _ _ (by norm_num) unitX unitX_cube

/-! ## A case of C120: a neo-Hookean cube that is expanded to twice its size -/

theorem dilation_domain (s : ℝ) (hs : 0 < s) : NeoDomain (s • 1) := by
  have hd : (s • (1 : Matrix (Fin 3) (Fin 3) ℝ)).det = s ^ 3 := by simp [Matrix.det_smul]
  refine ⟨by rw [hd]; positivity, fun F inv d hF h => ?_⟩
  obtain ⟨inv', hinv, hFi, hiF⟩ := invertFull33_of_det_pos F (by rw [hF, hd]; positivity)
  rw [h] at hinv
  obtain rfl := ((Prod.mk.injEq _ _ _ _).mp (Option.some.inj hinv)).1
  have hi : fullMat inv = (1 / s) • 1 := by
    rw [hF, Matrix.mul_smul, Matrix.mul_one] at hiF
    rw [← hiF, smul_smul, one_div_mul_cancel hs.ne', one_smul]
  left
  rw [devNorm_eq, squareFull33TFull33_spec, hi]
  simp only [Matrix.transpose_smul, Matrix.transpose_one, Matrix.smul_mul, Matrix.mul_smul, Matrix.one_mul, smul_smul,
    Matrix.trace_smul, Matrix.trace_one]
  simp; ring

section Expand
variable (f : ℝ → ℝ) (hf : IsCosThird f) (val : ℝ)

theorem expand_jac (t : ℝ) (p : Fin 8) : Jac val (gather (neoBlk f) 0 fun k => flat unitX k + t * flat unitX k) p
    = ((1 + t) • (1 : Matrix (Fin 3) (Fin 3) ℝ)) * Matrix.diagonal fun _ => 1 / 2 := by
  have hmv : Moved (neoBlk f) (neoBlk f) 0 0 (flat unitX) (fun k => flat unitX k + t * flat unitX k) ((1 + t) • 1) 0 := by
    intro n hn d
    simp only [flat_apply]
    fin_cases d <;> simp [Fin.sum_univ_three] <;> ring
  rw [moved_jac val hmv p]
  congr 1
  exact unitX_jac val ⟨1, 1, 1⟩ p

theorem expand_deforms (t : ℝ) (ht : 0 ≤ t) : Deforms val NeoDomain (neoBlk f) 0 (flat unitX) fun k => flat unitX k + t * flat unitX k := by
  intro p F hF
  have hJX : Jac val (gather (neoBlk f) 0 (flat unitX)) p = Matrix.diagonal fun _ => 1 / 2 := unitX_jac val ⟨1, 1, 1⟩ p
  rw [expand_jac, hJX] at hF
  have hunit : IsUnit (Matrix.diagonal fun _ : Fin 3 => (1 / 2 : ℝ)) := by
    rw [Matrix.isUnit_iff_isUnit_det]; simp [Matrix.det_diagonal]
  rw [hunit.mul_right_cancel hF]
  exact dilation_domain _ (by linarith)

include hf in
theorem expand_force (t : ℝ) (ht : 0 ≤ t) :
    ∃ F, computeInternalForce val (flat unitX) (fun k => t * flat unitX k) [(neoBlk f, [0])] = some F := by
  have hJX : ∀ p, Jac val (gather (neoBlk f) 0 (flat unitX)) p = Matrix.diagonal fun _ => 1 / 2 := unitX_jac val ⟨1, 1, 1⟩
  have hD := expand_deforms f val t ht
  obtain ⟨G, hG⟩ := (deformation_gradients_defined val (gather (neoBlk f) 0 (flat unitX))
    (gather (neoBlk f) 0 fun k => flat unitX k + t * flat unitX k)).mpr (fun p => by rw [hJX]; simp [Matrix.det_diagonal])
  have hs : ∃ σ, pointLoop (neoBlk f).law 8 G (fun _ => 0) = some σ := by
    rw [← Option.isSome_iff_exists]
    unfold pointLoop
    rw [foldlM_isSome (fun pt => (neoBlk f).law fun i => G (9 * pt + i.val))
      (fun pt sig (out : ℕ → ℝ) => (List.finRange 6).foldl (fun out c => put out (6 * pt + c.val) (sig c)) out)]
    intro pt hp
    have hd := hD ⟨pt, List.mem_range.mp hp⟩ _ (computeDeformationGradients_val val _ _ G hG ⟨pt, List.mem_range.mp hp⟩)
    obtain ⟨σ, h1, -⟩ := neohookean_stress_formula_partial f hf ⟨1, 1, 1⟩ (fun i => G (9 * pt + i.val)) hd.1
      (fun inv d h => hd.2 _ inv d rfl h)
    rw [Option.isSome_iff_exists]
    exact ⟨σ, h1⟩
  obtain ⟨σ, hσ⟩ := hs
  obtain ⟨fo, hfo⟩ := (nodal_forces_defined val (gather (neoBlk f) 0 fun k => flat unitX k + t * flat unitX k) σ).mpr (fun p => by
    rw [expand_jac, Matrix.det_mul]; simp [Matrix.det_diagonal]; positivity)
  apply (internal_force_defined val (flat unitX) (fun k => t * flat unitX k) [(neoBlk f, [0])]).mpr
  intro b hb e he
  rw [List.mem_singleton] at hb
  subst hb
  rw [List.mem_singleton] at he
  subst he
  exact ⟨fo, by unfold elementForce; simp only [hG, Option.bind_eq_bind, Option.bind_some, hσ, hfo]⟩

theorem expand_energy (t : ℝ) (ht : 0 ≤ t) :
    bodyEnergy val (fun _ => neoEnergy 1 1) (flat unitX) (fun k => flat unitX k + t * flat unitX k) [(neoBlk f, [0])]
      = ((1 + t) ^ 6 - 1 - 2 * Real.log ((1 + t) ^ 3)) / 4 := by
  have hJX : ∀ p, Jac val (gather (neoBlk f) 0 (flat unitX)) p = Matrix.diagonal fun _ => 1 / 2 := unitX_jac val ⟨1, 1, 1⟩
  have hunit : IsUnit (Matrix.diagonal fun _ : Fin 3 => (1 / 2 : ℝ)).det := by simp [Matrix.det_diagonal]
  have hs : 0 < 1 + t := by linarith
  have hpw : ((1 + t) ^ 3) ^ (-(2 : ℝ) / 3) = ((1 + t) ^ 2)⁻¹ := by
    rw [← Real.rpow_natCast, ← Real.rpow_mul hs.le]
    norm_num
  have hd : ((1 + t) • (1 : Matrix (Fin 3) (Fin 3) ℝ)).det = (1 + t) ^ 3 := by simp [Matrix.det_smul]
  have hW : neoEnergy 1 1 ((1 + t) • 1) = ((1 + t) ^ 6 - 1 - 2 * Real.log ((1 + t) ^ 3)) / 4 := by
    unfold neoEnergy
    rw [hd, hpw]
    simp only [Matrix.transpose_smul, Matrix.transpose_one, Matrix.smul_mul, Matrix.mul_smul, Matrix.one_mul, smul_smul,
      Matrix.trace_smul, Matrix.trace_one]
    simp
    field_simp
    ring
  simp only [bodyEnergy, elementEnergy, List.map_cons, List.map_nil, List.sum_cons, List.sum_nil, add_zero, expand_jac, hJX]
  rw [Matrix.mul_assoc, Matrix.mul_nonsing_inv _ hunit, Matrix.mul_one, hW]
  simp [Matrix.det_diagonal]
  ring

/-- The work of the internal forces while the cube expands to twice its size, whatever the path function `w` that integrates
their power. -/
example (hf : IsCosThird f) : ∃ F : ℝ → ℕ → ℝ, (∀ t ∈ Set.Icc (0 : ℝ) 1, computeInternalForce val (flat unitX) (fun k => t * flat unitX k) [(neoBlk f, [0])]
      = some (F t)) ∧
    (∃ w : ℝ → ℝ, ∀ t ∈ Set.Icc (0 : ℝ) 1, HasDerivAt w (∑ n ∈ Finset.range 8, ∑ d : Fin 3, flat unitX (3 * n + d) * F t (3 * n + d)) t) ∧
    ∀ w : ℝ → ℝ, (∀ t ∈ Set.Icc (0 : ℝ) 1, HasDerivAt w (∑ n ∈ Finset.range 8, ∑ d : Fin 3, flat unitX (3 * n + d) * F t (3 * n + d)) t) →
      w 1 - w 0 = - (63 - 2 * Real.log 8) / 4 := by
  have hin : InMesh 8 [(neoBlk f, [0])] := by
    intro b hb e he n hn
    rw [List.mem_singleton] at hb
    subst hb
    rw [List.mem_singleton] at he
    subst he
    simpa [Blk.nodeId, neoBlk, cubeBlk] using hn
  have hall : ∀ t : ℝ, ∃ F, t ∈ Set.Icc (0 : ℝ) 1 → computeInternalForce val (flat unitX) (fun k => t * flat unitX k) [(neoBlk f, [0])] = some F := by
    intro t
    by_cases ht : t ∈ Set.Icc (0 : ℝ) 1
    · obtain ⟨F, hF⟩ := expand_force f hf val t ht.1
      exact ⟨F, fun _ => hF⟩
    · exact ⟨fun _ => 0, fun h => absurd h ht⟩
  choose F hF using hall
  have hD : ∀ t ∈ Set.Icc (0 : ℝ) 1, ∀ b ∈ [(neoBlk f, [0])], ∀ e ∈ b.2,
      Deforms val NeoDomain b.1 e (flat unitX) fun k => flat unitX k + t * flat unitX k := by
    intro t ht b hb e he
    rw [List.mem_singleton] at hb
    subst hb
    rw [List.mem_singleton] at he
    subst he
    exact expand_deforms f val t ht.1
  have hu : ∀ t ∈ Set.Icc (0 : ℝ) 1, ∀ n < 8, ∀ d : Fin 3,
      HasDerivAt (fun s : ℝ => s * flat unitX (3 * n + d)) (flat unitX (3 * n + d)) t := by
    intro t _ n _ d
    simpa using (hasDerivAt_id t).mul_const (flat unitX (3 * n + d))
  have hlaw : ∀ b ∈ [(neoBlk f, [0])], b.1.law = neohookeanStress f ⟨1, 1, 1⟩ := by
    intro b hb
    rw [List.mem_singleton.mp hb]; rfl
  refine ⟨F, fun t ht => hF t ht, ⟨fun s => - bodyEnergy val (fun _ => neoEnergy 1 1) (flat unitX) (fun k => flat unitX k + s * flat unitX k)
    [(neoBlk f, [0])], ?_⟩, ?_⟩
  · intro t ht
    have h := internal_power val [(neoBlk f, [0])] 8 hin (fun _ => neoEnergy 1 1) NeoDomain
      (fun b hb => by rw [hlaw b hb]; exact neohookean_derives f hf ⟨1, 1, 1⟩) (flat unitX) (fun s k => s * flat unitX k) (flat unitX) t
      (hD t ht) (hu t ht) (F t) (hF t ht)
    refine HasDerivAt.congr_deriv h.neg (neg_neg _)
  · intro w hw
    have h := internal_work_partial val f hf [(neoBlk f, [0])] 8 hin (fun _ => ⟨1, 1, 1⟩) hlaw (flat unitX)
      (fun s k => s * flat unitX k) (fun _ => flat unitX) F w 0 1 hD hu (fun t ht => hF t ht) hw zero_le_one
    rw [h]
    have h0 := expand_energy f val 0 (le_refl _)
    have h1 := expand_energy f val 1 zero_le_one
    simp only at h0 h1 ⊢
    rw [h0, h1]
    norm_num
    ring

end Expand

end NimbleSM.Integrate
