import Verif.Tensor.LogRot
import Verif.Tensor.TensorProps
import Mathlib.Analysis.Normed.Algebra.MatrixExponential
import Mathlib.Analysis.SpecialFunctions.Trigonometric.Series
import Mathlib.LinearAlgebra.Matrix.NonsingularInverse
import Mathlib.LinearAlgebra.Matrix.Notation
import Mathlib.LinearAlgebra.Matrix.PosDef
import Mathlib.Algebra.Order.Star.Real
import Mathlib.Tactic.LinearCombination
import Mathlib.Tactic.FieldSimp

/-!
# C104: the logarithm of a rotation
-/

namespace NimbleSM.Tensor

open Matrix

/-! ## Specification -/

/-- A proper rotation. -/
def IsRotation (R : Matrix (Fin 3) (Fin 3) ℝ) : Prop := Rᵀ * R = 1 ∧ R.det = 1

/-- `L` is a logarithm of `R`: skew symmetric, and its exponential is `R`. -/
def IsLogOf (L R : Matrix (Fin 3) (Fin 3) ℝ) : Prop := Lᵀ = -L ∧ NormedSpace.exp L = R

/-- The rotation by 180 degrees about the unit vector `n`. -/
def halfTurn (n : Fin 3 → ℝ) : Matrix (Fin 3) (Fin 3) ℝ := fun i j => 2 * n i * n j - if i = j then 1 else 0

/-! ## Rodrigues' formula -/

section rodrigues
open scoped Matrix.Norms.Operator

theorem pow_even_of_cube {A : Type*} [Ring A] {N : A} (h : N * N * N = -N) (k : ℕ) :
    N ^ (2 * (k + 1)) = (-1) ^ k * (N * N) := by
  induction k with
  | zero => simp [pow_two]
  | succ k ih =>
    have : 2 * (k + 1 + 1) = 2 * (k + 1) + 2 := by ring
    rw [this, pow_add, ih, pow_two, pow_succ]
    have h4 : N * N * (N * N) = -(N * N) := by rw [← mul_assoc, h, neg_mul]
    rw [mul_assoc ((-1) ^ k), h4]
    simp

theorem pow_odd_of_cube {A : Type*} [Ring A] {N : A} (h : N * N * N = -N) (k : ℕ) :
    N ^ (2 * k + 1) = (-1) ^ k * N := by
  induction k with
  | zero => simp
  | succ k ih =>
    have : 2 * (k + 1) + 1 = 2 * k + 1 + 2 := by ring
    rw [this, pow_add, ih, pow_two, pow_succ, mul_assoc, ← mul_assoc N, h]
    simp

/-- Rodrigues' formula: the exponential of `θ N` with `N³ = -N`. -/
theorem exp_rodrigues (N : Matrix (Fin 3) (Fin 3) ℝ) (h : N * N * N = -N) (θ : ℝ) :
    NormedSpace.exp (θ • N) = 1 + Real.sin θ • N + (1 - Real.cos θ) • (N * N) := by
  have hodd : HasSum (fun k : ℕ => (((2 * k + 1).factorial : ℝ)⁻¹) • (θ • N) ^ (2 * k + 1)) (Real.sin θ • N) := by
    have := (Real.hasSum_sin θ).smul_const N
    convert! this using 1
    funext k
    rw [smul_pow, pow_odd_of_cube h, smul_smul]
    rcases Nat.even_or_odd k with hk | hk
    · simp only [hk.neg_one_pow, one_mul]; congr 1; ring
    · simp only [hk.neg_one_pow, neg_mul, one_mul, smul_neg, neg_div, neg_smul]; congr 2; ring
  have heven : HasSum (fun k : ℕ => (((2 * k).factorial : ℝ)⁻¹) • (θ • N) ^ (2 * k))
      ((1 + N * N) + Real.cos θ • (-(N * N))) := by
    have h1 : HasSum (fun k : ℕ => if k = 0 then (1 + N * N : Matrix (Fin 3) (Fin 3) ℝ) else 0) (1 + N * N) :=
      hasSum_ite_eq 0 _
    have h2 := (Real.hasSum_cos θ).smul_const (-(N * N))
    convert! h1.add h2 using 1
    funext k
    cases k with
    | zero => simp
    | succ k =>
      rw [smul_pow, pow_even_of_cube h, smul_smul, if_neg (Nat.succ_ne_zero k), zero_add, pow_succ]
      rcases Nat.even_or_odd k with hk | hk
      · simp only [hk.neg_one_pow, one_mul, smul_neg, mul_neg, neg_mul, neg_div, neg_smul, neg_neg]
        congr 1; ring
      · simp only [hk.neg_one_pow, one_mul, smul_neg, mul_neg, neg_mul, neg_div, neg_smul, neg_neg]
        congr 2; ring
  have hs := NormedSpace.exp_series_hasSum_exp' (𝕂 := ℝ) (θ • N)
  refine (hs.unique (heven.even_add_odd hodd)).trans ?_
  rw [sub_smul, one_smul, smul_neg]
  abel

end rodrigues

/-! ## Algebra of rotations -/

theorem adjugate_of_rotation (R : Matrix (Fin 3) (Fin 3) ℝ) (h : IsRotation R) : R.adjugate = Rᵀ := by
  have h1 : Rᵀ * (R * R.adjugate) = Rᵀ * (R.det • 1) := by rw [mul_adjugate]
  rw [← Matrix.mul_assoc, h.1, h.2] at h1
  simpa using h1

/-- Cayley-Hamilton for a rotation. -/
theorem sq_of_rotation (R : Matrix (Fin 3) (Fin 3) ℝ) (h : IsRotation R) :
    R * R = R.trace • R - R.trace • (1 : Matrix (Fin 3) (Fin 3) ℝ) + Rᵀ := by
  have ha := adjugate_of_rotation R h
  rw [adjugate_fin_three] at ha
  have e := fun i j => congrFun (congrFun ha i) j
  have e00 := e 0 0; have e01 := e 0 1; have e02 := e 0 2
  have e10 := e 1 0; have e11 := e 1 1; have e12 := e 1 2
  have e20 := e 2 0; have e21 := e 2 1; have e22 := e 2 2
  simp only [of_apply, cons_val', cons_val_zero, cons_val_one, cons_val, transpose_apply] at e00 e01 e02 e10 e11 e12 e20 e21 e22
  ext i j
  fin_cases i <;> fin_cases j <;>
    simp [Matrix.mul_apply, Fin.sum_univ_three, trace_fin_three]
  · linear_combination -e11 - e22
  · linear_combination e01
  · linear_combination e02
  · linear_combination e10
  · linear_combination -e00 - e22
  · linear_combination e12
  · linear_combination e20
  · linear_combination e21
  · linear_combination -e00 - e11

/-- The skew part `A` of a rotation with cosine `c`: `(1+c)(R - 1 - A) = A²` and `A³ = -(1-c²) A`. -/
theorem skew_of_rotation (R : Matrix (Fin 3) (Fin 3) ℝ) (h : IsRotation R) (c : ℝ) (hc : R.trace = 1 + 2 * c) :
    let A := (1 / 2 : ℝ) • (R - Rᵀ)
    A * A = (1 + c) • (R - 1 - A) ∧ A * A * A = (-(1 - c ^ 2)) • A := by
  intro A
  have hR : Rᵀ * R = 1 := h.1
  have hR' : R * Rᵀ = 1 := mul_eq_one_comm.mp hR
  have h2 := sq_of_rotation R h
  have h2t : Rᵀ * Rᵀ = R.trace • Rᵀ - R.trace • (1 : Matrix (Fin 3) (Fin 3) ℝ) + R := by
    have := congrArg transpose h2
    simpa using this
  have hA2 : A * A = (1 + c) • (R - 1 - A) := by
    simp only [A, smul_mul_smul_comm, Matrix.sub_mul, Matrix.mul_sub, hR, hR', h2, h2t, hc]
    module
  refine ⟨hA2, ?_⟩
  have hRA : R * A = (1/2 : ℝ) • (R.trace • R - R.trace • (1 : Matrix (Fin 3) (Fin 3) ℝ) + Rᵀ - 1) := by
    simp only [A, Matrix.mul_smul, Matrix.mul_sub, hR', h2]
  rw [hA2, Matrix.smul_mul, Matrix.sub_mul, Matrix.sub_mul, hRA, Matrix.one_mul, hA2, hc]
  simp only [A]
  module

/-- A rotation whose cosine is 1 is the identity. -/
theorem rotation_eq_one (R : Matrix (Fin 3) (Fin 3) ℝ) (h : IsRotation R) (hc : R.trace = 3) : R = 1 := by
  have hR' : R * Rᵀ = 1 := mul_eq_one_comm.mp h.1
  have hz : ((R - 1) * (R - 1)ᵀ).trace = 0 := by
    rw [transpose_sub, transpose_one, Matrix.sub_mul, Matrix.mul_sub, Matrix.mul_sub, hR']
    simp [trace_sub, trace_transpose, hc]
  have : R - 1 = 0 := by
    rw [← Matrix.conjTranspose_eq_transpose_of_trivial] at hz
    exact (trace_mul_conjTranspose_self_eq_zero_iff).mp hz
  exact sub_eq_zero.mp this

/-- The cosine of a rotation lies between -1 and 1. -/
theorem cosine_range (R : Matrix (Fin 3) (Fin 3) ℝ) (h : IsRotation R) : -1 ≤ R.trace ∧ R.trace ≤ 3 := by
  have hR' : R * Rᵀ = 1 := mul_eq_one_comm.mp h.1
  obtain ⟨h1, -⟩ := skew_of_rotation R h ((R.trace - 1) / 2) (by ring)
  have ht := congrArg trace h1
  have hpos : 0 ≤ ((R - Rᵀ) * (R - Rᵀ)ᵀ).trace := by
    simp only [trace_fin_three, Matrix.mul_apply, Fin.sum_univ_three, transpose_apply]
    nlinarith [mul_self_nonneg ((R - Rᵀ) 0 0), mul_self_nonneg ((R - Rᵀ) 0 1), mul_self_nonneg ((R - Rᵀ) 0 2),
      mul_self_nonneg ((R - Rᵀ) 1 0), mul_self_nonneg ((R - Rᵀ) 1 1), mul_self_nonneg ((R - Rᵀ) 1 2),
      mul_self_nonneg ((R - Rᵀ) 2 0), mul_self_nonneg ((R - Rᵀ) 2 1), mul_self_nonneg ((R - Rᵀ) 2 2)]
  have hneg : ((R - Rᵀ) * (R - Rᵀ)ᵀ) = -((R - Rᵀ) * (R - Rᵀ)) := by
    rw [transpose_sub, transpose_transpose, ← Matrix.mul_neg, neg_sub]
  have htr : ((R - Rᵀ) * (R - Rᵀ)).trace = (1 + R.trace) * 2 * (R.trace - 3) := by
    simp only [smul_mul_smul_comm, trace_smul, trace_sub, trace_transpose, trace_one, sub_self, smul_eq_mul,
      Fintype.card_fin, Nat.cast_ofNat] at ht
    linear_combination 4 * ht
  have hub : 0 ≤ ((R - 1) * (R - 1)ᵀ).trace := by
    simp only [trace_fin_three, Matrix.mul_apply, Fin.sum_univ_three, transpose_apply]
    nlinarith [mul_self_nonneg ((R - 1) 0 0), mul_self_nonneg ((R - 1) 0 1), mul_self_nonneg ((R - 1) 0 2),
      mul_self_nonneg ((R - 1) 1 0), mul_self_nonneg ((R - 1) 1 1), mul_self_nonneg ((R - 1) 1 2),
      mul_self_nonneg ((R - 1) 2 0), mul_self_nonneg ((R - 1) 2 1), mul_self_nonneg ((R - 1) 2 2)]
  have hub' : ((R - 1) * (R - 1)ᵀ).trace = 6 - 2 * R.trace := by
    rw [transpose_sub, transpose_one, Matrix.sub_mul, Matrix.mul_sub, Matrix.mul_sub, hR']
    simp [trace_sub, trace_transpose]
    ring
  rw [hub'] at hub
  have h3 : R.trace ≤ 3 := by linarith
  rw [hneg, trace_neg, htr] at hpos
  refine ⟨?_, h3⟩
  by_contra hlt
  push Not at hlt
  nlinarith [mul_pos (show (0:ℝ) < -(1 + R.trace) by linarith) (show (0:ℝ) < 3 - R.trace by linarith)]

/-! ## The theorems -/

theorem trace_fullMat (a : Fin 9 → ℝ) : (fullMat a).trace = a 0 + a 1 + a 2 := by
  simp [fullMat, trace_fin_three]

/-- C104: for every rotation whose angle is not (within `10 eps` in the cosine) 180 degrees, `Log_Rotation`
writes a skew tensor whose exponential is the rotation, whatever the output held before. -/
theorem log_rotation_correct_partial (eps : ℝ) (r old : Fin 9 → ℝ) (hr : IsRotation (fullMat r))
    (hpi : 10 * eps ≤ ((fullMat r).trace + 1) / 2) (heps : 0 < eps) :
    IsLogOf (fullMat (logRotation eps r old)) (fullMat r) := by
  obtain ⟨hlo, hhi⟩ := cosine_range _ hr
  set c : ℝ := (1/2) * (r K_F_XX + r K_F_YY + r K_F_ZZ - 1) with hcdef
  have hct : (fullMat r).trace = 1 + 2 * c := by
    rw [trace_fullMat, hcdef]; simp only [K_F_XX, K_F_YY, K_F_ZZ]; ring
  rw [hct] at hlo hhi hpi
  have hc1 : ¬ c < -1 := by linarith
  have hc2 : ¬ c > 1 := by linarith
  have hcpos : 10 * eps ≤ c + 1 := by linarith
  unfold logRotation
  simp only [← hcdef, if_neg hc1, if_neg hc2]
  by_cases h0 : Real.arccos c = 0
  · rw [if_pos h0]
    have hc : c = 1 := le_antisymm (not_lt.mp hc2) (Real.arccos_eq_zero.mp h0)
    have h1 := rotation_eq_one _ hr (by rw [hct, hc]; norm_num)
    rw [h1]
    have hz : fullMat (zeroFull33 : Fin 9 → ℝ) = 0 := by
      ext i j
      fin_cases i <;> fin_cases j <;> simp [fullMat, zeroFull33, store9]
    rw [hz]
    exact ⟨by simp, NormedSpace.exp_zero⟩
  · rw [if_neg h0, if_neg (by rw [abs_of_nonneg (by linarith)]; linarith), multScalarFull33_spec, (symPart_skewPart_spec r).2.1]
    set θ := Real.arccos c with hθ
    have hcosθ : Real.cos θ = c := Real.cos_arccos (not_lt.mp hc1) (not_lt.mp hc2)
    have hθpos : 0 < θ := lt_of_le_of_ne (Real.arccos_nonneg c) (Ne.symm h0)
    have hθlt : θ < Real.pi := by
      refine lt_of_le_of_ne (Real.arccos_le_pi c) fun h => ?_
      rw [h, Real.cos_pi] at hcosθ
      linarith
    have hsin : 0 < Real.sin θ := Real.sin_pos_of_pos_of_lt_pi hθpos hθlt
    have hsq : Real.sin θ ^ 2 = 1 - c ^ 2 := by rw [← hcosθ]; linarith [Real.sin_sq_add_cos_sq θ]
    obtain ⟨hA2, hA3⟩ := skew_of_rotation _ hr c hct
    set A := (1 / 2 : ℝ) • (fullMat r - (fullMat r)ᵀ) with hA
    have hAt : Aᵀ = -A := by
      rw [hA, transpose_smul, transpose_sub, transpose_transpose, ← smul_neg, neg_sub]
    clear_value A
    have hN : ((Real.sin θ)⁻¹ • A) * ((Real.sin θ)⁻¹ • A) * ((Real.sin θ)⁻¹ • A) = -((Real.sin θ)⁻¹ • A) := by
      rw [smul_mul_smul_comm, smul_mul_smul_comm, hA3, smul_smul, ← hsq, ← neg_smul]
      congr 1
      field_simp
    have hexp := exp_rodrigues _ hN θ
    rw [smul_smul, smul_smul, smul_mul_smul_comm, hA2, smul_smul, smul_smul, mul_inv_cancel₀ hsin.ne', one_smul,
      ← div_eq_mul_inv] at hexp
    refine ⟨by rw [transpose_smul, hAt, smul_neg], ?_⟩
    rw [hexp]
    have hco : (1 - Real.cos θ) * ((Real.sin θ)⁻¹ * (Real.sin θ)⁻¹) * (1 + c) = 1 := by
      have : (Real.sin θ)⁻¹ * (Real.sin θ)⁻¹ = (1 - c ^ 2)⁻¹ := by rw [← hsq, pow_two, mul_inv]
      rw [this, hcosθ]
      have h1c : (1 - c ^ 2) ≠ 0 := by rw [← hsq]; positivity
      field_simp
      ring
    rw [hco, one_smul]
    abel

/-- The angle of the logarithm is the principal one: between 0 and 180 degrees, the one of the rotation. -/
theorem log_rotation_angle_partial (eps : ℝ) (r old : Fin 9 → ℝ) (hr : IsRotation (fullMat r))
    (hpi : 10 * eps ≤ ((fullMat r).trace + 1) / 2) (heps : 0 < eps) :
    ∃ θ, 0 ≤ θ ∧ θ < Real.pi ∧ (fullMat r).trace = 1 + 2 * Real.cos θ ∧
      (fullMat (logRotation eps r old) * fullMat (logRotation eps r old)).trace = -2 * θ ^ 2 := by
  obtain ⟨hlo, hhi⟩ := cosine_range _ hr
  set c : ℝ := (1/2) * (r K_F_XX + r K_F_YY + r K_F_ZZ - 1) with hcdef
  have hct : (fullMat r).trace = 1 + 2 * c := by
    rw [trace_fullMat, hcdef]; simp only [K_F_XX, K_F_YY, K_F_ZZ]; ring
  rw [hct] at hlo hhi hpi
  have hc1 : ¬ c < -1 := by linarith
  have hc2 : ¬ c > 1 := by linarith
  have hcosθ : Real.cos (Real.arccos c) = c := Real.cos_arccos (not_lt.mp hc1) (not_lt.mp hc2)
  have hθlt : Real.arccos c < Real.pi := by
    refine lt_of_le_of_ne (Real.arccos_le_pi c) fun h => ?_
    rw [h, Real.cos_pi] at hcosθ
    linarith
  refine ⟨Real.arccos c, Real.arccos_nonneg c, hθlt, by rw [hcosθ, hct], ?_⟩
  unfold logRotation
  simp only [← hcdef, if_neg hc1, if_neg hc2]
  by_cases h0 : Real.arccos c = 0
  · rw [if_pos h0, h0]
    have hz : fullMat (zeroFull33 : Fin 9 → ℝ) = 0 := by
      ext i j
      fin_cases i <;> fin_cases j <;> simp [fullMat, zeroFull33, store9]
    rw [hz]; simp
  · rw [if_neg h0, if_neg (by rw [abs_of_nonneg (by linarith)]; linarith), multScalarFull33_spec,
      (symPart_skewPart_spec r).2.1]
    obtain ⟨hA2, -⟩ := skew_of_rotation _ hr c hct
    have hsin : 0 < Real.sin (Real.arccos c) :=
      Real.sin_pos_of_pos_of_lt_pi (lt_of_le_of_ne (Real.arccos_nonneg c) (Ne.symm h0)) hθlt
    have hsq : Real.sin (Real.arccos c) ^ 2 = 1 - c ^ 2 := by
      have := Real.sin_sq_add_cos_sq (Real.arccos c); rw [hcosθ] at this; linarith
    rw [smul_mul_smul_comm, hA2]
    simp only [trace_smul, trace_sub, trace_transpose, trace_one, sub_self, smul_eq_mul, Fintype.card_fin, hct]
    generalize Real.arccos c = θ at *
    have : (1 + c) * (1 + 2 * c - (3 : ℕ) - 1 / 2 * 0) = -2 * Real.sin θ ^ 2 := by rw [hsq]; push_cast; ring
    rw [this]
    field_simp

/-- What a logarithm of a half turn about `n` looks like. -/
theorem exp_halfTurn (n : Fin 3 → ℝ) (hn : n 0 ^ 2 + n 1 ^ 2 + n 2 ^ 2 = 1) :
    IsLogOf (Real.pi • !![0, -n 2, n 1; n 2, 0, -n 0; -n 1, n 0, 0]) (halfTurn n) := by
  set N : Matrix (Fin 3) (Fin 3) ℝ := !![0, -n 2, n 1; n 2, 0, -n 0; -n 1, n 0, 0] with hN
  have hNt : Nᵀ = -N := by
    ext i j; fin_cases i <;> fin_cases j <;> simp [hN]
  have h2 : N * N = fun i j => n i * n j - if i = j then 1 else 0 := by
    ext i j
    fin_cases i <;> fin_cases j <;> simp [hN, Matrix.mul_apply, Fin.sum_univ_three] <;>
      first | ring1 | linear_combination hn | linear_combination -hn
  have h3 : N * N * N = -N := by
    ext i j
    rw [Matrix.mul_apply, Fin.sum_univ_three, h2]
    fin_cases i <;> fin_cases j <;> simp [hN] <;> ring
  refine ⟨by rw [transpose_smul, hNt, smul_neg], ?_⟩
  rw [exp_rodrigues N h3, Real.sin_pi, Real.cos_pi, h2]
  ext i j
  rw [Matrix.add_apply, Matrix.add_apply, Matrix.one_apply, zero_smul, Matrix.zero_apply]
  show _ + _ + _ * (n i * n j - if i = j then 1 else 0) = _
  unfold halfTurn
  split_ifs <;> ring

/-- Every half turn is a rotation with cosine -1. -/
theorem halfTurn_isRotation (n : Fin 3 → ℝ) (hn : n 0 ^ 2 + n 1 ^ 2 + n 2 ^ 2 = 1) :
    IsRotation (halfTurn n) ∧ (halfTurn n).trace = -1 := by
  refine ⟨⟨?_, ?_⟩, ?_⟩
  · ext i j
    fin_cases i <;> fin_cases j <;>
      simp [halfTurn, Matrix.mul_apply, Fin.sum_univ_three]
    · linear_combination 4 * n 0 * n 0 * hn
    · linear_combination 4 * n 0 * n 1 * hn
    · linear_combination 4 * n 0 * n 2 * hn
    · linear_combination 4 * n 1 * n 0 * hn
    · linear_combination 4 * n 1 * n 1 * hn
    · linear_combination 4 * n 1 * n 2 * hn
    · linear_combination 4 * n 2 * n 0 * hn
    · linear_combination 4 * n 2 * n 1 * hn
    · linear_combination 4 * n 2 * n 2 * hn
  · simp [halfTurn, det_fin_three]
    linear_combination 2 * hn
  · simp [halfTurn, trace_fin_three]
    linear_combination 2 * hn

/-- The rotation by 180 degrees: `Log_Rotation` leaves the output as it was. -/
theorem log_rotation_half_turn_unwritten (eps : ℝ) (heps : 0 < eps) (r old : Fin 9 → ℝ) (n : Fin 3 → ℝ)
    (hn : n 0 ^ 2 + n 1 ^ 2 + n 2 ^ 2 = 1) (hr : fullMat r = halfTurn n) : logRotation eps r old = old := by
  have ht := (halfTurn_isRotation n hn).2
  rw [← hr, trace_fullMat] at ht
  unfold logRotation
  have hc : (1/2) * (r K_F_XX + r K_F_YY + r K_F_ZZ - 1) = -1 := by
    simp only [K_F_XX, K_F_YY, K_F_ZZ]; linarith
  simp only [hc, lt_irrefl, if_false, show ¬ ((-1 : ℝ) > 1) by norm_num, Real.arccos_neg_one, Real.pi_ne_zero]
  rw [if_pos (by simpa using heps)]

/-- C104 as one would want it, refuted. -/
theorem log_rotation_refuted (eps : ℝ) (heps : 0 < eps) :
    ¬ ∀ r old : Fin 9 → ℝ, IsRotation (fullMat r) → IsLogOf (fullMat (logRotation eps r old)) (fullMat r) := by
  intro h
  set r : Fin 9 → ℝ := store9 (-1) 0 0 0 (-1) 0 0 0 1 with hr
  have hm : fullMat r = halfTurn ![0, 0, 1] := by
    rw [hr, fullMat_store9]
    ext i j
    fin_cases i <;> fin_cases j <;> simp [halfTurn] <;> norm_num
  have h1 := h r (fun _ => 1) (by rw [hm]; exact (halfTurn_isRotation _ (by simp)).1)
  rw [log_rotation_half_turn_unwritten eps heps r _ ![0, 0, 1] (by simp) hm] at h1
  have := congrFun (congrFun h1.1 0) 0
  simp [fullMat] at this
  norm_num at this

theorem store9_at {K : Type*} (xx xy xz yx yy yz zx zy zz : K) :
    store9 xx xy xz yx yy yz zx zy zz K_F_XX = xx ∧ store9 xx xy xz yx yy yz zx zy zz K_F_XY = xy ∧
    store9 xx xy xz yx yy yz zx zy zz K_F_XZ = xz ∧ store9 xx xy xz yx yy yz zx zy zz K_F_YX = yx ∧
    store9 xx xy xz yx yy yz zx zy zz K_F_YY = yy ∧ store9 xx xy xz yx yy yz zx zy zz K_F_YZ = yz ∧
    store9 xx xy xz yx yy yz zx zy zz K_F_ZX = zx ∧ store9 xx xy xz yx yy yz zx zy zz K_F_ZY = zy ∧
    store9 xx xy xz yx yy yz zx zy zz K_F_ZZ = zz := by
  refine ⟨?_, ?_, ?_, ?_, ?_, ?_, ?_, ?_, ?_⟩ <;> rfl

/-- `Log_Rotation_Pi` on a half turn about `n`: it returns a logarithm if the y or z component of the axis is
not tiny, and ends the program otherwise. -/
theorem log_rotation_pi_spec (eps : ℝ) (heps : 0 < eps) (r : Fin 9 → ℝ) (n : Fin 3 → ℝ)
    (hn : n 0 ^ 2 + n 1 ^ 2 + n 2 ^ 2 = 1) (hr : fullMat r = halfTurn n) :
    (eps ≤ 4 * |n 2| ∨ eps ≤ 4 * |n 1| → ∃ l, logRotationPi eps r = some l ∧ IsLogOf (fullMat l) (fullMat r)) ∧
    (4 * |n 2| < eps ∧ 4 * |n 1| < eps → logRotationPi eps r = none) := by
  have e := fun i j => congrFun (congrFun hr i) j
  have e00 := e 0 0; have e01 := e 0 1; have e02 := e 0 2
  have e10 := e 1 0; have e11 := e 1 1; have e12 := e 1 2
  have e20 := e 2 0; have e21 := e 2 1; have e22 := e 2 2
  simp [fullMat, halfTurn] at e00 e01 e02 e10 e11 e12 e20 e21 e22
  have key : ∀ (m : Fin 3 → ℝ) (t : ℝ), m 0 = t * n 0 → m 1 = t * n 1 → m 2 = t * n 2 →
      m 0 * m 0 + m 1 * m 1 + m 2 * m 2 = t ^ 2 := by
    intro m t h0 h1 h2
    rw [h0, h1, h2]; linear_combination t ^ 2 * hn
  have len : ∀ t : ℝ, (if t ^ 2 > 0 then Real.sqrt (t ^ 2) else t ^ 2) = |t| := by
    intro t
    split_ifs with h
    · exact Real.sqrt_sq_eq_abs t
    · have : t = 0 := by
        by_contra h0
        exact h (by positivity)
      simp [this]
  have wr : ∀ (t : ℝ), t ≠ 0 → ∃ s : ℝ, (s = 1 ∨ s = -1) ∧ ∀ i, t * n i / |t| = s * n i := by
    intro t ht
    rcases lt_or_gt_of_ne ht with h | h
    · exact ⟨-1, .inr rfl, fun i => by rw [abs_of_neg h]; field_simp⟩
    · exact ⟨1, .inl rfl, fun i => by rw [abs_of_pos h]; field_simp⟩
  have hcr1 : crossProduct ![r 0 - 1, r 3, r 8] ![r 6, r 1 - 1, r 4] = fun i => 4 * n 2 * n i := by
    funext i
    fin_cases i <;> simp [crossProduct, e00, e01, e02, e10, e11, e12]
    · ring
    · ring
    · linear_combination -4 * hn
  have hcr2 : crossProduct ![r 0 - 1, r 3, r 8] ![r 5, r 7, r 2 - 1] = fun i => -4 * n 1 * n i := by
    funext i
    fin_cases i <;> simp [crossProduct, e00, e01, e02, e20, e21, e22]
    · ring
    · linear_combination 4 * hn
    · ring
  have hlog : ∀ t : ℝ, t ≠ 0 → IsLogOf (fullMat (store9 0 (-(t * n 2 / |t|) * Real.arccos (-1))
      ((t * n 1 / |t|) * Real.arccos (-1)) ((t * n 2 / |t|) * Real.arccos (-1)) 0 (-(t * n 0 / |t|) * Real.arccos (-1))
      (-(t * n 1 / |t|) * Real.arccos (-1)) ((t * n 0 / |t|) * Real.arccos (-1)) 0)) (fullMat r) := by
    intro t ht
    obtain ⟨s, hs, hw⟩ := wr t ht
    have hs2 : s ^ 2 = 1 := by rcases hs with rfl | rfl <;> norm_num
    have h := exp_halfTurn (fun i => s * n i) (by linear_combination s ^ 2 * hn + hs2)
    have hht : halfTurn (fun i => s * n i) = fullMat r := by
      rw [hr]
      funext i j
      simp only [halfTurn]
      linear_combination 2 * n i * n j * hs2
    rw [hht] at h
    convert! h using 1
    rw [hw 0, hw 1, hw 2, Real.arccos_neg_one, fullMat_store9]
    ext i j
    fin_cases i <;> fin_cases j <;> simp <;> ring
  unfold logRotationPi
  obtain ⟨s1, s2, s3, s4, s5, s6, s7, s8, s9⟩ := store9_at (r K_F_XX - 1) (r K_F_XY) (r K_F_XZ)
    (r K_F_YX) (r K_F_YY - 1) (r K_F_YZ) (r K_F_ZX) (r K_F_ZY) (r K_F_ZZ - 1)
  simp only [s1, s2, s3, s4, s5, s6, s7, s8, s9]
  have hl1 := key (fun i => 4 * n 2 * n i) (4 * n 2) rfl rfl rfl
  have hl2 := key (fun i => -4 * n 1 * n i) (-4 * n 1) rfl rfl rfl
  simp only [K_F_XX, K_F_XY, K_F_XZ, K_F_YX, K_F_YY, K_F_YZ, K_F_ZX, K_F_ZY, K_F_ZZ, hcr1, hcr2]
  simp only [hl1, hl2, len]
  have ha1 : |4 * n 2| = 4 * |n 2| := by rw [abs_mul]; norm_num
  have ha2 : |-4 * n 1| = 4 * |n 1| := by rw [abs_mul]; norm_num
  constructor
  · intro h
    by_cases hlt : |4 * n 2| < eps
    · have h1 : |-4 * n 1| ≥ eps := by
        rw [ha1] at hlt; rw [ha2]
        rcases h with h | h
        · exact absurd h (not_le.mpr hlt)
        · exact h
      rw [if_pos hlt, if_pos h1]
      exact ⟨_, rfl, hlog _ (abs_pos.mp (lt_of_lt_of_le heps h1))⟩
    · rw [if_neg hlt]
      exact ⟨_, rfl, hlog _ (abs_pos.mp (lt_of_lt_of_le heps (not_lt.mp hlt)))⟩
  · rintro ⟨h1, h2⟩
    rw [if_pos (ha1 ▸ h1), if_neg (by rw [ha2]; exact not_le.mpr h2)]

/-- The half turn about the x axis ends the program. -/
theorem log_rotation_pi_refuted (eps : ℝ) (heps : 0 < eps) :
    ¬ ∀ (r : Fin 9 → ℝ) (n : Fin 3 → ℝ), n 0 ^ 2 + n 1 ^ 2 + n 2 ^ 2 = 1 → fullMat r = halfTurn n →
        ∃ l, logRotationPi eps r = some l := by
  intro h
  have hm : fullMat (store9 (1:ℝ) 0 0 0 (-1) 0 0 0 (-1)) = halfTurn ![1, 0, 0] := by
    rw [fullMat_store9]
    ext i j
    fin_cases i <;> fin_cases j <;> simp [halfTurn] <;> norm_num
  obtain ⟨l, hl⟩ := h _ ![1, 0, 0] (by simp) hm
  rw [(log_rotation_pi_spec eps heps _ ![1, 0, 0] (by simp) hm).2 ⟨by simpa using heps, by simpa using heps⟩] at hl
  simp at hl

/-! ## Concrete cases -/

/-- The rotation by 90 degrees about the z axis meets the hypotheses of `log_rotation_correct_partial`, with
the `eps` of `double`. -/
example : IsRotation (fullMat (store9 (0:ℝ) (-1) 0 1 0 0 0 0 1)) ∧
    10 * (2:ℝ) ^ (-52 : ℤ) ≤ ((fullMat (store9 (0:ℝ) (-1) 0 1 0 0 0 0 1)).trace + 1) / 2 := by
  rw [fullMat_store9]
  refine ⟨⟨?_, ?_⟩, ?_⟩
  · ext i j
    fin_cases i <;> fin_cases j <;> simp [Matrix.mul_apply, Fin.sum_univ_three]
  · simp [det_fin_three]
  · simp [trace_fin_three]; norm_num

/-- A half turn about an oblique axis with the hypothesis of the positive part of `log_rotation_pi_spec`. -/
example : (![3/5, 0, 4/5] : Fin 3 → ℝ) 0 ^ 2 + (![3/5, 0, 4/5] : Fin 3 → ℝ) 1 ^ 2 + (![3/5, 0, 4/5] : Fin 3 → ℝ) 2 ^ 2 = 1 ∧
    (2:ℝ) ^ (-52 : ℤ) ≤ 4 * |(![3/5, 0, 4/5] : Fin 3 → ℝ) 2| := by
  constructor
  · simp; norm_num
  · simp; rw [abs_of_pos (by norm_num : (0:ℝ) < 4/5)]; norm_num

end NimbleSM.Tensor
