import Verif.Material.NeohookeanProps
import Verif.Tensor.PolarPadeProps
import Mathlib.Analysis.Matrix.PosDef

/-!
# C30: neo-Hookean material with the code's own eigensolver

`neoHooke` (MaterialProps.lean) is the compressible neo-Hookean law.
-/

namespace NimbleSM.Constitutive

open Matrix NimbleSM.Tensor

/-- **C30 (the code's approximation).**  For every deformation gradient with positive determinant
and with the conditioning required by `polarDecomp_pade`, the stress the code computes is exactly the
neo-Hookean stress of a deformation gradient `F'` (of positive determinant) whose left Cauchy-Green
tensor is that of `F` up to the relative error `1e-15 M / (m - 1e-15 M)`; in particular the mean
stress is exactly `K/2 (J' - 1/J')` with `J' = det F'`. -/
theorem neohookean_stress_pade (mat : Material ℝ) (F : Fin 9 → ℝ) (hF : 0 < (fullMat F).det)
    (m M : ℝ) (hM : 0 ≤ M)
    (hlow : ∀ x : Fin 3 → ℝ, m * ((fullMat F *ᵥ x) ⬝ᵥ (fullMat F *ᵥ x)) ≤ x ⬝ᵥ x)
    (hup : frobSq ((fullMat F * (fullMat F)ᵀ)⁻¹) ≤ M ^ 2) (hcond : 1e-15 * M < m) :
    let η := 1e-15 * M / (m - 1e-15 * M)
    ∃ σ, neohookeanStress padeCos mat F = some σ ∧
      ∃ F' : Matrix (Fin 3) (Fin 3) ℝ, 0 < F'.det ∧
        (∀ x : Fin 3 → ℝ, ((F' * F'ᵀ - fullMat F * (fullMat F)ᵀ) *ᵥ x) ⬝ᵥ
          ((F' * F'ᵀ - fullMat F * (fullMat F)ᵀ) *ᵥ x)
            ≤ η ^ 2 * (((fullMat F * (fullMat F)ᵀ) *ᵥ x) ⬝ᵥ ((fullMat F * (fullMat F)ᵀ) *ᵥ x))) ∧
        symMat σ = neoHooke mat.bulk mat.shear F' ∧
        (σ 0 + σ 1 + σ 2) / 3 = mat.bulk * (F'.det - 1 / F'.det) / 2 := by
  intro η
  obtain ⟨V, R, hVR, hpos, -, hV2, -, -⟩ := polarDecomp_pade F hF m M hM hlow hup hcond
  have hVt : (symMat V)ᵀ = symMat V := symMat_transpose V
  have hd : 0 < (symMat V).det := by
    have hp : (symMat V).PosDef := by
      refine Matrix.PosDef.of_dotProduct_mulVec_pos ?_ ?_
      · rw [Matrix.IsHermitian, Matrix.conjTranspose_eq_transpose_of_trivial, hVt]
      · intro x hx
        simpa using hpos x hx
    exact hp.det_pos
  have hσ := stressOfStretch_spec mat V hd
  have hnh : symMat (stressOfStretch mat V) = neoHooke mat.bulk mat.shear (symMat V) := by
    rw [hσ, neoHooke, hVt]
  refine ⟨stressOfStretch mat V, by rw [neohookeanStress, hVR]; rfl, symMat V, hd, ?_, hnh, ?_⟩
  · rw [hVt]; exact hV2
  · have ht := congrArg Matrix.trace hnh
    rw [neoHooke, Matrix.trace_add, Matrix.trace_smul, Matrix.trace_smul, trace_dev] at ht
    have hl : (symMat (stressOfStretch mat V)).trace
        = stressOfStretch mat V 0 + stressOfStretch mat V 1 + stressOfStretch mat V 2 := by
      simp [symMat, Matrix.trace, Fin.sum_univ_three]
    rw [hl] at ht
    rw [ht]
    simp [Matrix.trace_one]
    ring

/-- Non-vacuity: a sheared and stretched configuration. -/
example (mat : Material ℝ) : ∃ σ, neohookeanStress padeCos mat
    (store9 2 1 0 0 1 0 0 0 3 : Fin 9 → ℝ) = some σ ∧ ∃ F', 0 < F'.det ∧
      symMat σ = neoHooke mat.bulk mat.shear F' := by
  have hm : fullMat (store9 2 1 0 0 1 0 0 0 3 : Fin 9 → ℝ) = !![2, 1, 0; 0, 1, 0; 0, 0, 3] :=
    fullMat_store9 _ _ _ _ _ _ _ _ _
  have hB : (!![2, 1, 0; 0, 1, 0; 0, 0, 3] : Matrix (Fin 3) (Fin 3) ℝ)
      * (!![2, 1, 0; 0, 1, 0; 0, 0, 3] : Matrix (Fin 3) (Fin 3) ℝ)ᵀ
      = !![5, 1, 0; 1, 1, 0; 0, 0, 9] := by
    ext i j
    fin_cases i <;> fin_cases j <;>
      simp [Matrix.mul_apply, Fin.sum_univ_three, Matrix.transpose_apply] <;> norm_num
  have hI : (!![5, 1, 0; 1, 1, 0; 0, 0, 9] : Matrix (Fin 3) (Fin 3) ℝ)⁻¹
      = !![1/4, -1/4, 0; -1/4, 5/4, 0; 0, 0, 1/9] := by
    apply Matrix.inv_eq_left_inv
    ext i j
    fin_cases i <;> fin_cases j <;>
      simp [Matrix.mul_apply, Fin.sum_univ_three, Matrix.one_apply] <;> norm_num
  obtain ⟨σ, h1, F', h2, -, h3, -⟩ := neohookean_stress_pade mat (store9 2 1 0 0 1 0 0 0 3)
    (by rw [hm, Matrix.det_fin_three]; simp) (1 / 20) 2 (by norm_num)
    (by
      intro x
      rw [hm]
      simp [Matrix.mulVec, dotProduct, Fin.sum_univ_three]
      nlinarith [sq_nonneg (x 0 - 2 * x 1), sq_nonneg (x 0), sq_nonneg (x 1), sq_nonneg (x 2)])
    (by rw [hm, hB, hI]; simp [frobSq, Fin.sum_univ_three]; norm_num) (by norm_num)
  exact ⟨σ, h1, F', h2, h3⟩

end NimbleSM.Constitutive
