import Verif.Assembly.TransformProps
import Verif.Material.NeohookeanProps

/-!
# C114-C118, the stresses of the two material laws in corresponding states
-/

open scoped BigOperators

namespace NimbleSM.Assembly

open Matrix NimbleSM.Hex NimbleSM.Tensor NimbleSM.Constitutive

section Elastic

variable {K : Type*} [Field K] [LinearOrder K] [IsStrictOrderedRing K]

theorem det_smul3 (s : K) (R : Matrix (Fin 3) (Fin 3) K) (hR : R.det = 1) : (s • R).det = s ^ 3 := by
  rw [Matrix.det_smul, hR, mul_one]; simp

/-- From `F' (sA) = (sB) F` for rotations `A`, `B`. -/
theorem conj_of_corresponding {F F' A B : Matrix (Fin 3) (Fin 3) K} {s : K} (hs : s ≠ 0) (hA : A * Aᵀ = 1)
    (h : F' * (s • A) = (s • B) * F) : F' = B * F * Aᵀ := by
  rw [Matrix.mul_smul, Matrix.smul_mul] at h
  have h1 : F' * A = B * F := smul_right_injective _ hs h
  rw [← h1, Matrix.mul_assoc, hA, Matrix.mul_one]

/-- The elastic law in rotated axes and other units. -/
theorem elastic_corresponding (m m' : Material K) (κ s : K) (hs : s ≠ 0) (R : Matrix (Fin 3) (Fin 3) K) (hR : R * Rᵀ = 1)
    (hdet : R.det = 1) (hb : m'.bulk = κ * m.bulk) (hg : m'.shear = κ * m.shear) (D : Matrix (Fin 3) (Fin 3) K → Prop) :
    Corresponding (fun F => some (elasticStress m F)) (fun F => some (elasticStress m' F)) D (s • R) (s • R)
      ((κ * s ^ 2) • Rᵀ) := by
  intro F F' σ _ hF hσ
  refine ⟨_, rfl, ?_⟩
  obtain rfl := Option.some.inj hσ
  have h1 := elastic_stress_isotropic m F F' R hR (conj_of_corresponding hs hR hF)
  have h2 : symMat (elasticStress m' F') = κ • symMat (elasticStress m F') := by
    rw [elastic_stress_spec, elastic_stress_spec, hb, hg, hooke, hooke, smul_add, smul_smul, smul_smul]
    congr 2 <;> ring
  rw [h2, h1, det_smul3 s R hdet, smul_smul, Matrix.mul_smul, Matrix.smul_mul, Matrix.smul_mul, smul_smul]
  congr 1; ring

end Elastic

/-- The deformation gradients at which the neo-Hookean law is evaluated exactly (C30): positive determinant, and the principal
stretches are equal or distinguishable by the solver. -/
def NeoDomain (M : Matrix (Fin 3) (Fin 3) ℝ) : Prop :=
  0 < M.det ∧ ∀ F inv d, fullMat F = M → invertFull33 F = some (inv, d) → Resolved (squareFull33TFull33 inv)

theorem neoHooke_isotropic (k g : ℝ) (F A : Matrix (Fin 3) (Fin 3) ℝ) (hA : A * Aᵀ = 1) (hdet : A.det = 1) :
    neoHooke k g (F * Aᵀ) = neoHooke k g F := by
  have h1 : (F * Aᵀ).det = F.det := by rw [Matrix.det_mul, Matrix.det_transpose, hdet, mul_one]
  have h2 : F * Aᵀ * (F * Aᵀ)ᵀ = F * Fᵀ := by
    rw [Matrix.transpose_mul, Matrix.transpose_transpose, Matrix.mul_assoc, ← Matrix.mul_assoc Aᵀ, mul_eq_one_comm.mp hA,
      Matrix.one_mul]
  rw [neoHooke, neoHooke, h1, h2]

theorem neoDomain_conj (M A B : Matrix (Fin 3) (Fin 3) ℝ) (hA : A * Aᵀ = 1) (hAd : A.det = 1) (hB : B * Bᵀ = 1)
    (hBd : B.det = 1) (h : NeoDomain M) : NeoDomain (B * M * Aᵀ) := by
  have hA' : Aᵀ * A = 1 := mul_eq_one_comm.mp hA
  have hB' : Bᵀ * B = 1 := mul_eq_one_comm.mp hB
  have hd : (B * M * Aᵀ).det = M.det := by
    rw [Matrix.det_mul, Matrix.det_mul, Matrix.det_transpose, hAd, hBd, one_mul, mul_one]
  refine ⟨by rw [hd]; exact h.1, ?_⟩
  intro F' inv' d hF' hi'
  obtain ⟨F, hF⟩ : ∃ F : Fin 9 → ℝ, fullMat F = M := by
    refine ⟨![M 0 0, M 1 1, M 2 2, M 0 1, M 1 2, M 2 0, M 1 0, M 2 1, M 0 2], ?_⟩
    ext i j
    fin_cases i <;> fin_cases j <;> rfl
  have hFpos : 0 < (fullMat F).det := by rw [hF]; exact h.1
  have hFpos' : 0 < (fullMat F').det := by rw [hF', hd]; exact h.1
  obtain ⟨inv, hinv, hFi, hiF⟩ := invertFull33_of_det_pos F hFpos
  obtain ⟨inv'', h'', hFi', hiF'⟩ := invertFull33_of_det_pos F' hFpos'
  rw [hi'] at h''
  have e := (Prod.mk.injEq _ _ _ _).mp (Option.some.inj h'')
  rw [e.1]
  refine (resolved_conj (squareFull33TFull33 inv) _ B hB ?_).mpr (h.2 F _ _ hF hinv)
  have hi : fullMat inv'' = A * fullMat inv * Bᵀ := by
    have h1 : fullMat F' * (A * fullMat inv * Bᵀ) = 1 := by
      rw [hF', ← hF]
      calc B * fullMat F * Aᵀ * (A * fullMat inv * Bᵀ) = B * fullMat F * (Aᵀ * A) * fullMat inv * Bᵀ := by
            simp only [Matrix.mul_assoc]
        _ = 1 := by
            rw [hA', Matrix.mul_one, Matrix.mul_assoc B, hFi, Matrix.mul_one, hB]
    calc fullMat inv'' = fullMat inv'' * (fullMat F' * (A * fullMat inv * Bᵀ)) := by rw [h1, Matrix.mul_one]
      _ = _ := by rw [← Matrix.mul_assoc, hiF', Matrix.one_mul]
  rw [squareFull33TFull33_spec, squareFull33TFull33_spec, hi]
  simp only [Matrix.transpose_mul, Matrix.transpose_transpose]
  calc B * ((fullMat inv)ᵀ * Aᵀ) * (A * fullMat inv * Bᵀ) = B * ((fullMat inv)ᵀ * (Aᵀ * A) * fullMat inv) * Bᵀ := by
        simp only [Matrix.mul_assoc]
    _ = _ := by rw [hA', Matrix.mul_one]

/-- The neo-Hookean law in rotated axes (reference `A`, current `B`) and other units. -/
theorem neohookean_corresponding_partial (f : ℝ → ℝ) (hf : IsCosThird f) (m m' : Material ℝ) (κ s : ℝ) (hs : s ≠ 0)
    (A B : Matrix (Fin 3) (Fin 3) ℝ) (hA : A * Aᵀ = 1) (hAd : A.det = 1) (hB : B * Bᵀ = 1) (hBd : B.det = 1)
    (hb : m'.bulk = κ * m.bulk) (hg : m'.shear = κ * m.shear) :
    Corresponding (neohookeanStress f m) (neohookeanStress f m') NeoDomain (s • A) (s • B) ((κ * s ^ 2) • Bᵀ) := by
  intro F F' σ hD hF hσ
  have hF' := conj_of_corresponding hs hA hF
  have hD' := neoDomain_conj _ A B hA hAd hB hBd hD
  rw [← hF'] at hD'
  obtain ⟨σ0, h1, h2⟩ := neohookean_stress_formula_partial f hf m F hD.1 (fun inv d h => hD.2 F inv d rfl h)
  obtain ⟨σ', h1', h2'⟩ := neohookean_stress_formula_partial f hf m' F' hD'.1 (fun inv d h => hD'.2 F' inv d rfl h)
  rw [hσ] at h1
  obtain rfl := Option.some.inj h1
  refine ⟨σ', h1', ?_⟩
  have h3 : neoHooke m'.bulk m'.shear (fullMat F') = κ • (B * symMat σ * Bᵀ) := by
    rw [hF', neoHooke_isotropic _ _ _ A hA hAd, neoHooke_objective _ _ _ _ hB hBd, h2, hb, hg]
    have : neoHooke (κ * m.bulk) (κ * m.shear) (fullMat F) = κ • neoHooke m.bulk m.shear (fullMat F) := by
      unfold neoHooke
      rw [smul_add, smul_smul, smul_smul]
      congr 2 <;> ring
    rw [this, Matrix.mul_smul, Matrix.smul_mul]
  rw [h2', h3, det_smul3 s B hBd, smul_smul, Matrix.mul_smul, Matrix.smul_mul, Matrix.smul_mul, smul_smul]
  congr 1; ring

end NimbleSM.Assembly
