import Verif.Material.MaterialProps

/-!
# C30: neo-Hookean material
-/

set_option linter.unusedSimpArgs false

namespace NimbleSM.Constitutive

open Matrix NimbleSM.Tensor

theorem cbrt_sq_inv {x : ℝ} (hx : 0 < x) : 1 / (cbrt x * cbrt x) = x ^ (-(2 : ℝ) / 3) := by
  have : cbrt x = x ^ ((1 : ℝ) / 3) := by rw [cbrt, if_neg (not_lt.mpr hx.le)]
  rw [this, ← Real.rpow_add hx, one_div, ← Real.rpow_neg hx.le]
  norm_num

theorem symMat_det (v : Fin 6 → ℝ) : (symMat v).det =
    v 0 * v 1 * v 2 + 2 * v 3 * v 4 * v 5 - v 0 * v 4 * v 4 - v 1 * v 5 * v 5 - v 2 * v 3 * v 3 := by
  rw [Matrix.det_fin_three]
  simp [symMat]; ring

/-- The stress computed from the left stretch. -/
theorem stressOfStretch_spec (m : Material ℝ) (v : Fin 6 → ℝ) (hJ : 0 < (symMat v).det) :
    symMat (stressOfStretch m v)
      = (m.bulk / 2 * ((symMat v).det - 1 / (symMat v).det)) • 1 +
        (m.shear / (symMat v).det) •
          dev (((symMat v).det ^ (-(2 : ℝ) / 3)) • (symMat v * symMat v)) := by
  have hd := symMat_det v
  unfold stressOfStretch
  simp only [K_S_XX, K_S_YY, K_S_ZZ, K_S_XY, K_S_YZ, K_S_ZX, K_S_YX, K_S_ZY, K_S_XZ]
  rw [← hd, cbrt_sq_inv hJ]
  generalize (symMat v).det = J at hJ
  generalize J ^ (-(2 : ℝ) / 3) = fac
  ext i j
  fin_cases i <;> fin_cases j <;>
    simp [symMat, store6, dev, Matrix.mul_apply, Matrix.trace, Fin.sum_univ_three,
      K_S_XX, K_S_YY, K_S_ZZ, K_S_XY, K_S_YZ, K_S_ZX] <;> ring

/-- **C30.**  For every deformation gradient with positive determinant (for which the eigensolver is
exact: `IsCosThird`, `Resolved`; see C55) the stress is that of the compressible neo-Hookean law. -/
theorem neohookean_stress_formula_partial (f : ℝ → ℝ) (hf : IsCosThird f) (m : Material ℝ)
    (F : Fin 9 → ℝ) (hF : 0 < (fullMat F).det)
    (hres : ∀ inv d, invertFull33 F = some (inv, d) → Resolved (squareFull33TFull33 inv)) :
    ∃ σ, neohookeanStress f m F = some σ ∧ symMat σ = neoHooke m.bulk m.shear (fullMat F) := by
  obtain ⟨V, R, hVR, hFVR, hR, hRdet, hpos, hV2⟩ := polarDecomp_correct_partial f hf F hF hres
  refine ⟨stressOfStretch m V, by rw [neohookeanStress, hVR]; rfl, ?_⟩
  have hdet : (symMat V).det = (fullMat F).det := by
    rw [hFVR, Matrix.det_mul, hRdet, mul_one]
  rw [stressOfStretch_spec m V (by rw [hdet]; exact hF), hdet, hV2, neoHooke]

theorem trace_dev (A : Matrix (Fin 3) (Fin 3) ℝ) : (dev A).trace = 0 := by
  simp [dev, Matrix.trace_sub, Matrix.trace_smul]

/-- **C30.**  Mean stress: half the bulk modulus times `J - 1/J`. -/
theorem neohookean_pressure_partial (f : ℝ → ℝ) (hf : IsCosThird f) (m : Material ℝ)
    (F : Fin 9 → ℝ) (hF : 0 < (fullMat F).det)
    (hres : ∀ inv d, invertFull33 F = some (inv, d) → Resolved (squareFull33TFull33 inv)) :
    ∃ σ, neohookeanStress f m F = some σ ∧
      (σ 0 + σ 1 + σ 2) / 3 = m.bulk * ((fullMat F).det - 1 / (fullMat F).det) / 2 := by
  obtain ⟨σ, h1, h2⟩ := neohookean_stress_formula_partial f hf m F hF hres
  refine ⟨σ, h1, ?_⟩
  have ht := congrArg Matrix.trace h2
  rw [neoHooke, Matrix.trace_add, Matrix.trace_smul, Matrix.trace_smul, trace_dev] at ht
  simp [symMat, Matrix.trace, Fin.sum_univ_three] at ht
  rw [ht]; ring

theorem dev_conj (A Q : Matrix (Fin 3) (Fin 3) ℝ) (hQ : Q * Qᵀ = 1) :
    dev (Q * A * Qᵀ) = Q * dev A * Qᵀ := by
  have hQ' : Qᵀ * Q = 1 := mul_eq_one_comm.mp hQ
  have h2 : (Q * A * Qᵀ).trace = A.trace := by
    rw [Matrix.trace_mul_comm, ← Matrix.mul_assoc, hQ', Matrix.one_mul]
  rw [dev, dev, h2, Matrix.mul_sub, Matrix.sub_mul, Matrix.mul_smul, Matrix.smul_mul, Matrix.mul_one,
    hQ]

/-- The neo-Hookean law is objective. -/
theorem neoHooke_objective (k g : ℝ) (F Q : Matrix (Fin 3) (Fin 3) ℝ) (hQ : Q * Qᵀ = 1)
    (hdet : Q.det = 1) : neoHooke k g (Q * F) = Q * neoHooke k g F * Qᵀ := by
  have hdF : (Q * F).det = F.det := by rw [Matrix.det_mul, hdet, one_mul]
  have hB : Q * F * (Q * F)ᵀ = Q * (F * Fᵀ) * Qᵀ := by
    rw [Matrix.transpose_mul]; simp only [Matrix.mul_assoc]
  have h1 : (F.det ^ (-(2 : ℝ) / 3)) • (Q * (F * Fᵀ) * Qᵀ)
      = Q * ((F.det ^ (-(2 : ℝ) / 3)) • (F * Fᵀ)) * Qᵀ := by
    rw [Matrix.mul_smul, Matrix.smul_mul]
  rw [neoHooke, neoHooke, hdF, hB, h1, dev_conj _ _ hQ, Matrix.mul_add, Matrix.add_mul,
    Matrix.mul_smul, Matrix.smul_mul, Matrix.mul_smul, Matrix.smul_mul, Matrix.mul_one, hQ]

/-! ### `Resolved` is a rotation invariant -/

theorem meanDiag_eq (T : Fin 6 → ℝ) : meanDiag T = (symMat T).trace / 3 := by
  simp [meanDiag, symMat, Matrix.trace, Fin.sum_univ_three]

theorem devNorm_eq (T : Fin 6 → ℝ) :
    devNorm T = ((symMat T * symMat T).trace - (symMat T).trace ^ 2 / 3) / 2 := by
  simp [devNorm, meanDiag, symMat, Matrix.trace, Matrix.mul_apply, Fin.sum_univ_three]
  ring

theorem resolved_conj (T T' : Fin 6 → ℝ) (Q : Matrix (Fin 3) (Fin 3) ℝ) (hQ : Q * Qᵀ = 1)
    (h : symMat T' = Q * symMat T * Qᵀ) : Resolved T' ↔ Resolved T := by
  have hQ' : Qᵀ * Q = 1 := mul_eq_one_comm.mp hQ
  have tr : ∀ A, (Q * A * Qᵀ).trace = A.trace := fun A => by
    rw [Matrix.trace_mul_comm, ← Matrix.mul_assoc, hQ', Matrix.one_mul]
  have sq : symMat T' * symMat T' = Q * (symMat T * symMat T) * Qᵀ := by
    rw [h]
    calc Q * symMat T * Qᵀ * (Q * symMat T * Qᵀ)
        = Q * symMat T * (Qᵀ * Q) * symMat T * Qᵀ := by simp only [Matrix.mul_assoc]
      _ = _ := by rw [hQ', Matrix.mul_one]; simp only [Matrix.mul_assoc]
  rw [Resolved, Resolved, devNorm_eq, devNorm_eq, meanDiag_eq, meanDiag_eq, sq, h, tr, tr]

/-- **C30.**  Objectivity: `σ(QF) = Q σ(F) Qᵀ` for every rotation `Q`. -/
theorem neohookean_objective_partial (f : ℝ → ℝ) (hf : IsCosThird f) (m : Material ℝ)
    (F F' : Fin 9 → ℝ) (Q : Matrix (Fin 3) (Fin 3) ℝ) (hQ : Q * Qᵀ = 1) (hdet : Q.det = 1)
    (hF : 0 < (fullMat F).det) (hF' : fullMat F' = Q * fullMat F)
    (hres : ∀ inv d, invertFull33 F = some (inv, d) → Resolved (squareFull33TFull33 inv)) :
    ∃ σ σ', neohookeanStress f m F = some σ ∧ neohookeanStress f m F' = some σ' ∧
      symMat σ' = Q * symMat σ * Qᵀ := by
  have hpos' : 0 < (fullMat F').det := by rw [hF', Matrix.det_mul, hdet, one_mul]; exact hF
  obtain ⟨inv, hinv, hFi, hiF⟩ := invertFull33_of_det_pos F hF
  have hres' : ∀ inv' d, invertFull33 F' = some (inv', d) → Resolved (squareFull33TFull33 inv') := by
    intro inv' d h
    obtain ⟨inv'', h'', hFi', hiF'⟩ := invertFull33_of_det_pos F' hpos'
    rw [h] at h''
    have e := (Prod.mk.injEq _ _ _ _).mp (Option.some.inj h'')
    rw [e.1]
    refine (resolved_conj (squareFull33TFull33 inv) _ Q hQ ?_).mpr (hres _ _ hinv)
    have hQ' : Qᵀ * Q = 1 := mul_eq_one_comm.mp hQ
    have hi : fullMat inv'' = fullMat inv * Qᵀ := by
      calc fullMat inv'' = fullMat inv'' * (fullMat F' * (fullMat inv * Qᵀ)) := by
            rw [hF']
            have : Q * fullMat F * (fullMat inv * Qᵀ) = Q * (fullMat F * fullMat inv) * Qᵀ := by
              simp only [Matrix.mul_assoc]
            rw [this, hFi, Matrix.mul_one, hQ, Matrix.mul_one]
        _ = _ := by rw [← Matrix.mul_assoc, hiF', Matrix.one_mul]
    rw [squareFull33TFull33_spec, squareFull33TFull33_spec, hi, Matrix.transpose_mul,
      Matrix.transpose_transpose]
    simp only [Matrix.mul_assoc]
  obtain ⟨σ, h1, h2⟩ := neohookean_stress_formula_partial f hf m F hF hres
  obtain ⟨σ', h1', h2'⟩ := neohookean_stress_formula_partial f hf m F' hpos' hres'
  exact ⟨σ, σ', h1, h1', by rw [h2', h2, hF', neoHooke_objective _ _ _ _ hQ hdet]⟩

/-! ### Isotropic stretches: no trigonometry involved -/

theorem eigen_isotropic_congr (f g : ℝ → ℝ) (T : Fin 6 → ℝ) (hT : devNorm T = 0) :
    eigenSym33NonUnit f T = eigenSym33NonUnit g T := by
  have hc2 : (T 0 - (T 0 + T 1 + T 2) / 3) * (T 1 - (T 0 + T 1 + T 2) / 3) +
      (T 1 - (T 0 + T 1 + T 2) / 3) * (T 2 - (T 0 + T 1 + T 2) / 3) +
      (T 2 - (T 0 + T 1 + T 2) / 3) * (T 0 - (T 0 + T 1 + T 2) / 3)
      - T 3 * T 3 - T 4 * T 4 - T 5 * T 5 = 0 := by
    have : devNorm T = -((T 0 - (T 0 + T 1 + T 2) / 3) * (T 1 - (T 0 + T 1 + T 2) / 3) +
      (T 1 - (T 0 + T 1 + T 2) / 3) * (T 2 - (T 0 + T 1 + T 2) / 3) +
      (T 2 - (T 0 + T 1 + T 2) / 3) * (T 0 - (T 0 + T 1 + T 2) / 3)
      - T 3 * T 3 - T 4 * T 4 - T 5 * T 5) := by
      rw [devNorm, meanDiag]; ring
    linarith
  have hlt : ¬ ((T 0 - (T 0 + T 1 + T 2) / 3) * (T 1 - (T 0 + T 1 + T 2) / 3) +
      (T 1 - (T 0 + T 1 + T 2) / 3) * (T 2 - (T 0 + T 1 + T 2) / 3) +
      (T 2 - (T 0 + T 1 + T 2) / 3) * (T 0 - (T 0 + T 1 + T 2) / 3)
      - T 3 * T 3 - T 4 * T 4 - T 5 * T 5
      < ((T 0 + T 1 + T 2) / 3 * ((T 0 + T 1 + T 2) / 3)) * (-1.0e-30)) := by
    rw [hc2, not_lt]
    have := mul_self_nonneg ((T 0 + T 1 + T 2) / 3)
    nlinarith
  unfold eigenSym33NonUnit
  simp only [K_S_XX, K_S_YY, K_S_ZZ, K_S_XY, K_S_YZ, K_S_ZX, hlt, if_false]

/-- **C30, no approximation involved.**  For a rotated dilatation `F = s Q` (in particular for the
identity and for every rigid rotation) the code as written, with its Padé approximation or any other
function in its place, returns exactly the neo-Hookean stress. -/
theorem neohookean_dilatation (f : ℝ → ℝ) (m : Material ℝ) (F : Fin 9 → ℝ) (s : ℝ) (hs : 0 < s)
    (Q : Matrix (Fin 3) (Fin 3) ℝ) (hQ : Q * Qᵀ = 1) (hdet : Q.det = 1) (hF : fullMat F = s • Q) :
    ∃ σ, neohookeanStress f m F = some σ ∧
      symMat σ = (m.bulk / 2 * (s ^ 3 - 1 / s ^ 3)) • 1 := by
  have hQ' : Qᵀ * Q = 1 := mul_eq_one_comm.mp hQ
  have hdF : (fullMat F).det = s ^ 3 := by
    rw [hF, Matrix.det_smul, hdet, mul_one]; simp
  have hpos : 0 < (fullMat F).det := by rw [hdF]; positivity
  obtain ⟨inv, hinv, hFi, hiF⟩ := invertFull33_of_det_pos F hpos
  have hi : fullMat inv = (1 / s) • Qᵀ := by
    calc fullMat inv = fullMat inv * (fullMat F * ((1 / s) • Qᵀ)) := by
          rw [hF, Matrix.smul_mul, Matrix.mul_smul Q, hQ, smul_smul,
            mul_one_div_cancel hs.ne', one_smul, Matrix.mul_one]
      _ = _ := by rw [← Matrix.mul_assoc, hiF, Matrix.one_mul]
  have hT : symMat (squareFull33TFull33 inv) = (1 / s ^ 2) • 1 := by
    rw [squareFull33TFull33_spec, hi, Matrix.transpose_smul, Matrix.transpose_transpose,
      Matrix.smul_mul, Matrix.mul_smul, hQ, smul_smul]
    congr 1; field_simp
  have hdev : devNorm (squareFull33TFull33 inv) = 0 := by
    rw [devNorm_eq, hT, Matrix.smul_mul, Matrix.one_mul, smul_smul, Matrix.trace_smul,
      Matrix.trace_smul, Matrix.trace_one]
    simp; ring
  have hcongr : neohookeanStress f m F
      = neohookeanStress (fun x => Real.cos (Real.arccos x / 3)) m F := by
    rw [neohookeanStress, neohookeanStress, polarDecomp, polarDecomp, hinv]
    simp only [Option.map_some]
    rw [eigen_isotropic_congr f (fun x => Real.cos (Real.arccos x / 3)) _ hdev]
  rw [hcongr]
  obtain ⟨σ, h1, h2⟩ := neohookean_stress_formula_partial _ isCosThird_exact m F hpos
    (fun inv' d h => by
      rw [hinv] at h
      have e := (Prod.mk.injEq _ _ _ _).mp (Option.some.inj h)
      rw [← e.1]; exact Or.inl hdev)
  refine ⟨σ, h1, ?_⟩
  rw [h2, neoHooke, hdF]
  have hB : fullMat F * (fullMat F)ᵀ = (s ^ 2) • 1 := by
    rw [hF, Matrix.transpose_smul, Matrix.smul_mul, Matrix.mul_smul, hQ, smul_smul]
    congr 1; ring
  have hz : ∀ a : ℝ, dev (a • (1 : Matrix (Fin 3) (Fin 3) ℝ)) = 0 := by
    intro a
    rw [dev, Matrix.trace_smul, Matrix.trace_one]
    simp
  rw [hB, smul_smul, hz, smul_zero, add_zero]

/-- **C30.**  No stress in the reference state, nor after any rigid rotation of it, for the code as
written (any function in place of the Padé approximation). -/
theorem neohookean_stress_free (f : ℝ → ℝ) (m : Material ℝ) (F : Fin 9 → ℝ)
    (hF : fullMat F * (fullMat F)ᵀ = 1) (hdet : (fullMat F).det = 1) :
    neohookeanStress f m F = some fun _ => 0 := by
  obtain ⟨σ, h1, h2⟩ := neohookean_dilatation f m F 1 one_pos (fullMat F) hF hdet (by simp)
  rw [h1]
  congr 1
  apply symMat_injective
  rw [h2]
  ext i j
  fin_cases i <;> fin_cases j <;> simp [symMat]

/-- Non-vacuity of `neohookean_stress_free`: the identity and a quarter turn. -/
example (m : Material ℝ) : neohookeanStress padeCos m ![1, 1, 1, 0, 0, 0, 0, 0, 0] = some fun _ => 0 := by
  apply neohookean_stress_free
  · ext i j; fin_cases i <;> fin_cases j <;> simp [fullMat, Matrix.mul_apply, Fin.sum_univ_three]
  · simp [fullMat, Matrix.det_fin_three]

example (m : Material ℝ) : neohookeanStress padeCos m ![0, 0, 1, -1, 0, 0, 1, 0, 0] = some fun _ => 0 := by
  apply neohookean_stress_free
  · ext i j; fin_cases i <;> fin_cases j <;> simp [fullMat, Matrix.mul_apply, Fin.sum_univ_three]
  · simp [fullMat, Matrix.det_fin_three]

/-- Non-vacuity of the `_partial` theorems: a sheared and stretched configuration meets their
hypotheses. -/
example (m : Material ℝ) :
    ∃ σ, neohookeanStress (fun x => Real.cos (Real.arccos x / 3)) m
      (store9 2 1 0 0 1 0 0 0 3 : Fin 9 → ℝ) = some σ ∧
      (σ 0 + σ 1 + σ 2) / 3 = m.bulk * (35 / 12) := by
  have hdet : (fullMat (store9 2 1 0 0 1 0 0 0 3 : Fin 9 → ℝ)).det = 6 := by
    rw [Matrix.det_fin_three]
    simp [fullMat, store9, K_F_XX, K_F_XY, K_F_XZ, K_F_YX, K_F_YY, K_F_YZ, K_F_ZX, K_F_ZY, K_F_ZZ]
    norm_num
  obtain ⟨σ, h1, h2⟩ := neohookean_pressure_partial _ isCosThird_exact m
    (store9 2 1 0 0 1 0 0 0 3 : Fin 9 → ℝ) (by rw [hdet]; norm_num) (by
    intro inv d h
    right
    simp [invertFull33, store9, K_F_XX, K_F_XY, K_F_XZ, K_F_YX, K_F_YY, K_F_YZ, K_F_ZX, K_F_ZY,
      K_F_ZZ] at h
    obtain ⟨h, -⟩ := h
    rw [← h]
    simp [devNorm, meanDiag, squareFull33TFull33, store6, store9, K_F_XX, K_F_XY, K_F_XZ, K_F_YX,
      K_F_YY, K_F_YZ, K_F_ZX, K_F_ZY, K_F_ZZ, K_S_XX, K_S_YY, K_S_ZZ, K_S_XY, K_S_YZ, K_S_ZX]
    norm_num)
  refine ⟨σ, h1, ?_⟩
  rw [h2, hdet]; ring

end NimbleSM.Constitutive
