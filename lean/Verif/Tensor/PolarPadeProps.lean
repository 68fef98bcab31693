import Verif.Tensor.EigenApproxLemmas

/-!
# C55: the eigensolver and the polar decompositions with the code's own approximation

`PolarProps.lean` proves the routines exact when the function `cos(acos(x)/3)` is exact.  Here the
routines run with `padeCos`, the rational function of the source, on every symmetric tensor (also the
nearly isotropic ones the code replaces by isotropic ones), in exact real arithmetic.

* `eigenSym33_pade`: what is returned is the exact orthogonal eigensystem of a symmetric matrix that
  differs from the argument by at most `1e-15` of its Frobenius norm.
* `polarLeftLogVLame_pade`, `polarDecomp_pade`: the factors, with explicit error bounds in terms of
  the conditioning of the deformation gradient.

`frobSq` (EigenApproxLemmas.lean) is the squared Frobenius norm, `∑ᵢⱼ aᵢⱼ²`.
-/

set_option linter.unusedSimpArgs false

namespace NimbleSM.Tensor

open Matrix

theorem frobSq_symMat (T : Fin 6 → ℝ) :
    frobSq (symMat T) = 3 * meanDiag T ^ 2 + 2 * devNorm T := by
  simp [frobSq, meanDiag, devNorm, symMat, Fin.sum_univ_three]; ring

/-- **C55 (eigenproblem, the code's approximation).**  For every symmetric tensor, the solver with
its rational approximation returns nonzero, mutually orthogonal vectors and numbers that are the
exact eigenvectors and eigenvalues of a symmetric matrix within `1e-15` (relative, Frobenius norm)
of the argument. -/
theorem eigenSym33_pade (T : Fin 6 → ℝ) :
    let e := eigenSym33NonUnit padeCos T
    ∃ E : Matrix (Fin 3) (Fin 3) ℝ, Eᵀ = E ∧ frobSq E ≤ (1e-15) ^ 2 * frobSq (symMat T) ∧
      IsEigenSystem (symMat T - E) e.eval0 e.eval1 e.eval2 e.evec0 e.evec1 e.evec2 := by
  intro e
  rw [frobSq_symMat]
  have hc2dev : ∀ x0 x1 x2 x3 x4 x5 : ℝ, (x0 - (x0 + x1 + x2) / 3) * (x1 - (x0 + x1 + x2) / 3) +
      (x1 - (x0 + x1 + x2) / 3) * (x2 - (x0 + x1 + x2) / 3) +
      (x2 - (x0 + x1 + x2) / 3) * (x0 - (x0 + x1 + x2) / 3) - x3 * x3 - x4 * x4 - x5 * x5
      = - (((x0 - (x0 + x1 + x2) / 3) ^ 2 + (x1 - (x0 + x1 + x2) / 3) ^ 2
          + (x2 - (x0 + x1 + x2) / 3) ^ 2) / 2 + x3 ^ 2 + x4 ^ 2 + x5 ^ 2) := by
    intro x0 x1 x2 x3 x4 x5; ring
  have hdev := hc2dev (T 0) (T 1) (T 2) (T 3) (T 4) (T 5)
  have hmd : meanDiag T = (T 0 + T 1 + T 2) / 3 := rfl
  set c1 := (T 0 + T 1 + T 2) / 3 with hc1
  set a := T 0 - c1 with ha
  set b := T 1 - c1 with hb
  set c := T 2 - c1 with hc
  set c2 := a * b + b * c + c * a - T 3 * T 3 - T 4 * T 4 - T 5 * T 5 with hc2
  have hdn : devNorm T = -c2 := by
    rw [hdev]; unfold devNorm meanDiag; rw [← hc1]; ring
  have htr : a + b + c = 0 := by rw [ha, hb, hc, hc1]; ring
  by_cases hlt : c2 < c1 * c1 * (-1.0e-30)
  · have hneg : c2 < 0 := by nlinarith [mul_self_nonneg c1]
    have key := eigen_dev_upTo 1e-15 padeCos padeCos_upTo a b c (T 3) (T 4) (T 5) htr c2 _ hc2 rfl
      hneg _ rfl
    simp only at key
    set l := 2 * multiplySign (padeCos (minimum |(-0.5) * (a * (T 4 * T 4) + b * (T 5 * T 5) - 2 * T 3 * T 4 * T 5 + c * (T 3 * T 3 - a * b)) * ((-3) / c2) * Real.sqrt ((-3) / c2)| 1))
      ((-0.5) * (a * (T 4 * T 4) + b * (T 5 * T 5) - 2 * T 3 * T 4 * T 5 + c * (T 3 * T 3 - a * b)) * ((-3) / c2) * Real.sqrt ((-3) / c2)) / Real.sqrt ((-3) / c2) with hl
    set P := pivotRows ![a - l, T 3, T 5] ![T 3, b - l, T 4] ![T 5, T 4, c - l]
      (dot3 ![a - l, T 3, T 5] ![a - l, T 3, T 5]) (dot3 ![T 3, b - l, T 4] ![T 3, b - l, T 4])
      (dot3 ![T 5, T 4, c - l] ![T 5, T 4, c - l]) with hP
    set Q := planeProblem a b c (T 3) (T 4) (T 5) P.1 P.2.1 P.2.2.1 P.2.2.2 with hQ
    have he : e = ⟨Q.1 + c1, Q.2.1 + c1, l + c1, Q.2.2.1, Q.2.2.2.1, Q.2.2.2.2⟩ := by
      simp only [e, eigenSym33NonUnit]
      simp only [K_S_XX, K_S_YY, K_S_ZZ, K_S_XY, K_S_YZ, K_S_ZX, ← hc1, ← ha, ← hb, ← hc, ← hc2,
        ← hl, if_pos hlt]
      have hk : pivotRows ![a - l, T 3, T 5] ![T 3, b - l, T 4] ![T 5, T 4, c - l]
          ((![a - l, T 3, T 5] : Fin 3 → ℝ) 0 * (![a - l, T 3, T 5] : Fin 3 → ℝ) 0 + T 3 * T 3 + T 5 * T 5)
          (T 3 * T 3 + (![T 3, b - l, T 4] : Fin 3 → ℝ) 1 * (![T 3, b - l, T 4] : Fin 3 → ℝ) 1 + T 4 * T 4)
          (T 5 * T 5 + T 4 * T 4 + (![T 5, T 4, c - l] : Fin 3 → ℝ) 2 * (![T 5, T 4, c - l] : Fin 3 → ℝ) 2)
          = P := by
        rw [hP]; simp [dot3]
      rw [hk]
    obtain ⟨E, hEt, hEs, hsys⟩ := key
    rw [he]
    simp only
    refine ⟨E, hEt, ?_, ?_⟩
    · refine hEs.trans ?_
      rw [hdn]
      nlinarith only [sq_nonneg (meanDiag T)]
    · have shift : ∀ (v : Fin 3 → ℝ) (x : ℝ),
          (symMat ![a, b, c, T 3, T 4, T 5] - E) *ᵥ v = x • v →
          (symMat T - E) *ᵥ v = (x + c1) • v := by
        intro v x hv
        have hs : symMat T *ᵥ v = symMat ![a, b, c, T 3, T 4, T 5] *ᵥ v + c1 • v := by
          funext i
          fin_cases i <;>
            simp [symMat, Matrix.mulVec, dotProduct, Fin.sum_univ_three, ha, hb, hc] <;> ring
        rw [Matrix.sub_mulVec] at hv ⊢
        rw [hs, add_smul, ← hv]
        abel
      exact ⟨shift _ _ hsys.ev0, shift _ _ hsys.ev1, shift _ _ hsys.ev2, hsys.ne0, hsys.ne1,
        hsys.ne2, hsys.o01, hsys.o02, hsys.o12⟩
  · have he : e = ⟨c1, c1, c1, ![1, 0, 0], ![0, 1, 0], ![0, 0, 1]⟩ := by
      simp only [e, eigenSym33NonUnit]
      simp only [K_S_XX, K_S_YY, K_S_ZZ, K_S_XY, K_S_YZ, K_S_ZX, ← hc1, ← ha, ← hb, ← hc, ← hc2,
        if_neg hlt]
    refine ⟨symMat ![a, b, c, T 3, T 4, T 5], symMat_transpose _, ?_, ?_⟩
    · have hfr : frobSq (symMat ![a, b, c, T 3, T 4, T 5]) = 2 * devNorm T := by
        have hd2 : devNorm T = (a ^ 2 + b ^ 2 + c ^ 2) / 2 + T 3 ^ 2 + T 4 ^ 2 + T 5 ^ 2 := by
          unfold devNorm meanDiag; rw [← hc1]
        rw [hd2]
        simp [frobSq, symMat, Fin.sum_univ_three]; ring
      rw [hfr, hdn, hmd]
      have h1 := not_lt.mp hlt
      have h2 : 0 ≤ devNorm T := by unfold devNorm; positivity
      rw [hdn] at h2
      nlinarith only [h1, h2, sq_nonneg c1]
    · rw [he]
      have hdiff : symMat T - symMat ![a, b, c, T 3, T 4, T 5] = c1 • 1 := by
        ext i j
        fin_cases i <;> fin_cases j <;> simp [symMat, ha, hb, hc]
      rw [hdiff]
      clear_value c1 a b c c2
      constructor
      any_goals (intro h; have h0 := congrFun h 0; have h1 := congrFun h 1; have h2 := congrFun h 2
                 simp at h0 h1 h2)
      all_goals first
        | (rw [Matrix.smul_mulVec, Matrix.one_mulVec])
        | simp [dotProduct, Fin.sum_univ_three]

/-- Non-vacuity: the theorem has no hypothesis; here is a tensor whose three eigenvalues differ. -/
example : ∃ E : Matrix (Fin 3) (Fin 3) ℝ, frobSq E ≤ (1e-15) ^ 2 * 22 ∧
    (symMat ![4, 1, 1, 1, 0, 1] - E) *ᵥ (eigenSym33NonUnit padeCos ![4, 1, 1, 1, 0, 1]).evec2
      = (eigenSym33NonUnit padeCos ![4, 1, 1, 1, 0, 1]).eval2 •
        (eigenSym33NonUnit padeCos ![4, 1, 1, 1, 0, 1]).evec2 := by
  obtain ⟨E, -, h, hs⟩ := eigenSym33_pade ![4, 1, 1, 1, 0, 1]
  refine ⟨E, h.trans ?_, hs.ev2⟩
  simp [frobSq, symMat, Fin.sum_univ_three]
  norm_num

/-! ### Norm estimates -/

theorem frob_mulVec (E : Matrix (Fin 3) (Fin 3) ℝ) (x : Fin 3 → ℝ) :
    (E *ᵥ x) ⬝ᵥ (E *ᵥ x) ≤ frobSq E * (x ⬝ᵥ x) := by
  have row : ∀ i, (E *ᵥ x) i * (E *ᵥ x) i ≤ (∑ j, E i j ^ 2) * (x ⬝ᵥ x) := by
    intro i
    simp only [Matrix.mulVec, dotProduct, Fin.sum_univ_three]
    nlinarith only [sq_nonneg (E i 0 * x 1 - E i 1 * x 0), sq_nonneg (E i 0 * x 2 - E i 2 * x 0),
      sq_nonneg (E i 1 * x 2 - E i 2 * x 1)]
  have h : (E *ᵥ x) ⬝ᵥ (E *ᵥ x) = ∑ i, (E *ᵥ x) i * (E *ᵥ x) i := rfl
  rw [h, frobSq, Finset.sum_mul]
  exact Finset.sum_le_sum fun i _ => row i

theorem dotProduct_self_nonneg' (x : Fin 3 → ℝ) : 0 ≤ x ⬝ᵥ x := by
  rw [dotProduct_eq_dot3]; exact dot3_self_nonneg x

theorem cauchy3 (x y : Fin 3 → ℝ) : (x ⬝ᵥ y) ^ 2 ≤ (x ⬝ᵥ x) * (y ⬝ᵥ y) := by
  simp only [dotProduct, Fin.sum_univ_three]
  nlinarith only [sq_nonneg (x 0 * y 1 - x 1 * y 0), sq_nonneg (x 0 * y 2 - x 2 * y 0),
    sq_nonneg (x 1 * y 2 - x 2 * y 1)]

theorem frob_quad (E : Matrix (Fin 3) (Fin 3) ℝ) (ε : ℝ) (hε : 0 ≤ ε) (hE : frobSq E ≤ ε ^ 2)
    (x : Fin 3 → ℝ) : |x ⬝ᵥ (E *ᵥ x)| ≤ ε * (x ⬝ᵥ x) := by
  have h0 := dotProduct_self_nonneg' x
  apply abs_le_of_sq_le_sq _ (mul_nonneg hε h0)
  have h1 := cauchy3 x (E *ᵥ x)
  have h2 := frob_mulVec E x
  have h3 : (x ⬝ᵥ x) * ((E *ᵥ x) ⬝ᵥ (E *ᵥ x)) ≤ (x ⬝ᵥ x) * (ε ^ 2 * (x ⬝ᵥ x)) :=
    mul_le_mul_of_nonneg_left (h2.trans (mul_le_mul_of_nonneg_right hE h0)) h0
  nlinarith only [h1, h3]

/-- Lower bound of the perturbed quadratic form. -/
theorem perturbed_lower (A E : Matrix (Fin 3) (Fin 3) ℝ) (m ε : ℝ) (hε : 0 ≤ ε)
    (hE : frobSq E ≤ ε ^ 2) (hA : ∀ x : Fin 3 → ℝ, m * (x ⬝ᵥ x) ≤ x ⬝ᵥ (A *ᵥ x)) (x : Fin 3 → ℝ) :
    (m - ε) * (x ⬝ᵥ x) ≤ x ⬝ᵥ ((A - E) *ᵥ x) := by
  rw [Matrix.sub_mulVec, dotProduct_sub]
  have h1 := (abs_le.mp (frob_quad E ε hε hE x)).2
  have h2 := hA x
  linarith

theorem perturbed_eigen_pos (A E : Matrix (Fin 3) (Fin 3) ℝ) (m ε : ℝ) (hε : 0 ≤ ε)
    (hE : frobSq E ≤ ε ^ 2) (hA : ∀ x : Fin 3 → ℝ, m * (x ⬝ᵥ x) ≤ x ⬝ᵥ (A *ᵥ x)) (hm : ε < m)
    (e : ℝ) (v : Fin 3 → ℝ) (hv : v ≠ 0) (h : (A - E) *ᵥ v = e • v) : 0 < e := by
  have h1 := perturbed_lower A E m ε hε hE hA v
  rw [h, dotProduct_smul, smul_eq_mul] at h1
  have h2 := dotProduct_self_pos hv
  have h3 := le_of_mul_le_mul_right h1 h2
  linarith

/-- **C55 (Polar_Left_LogV_Lame, the code's approximation).**  Let `F` be a deformation gradient
with positive determinant, `m` a positive lower bound of `F Fᵀ` as a quadratic form and `M` an upper
bound of its Frobenius norm, with `1e-15 M < m` (so the condition number of `F` is below about
`3e7`).  Then the routine returns `V`, `R`, `L` with: `F = V R` exactly; `V` symmetric
positive definite; `L` exactly the logarithm of `V`; `V²` equal to `F Fᵀ` up to `1e-15 M`; `R` has
positive determinant and preserves lengths up to the relative error `1e-15 M / (m - 1e-15 M)`. -/
theorem polarLeftLogVLame_pade (F : Fin 9 → ℝ) (hF : 0 < (fullMat F).det) (m M : ℝ) (hM : 0 ≤ M)
    (hlow : ∀ x : Fin 3 → ℝ, m * (x ⬝ᵥ x) ≤ ((fullMat F)ᵀ *ᵥ x) ⬝ᵥ ((fullMat F)ᵀ *ᵥ x))
    (hup : frobSq (fullMat F * (fullMat F)ᵀ) ≤ M ^ 2) (hcond : 1e-15 * M < m) :
    let V := (polarLeftLogVLame padeCos F).1
    let R := (polarLeftLogVLame padeCos F).2.1
    let L := (polarLeftLogVLame padeCos F).2.2
    fullMat F = symMat V * fullMat R ∧
      (∀ x : Fin 3 → ℝ, x ≠ 0 → 0 < x ⬝ᵥ (symMat V *ᵥ x)) ∧
      NormedSpace.exp (symMat L) = symMat V ∧
      frobSq (symMat V * symMat V - fullMat F * (fullMat F)ᵀ) ≤ (1e-15 * M) ^ 2 ∧
      0 < (fullMat R).det ∧
      ∀ x : Fin 3 → ℝ, |((fullMat R)ᵀ *ᵥ x) ⬝ᵥ ((fullMat R)ᵀ *ᵥ x) - x ⬝ᵥ x|
        ≤ 1e-15 * M / (m - 1e-15 * M) * (x ⬝ᵥ x) := by
  obtain ⟨E, hEt, hEs, hE⟩ := eigenSym33_pade (squareFull33Full33T F)
  have hB := squareFull33Full33T_spec F
  intro V R L
  have hV : V = (polarLeftLogVLame padeCos F).1 := rfl
  have hR : R = (polarLeftLogVLame padeCos F).2.1 := rfl
  have hL : L = (polarLeftLogVLame padeCos F).2.2 := rfl
  clear_value V R L
  unfold polarLeftLogVLame at hV hR hL
  simp only at hE hV hR hL
  generalize eigenSym33NonUnit padeCos (squareFull33Full33T F) = e at *
  obtain ⟨e0, e1, e2, v0, v1, v2⟩ := e
  simp only at hE hV hR hL
  have hspec := spectral_eq_of_eigen _ _ _ _ _ _ _ hE
  rw [hB] at hEs hE hspec
  set ε := 1e-15 * M with hε
  have hε0 : 0 ≤ ε := by rw [hε]; positivity
  have hEε : frobSq E ≤ ε ^ 2 := by
    refine hEs.trans ?_
    rw [hε, mul_pow]
    exact mul_le_mul_of_nonneg_left hup (by positivity)
  have hlow' : ∀ x : Fin 3 → ℝ, m * (x ⬝ᵥ x) ≤ x ⬝ᵥ ((fullMat F * (fullMat F)ᵀ) *ᵥ x) := by
    intro x
    refine (hlow x).trans (le_of_eq ?_)
    rw [← Matrix.mulVec_mulVec, Matrix.dotProduct_mulVec x, ← Matrix.mulVec_transpose]
  have p0 := perturbed_eigen_pos _ E m ε hε0 hEε hlow' hcond _ _ hE.ne0 hE.ev0
  have p1 := perturbed_eigen_pos _ E m ε hε0 hEε hlow' hcond _ _ hE.ne1 hE.ev1
  have p2 := perturbed_eigen_pos _ E m ε hε0 hEε hlow' hcond _ _ hE.ne2 hE.ev2
  obtain ⟨-, -, -, n0, n1, n2, o01, o02, o12⟩ := hE
  have s0 := Real.sqrt_pos.mpr p0
  have s1 := Real.sqrt_pos.mpr p1
  have s2 := Real.sqrt_pos.mpr p2
  have hVs : symMat V = spectral (Real.sqrt e0) (Real.sqrt e1) (Real.sqrt e2) v0 v1 v2 := by
    rw [hV, spectralSym_spec _ _ _ _ _ _ n0 n1 n2]
  have hLs : symMat L = spectral (Real.log (Real.sqrt e0)) (Real.log (Real.sqrt e1))
      (Real.log (Real.sqrt e2)) v0 v1 v2 := by
    rw [hL, spectralSym_spec _ _ _ _ _ _ n0 n1 n2]
  have hVi : ∀ g0 g1 g2 : ℝ, fullMat (multFull33Full33
      (store9 (normalize3 v0 0 * g0) (normalize3 v1 0 * g1) (normalize3 v2 0 * g2)
        (normalize3 v0 1 * g0) (normalize3 v1 1 * g1) (normalize3 v2 1 * g2)
        (normalize3 v0 2 * g0) (normalize3 v1 2 * g1) (normalize3 v2 2 * g2))
      (store9 (normalize3 v0 0) (normalize3 v0 1) (normalize3 v0 2) (normalize3 v1 0)
        (normalize3 v1 1) (normalize3 v1 2) (normalize3 v2 0) (normalize3 v2 1) (normalize3 v2 2)))
      = spectral g0 g1 g2 v0 v1 v2 := by
    intro g0 g1 g2
    rw [← spectralSym_spec _ _ _ _ _ _ n0 n1 n2, multFull33Full33_spec, spectralSym]
    rw [symMat_store6]
    ext i j
    fin_cases i <;> fin_cases j <;>
      simp [Matrix.mul_apply, Fin.sum_univ_three, fullMat, store9, K_F_XX, K_F_XY, K_F_XZ, K_F_YX,
        K_F_YY, K_F_YZ, K_F_ZX, K_F_ZY, K_F_ZZ] <;> ring
  have hRs : fullMat R = spectral (1 / Real.sqrt e0) (1 / Real.sqrt e1) (1 / Real.sqrt e2) v0 v1 v2
      * fullMat F := by
    rw [hR, multFull33Full33_spec, hVi]
  have hVVi : symMat V * spectral (1 / Real.sqrt e0) (1 / Real.sqrt e1) (1 / Real.sqrt e2) v0 v1 v2
      = 1 := by
    rw [hVs, spectral_mul _ _ _ _ _ _ _ _ _ n0 n1 n2 o01 o02 o12,
      ← spectral_one v0 v1 v2 n0 n1 n2 o01 o02 o12, mul_one_div_cancel s0.ne',
      mul_one_div_cancel s1.ne', mul_one_div_cancel s2.ne']
  have hVV : symMat V * symMat V = fullMat F * (fullMat F)ᵀ - E := by
    rw [hspec, hVs, spectral_mul _ _ _ _ _ _ _ _ _ n0 n1 n2 o01 o02 o12,
      Real.mul_self_sqrt p0.le, Real.mul_self_sqrt p1.le, Real.mul_self_sqrt p2.le]
  have hFVR : fullMat F = symMat V * fullMat R := by
    rw [hRs, ← Matrix.mul_assoc, hVVi, Matrix.one_mul]
  have hVd : 0 < (symMat V).det := by
    rw [hVs, spectral_det _ _ _ _ _ _ n0 n1 n2 o01 o02 o12]; positivity
  have hVt : (symMat V)ᵀ = symMat V := symMat_transpose V
  refine ⟨hFVR, ?_, ?_, ?_, ?_, ?_⟩
  · intro x hx
    rw [hVs]
    exact spectral_posdef _ _ _ _ _ _ n0 n1 n2 o01 o02 o12 s0 s1 s2 x hx
  · rw [hLs, hVs]
    exact spectral_exp _ _ _ _ _ _ n0 n1 n2 o01 o02 o12 s0 s1 s2
  · rw [hVV, sub_sub_cancel_left]
    have : frobSq (-E) = frobSq E := by simp [frobSq]
    rw [this]; exact hEε
  · rw [hFVR, Matrix.det_mul] at hF
    exact (mul_pos_iff_of_pos_left hVd).mp hF
  · intro x
    -- `y = V⁻¹ x`
    set W := spectral (1 / Real.sqrt e0) (1 / Real.sqrt e1) (1 / Real.sqrt e2) v0 v1 v2 with hW
    have hWt : Wᵀ = W := spectral_transpose ..
    set y := W *ᵥ x with hy
    have hx : x = symMat V *ᵥ y := by rw [hy, Matrix.mulVec_mulVec, hVVi, Matrix.one_mulVec]
    have hRx : (fullMat R)ᵀ *ᵥ x = (fullMat F)ᵀ *ᵥ y := by
      rw [hRs, Matrix.transpose_mul, hWt, ← Matrix.mulVec_mulVec]
    have h1 : ((fullMat R)ᵀ *ᵥ x) ⬝ᵥ ((fullMat R)ᵀ *ᵥ x)
        = y ⬝ᵥ ((fullMat F * (fullMat F)ᵀ) *ᵥ y) := by
      rw [hRx, ← Matrix.mulVec_mulVec, Matrix.dotProduct_mulVec y, ← Matrix.mulVec_transpose]
    have h2 : x ⬝ᵥ x = y ⬝ᵥ ((fullMat F * (fullMat F)ᵀ - E) *ᵥ y) := by
      rw [← hVV, ← Matrix.mulVec_mulVec, Matrix.dotProduct_mulVec y, ← Matrix.mulVec_transpose,
        hVt, ← hx]
    have h3 : ((fullMat R)ᵀ *ᵥ x) ⬝ᵥ ((fullMat R)ᵀ *ᵥ x) - x ⬝ᵥ x = y ⬝ᵥ (E *ᵥ y) := by
      rw [h1, h2, Matrix.sub_mulVec, dotProduct_sub]; ring
    rw [h3]
    have h4 := perturbed_lower _ E m ε hε0 hEε hlow' y
    rw [← h2] at h4
    have h5 : 0 < m - ε := by linarith
    refine (frob_quad E ε hε0 hEε y).trans ?_
    rw [div_mul_eq_mul_div, le_div_iff₀ h5]
    have := mul_le_mul_of_nonneg_left h4 hε0
    linarith

/-- **C55 (Polar_Decomp, the code's approximation).**  Let `F` be a deformation gradient with
positive determinant, `m > 0` with `m |F x|² ≤ |x|²` for all `x`, and `M` an upper bound of the
Frobenius norm of `(F Fᵀ)⁻¹`, with `1e-15 M < m`.  Then `Polar_Decomp` returns `V` and `R` with: `V`
symmetric positive definite; with the relative error `η = 1e-15 M / (m - 1e-15 M)`, `V R = F` and
`V² = F Fᵀ` up to `η`, and `R` has positive determinant and preserves lengths up to `η`. -/
theorem polarDecomp_pade (F : Fin 9 → ℝ) (hF : 0 < (fullMat F).det) (m M : ℝ) (hM : 0 ≤ M)
    (hlow : ∀ x : Fin 3 → ℝ, m * ((fullMat F *ᵥ x) ⬝ᵥ (fullMat F *ᵥ x)) ≤ x ⬝ᵥ x)
    (hup : frobSq ((fullMat F * (fullMat F)ᵀ)⁻¹) ≤ M ^ 2) (hcond : 1e-15 * M < m) :
    let η := 1e-15 * M / (m - 1e-15 * M)
    ∃ V R, polarDecomp padeCos F = some (V, R) ∧
      (∀ x : Fin 3 → ℝ, x ≠ 0 → 0 < x ⬝ᵥ (symMat V *ᵥ x)) ∧
      (∀ x : Fin 3 → ℝ, ((symMat V * fullMat R - fullMat F) *ᵥ x) ⬝ᵥ
        ((symMat V * fullMat R - fullMat F) *ᵥ x)
          ≤ η ^ 2 * ((fullMat F *ᵥ x) ⬝ᵥ (fullMat F *ᵥ x))) ∧
      (∀ x : Fin 3 → ℝ, ((symMat V * symMat V - fullMat F * (fullMat F)ᵀ) *ᵥ x) ⬝ᵥ
        ((symMat V * symMat V - fullMat F * (fullMat F)ᵀ) *ᵥ x)
          ≤ η ^ 2 * (((fullMat F * (fullMat F)ᵀ) *ᵥ x) ⬝ᵥ ((fullMat F * (fullMat F)ᵀ) *ᵥ x))) ∧
      0 < (fullMat R).det ∧
      ∀ x : Fin 3 → ℝ, |((fullMat R)ᵀ *ᵥ x) ⬝ᵥ ((fullMat R)ᵀ *ᵥ x) - x ⬝ᵥ x| ≤ η * (x ⬝ᵥ x) := by
  intro η
  obtain ⟨inv, hinv, hFi, hiF⟩ := invertFull33_of_det_pos F hF
  set T := squareFull33TFull33 inv with hT
  obtain ⟨E, hEt, hEs, hE⟩ := eigenSym33_pade T
  have hTm : symMat T = (fullMat inv)ᵀ * fullMat inv := squareFull33TFull33_spec inv
  set A := fullMat F with hA
  set B := fullMat inv with hB
  have hABt : Aᵀ * Bᵀ = 1 := by rw [← Matrix.transpose_mul, hiF, Matrix.transpose_one]
  have hBAt : Bᵀ * Aᵀ = 1 := by rw [← Matrix.transpose_mul, hFi, Matrix.transpose_one]
  have hTinv : symMat T = (A * Aᵀ)⁻¹ := by
    rw [hTm]
    symm
    apply Matrix.inv_eq_left_inv
    calc Bᵀ * B * (A * Aᵀ) = Bᵀ * (B * A) * Aᵀ := by simp only [Matrix.mul_assoc]
      _ = 1 := by rw [hiF, Matrix.mul_one, hBAt]
  rw [← hTinv] at hup
  set ε := 1e-15 * M with hε
  have hη : η = ε / (m - ε) := by simp only [η, hε]
  clear_value η
  have hε0 : 0 ≤ ε := by rw [hε]; positivity
  have hEε : frobSq E ≤ ε ^ 2 := by
    refine hEs.trans ?_
    rw [hε, mul_pow]
    exact mul_le_mul_of_nonneg_left hup (by positivity)
  have hlow' : ∀ x : Fin 3 → ℝ, m * (x ⬝ᵥ x) ≤ x ⬝ᵥ (symMat T *ᵥ x) := by
    intro x
    have h := hlow (B *ᵥ x)
    rw [Matrix.mulVec_mulVec, hFi, Matrix.one_mulVec] at h
    refine h.trans (le_of_eq ?_)
    rw [hTm, ← Matrix.mulVec_mulVec, Matrix.dotProduct_mulVec x, Matrix.vecMul_transpose]
  have p0 := perturbed_eigen_pos _ E m ε hε0 hEε hlow' hcond _ _ hE.ne0 hE.ev0
  have p1 := perturbed_eigen_pos _ E m ε hε0 hEε hlow' hcond _ _ hE.ne1 hE.ev1
  have p2 := perturbed_eigen_pos _ E m ε hε0 hEε hlow' hcond _ _ hE.ne2 hE.ev2
  have hspec := spectral_eq_of_eigen _ _ _ _ _ _ _ hE
  unfold polarDecomp
  rw [hinv]
  simp only [Option.map_some, ← hT, if_neg (not_lt.mpr p0.le), if_neg (not_lt.mpr p1.le),
    if_neg (not_lt.mpr p2.le)]
  generalize eigenSym33NonUnit padeCos T = e at *
  obtain ⟨e0, e1, e2, v0, v1, v2⟩ := e
  simp only at *
  obtain ⟨-, -, -, n0, n1, n2, o01, o02, o12⟩ := hE
  refine ⟨_, _, rfl, ?_⟩
  have s0 := Real.sqrt_pos.mpr p0
  have s1 := Real.sqrt_pos.mpr p1
  have s2 := Real.sqrt_pos.mpr p2
  set V := store6 _ _ _ _ _ _ with hV
  have hVs : symMat V = spectral (1 / Real.sqrt e0) (1 / Real.sqrt e1) (1 / Real.sqrt e2) v0 v1 v2 := by
    rw [hV, symMat_store6]
    unfold spectral
    have d0 : v0 K_X * v0 K_X + v0 K_Y * v0 K_Y + v0 K_Z * v0 K_Z = v0 ⬝ᵥ v0 := by
      simp [dotProduct, Fin.sum_univ_three, K_X, K_Y, K_Z]
    have d1 : v1 K_X * v1 K_X + v1 K_Y * v1 K_Y + v1 K_Z * v1 K_Z = v1 ⬝ᵥ v1 := by
      simp [dotProduct, Fin.sum_univ_three, K_X, K_Y, K_Z]
    have d2 : v2 K_X * v2 K_X + v2 K_Y * v2 K_Y + v2 K_Z * v2 K_Z = v2 ⬝ᵥ v2 := by
      simp [dotProduct, Fin.sum_univ_three, K_X, K_Y, K_Z]
    rw [d0, d1, d2, ← div_div, ← div_div, ← div_div]
    ext i j
    fin_cases i <;> fin_cases j <;>
      simp [Matrix.vecMulVec_apply, K_X, K_Y, K_Z] <;> ring
  clear_value V
  clear hV
  have hVVT : symMat V * symMat V * (symMat T - E) = 1 := by
    rw [hspec, hVs, spectral_mul _ _ _ _ _ _ _ _ _ n0 n1 n2 o01 o02 o12,
      spectral_mul _ _ _ _ _ _ _ _ _ n0 n1 n2 o01 o02 o12,
      ← spectral_one v0 v1 v2 n0 n1 n2 o01 o02 o12]
    have h : ∀ x : ℝ, 0 < x → 1 / Real.sqrt x * (1 / Real.sqrt x) * x = 1 := by
      intro x hx
      have hs := Real.sqrt_pos.mpr hx
      have hm := Real.mul_self_sqrt hx.le
      field_simp
      nlinarith
    rw [h e0 p0, h e1 p1, h e2 p2]
  set S := symMat V with hS
  have hSt : Sᵀ = S := symMat_transpose V
  have hRm : fullMat (multFull33Sym33ReturnT inv V) = S * Bᵀ := by
    rw [multFull33Sym33ReturnT_spec, Matrix.transpose_mul, ← hS, hSt]
  rw [hRm]
  have hTA : symMat T * A = Bᵀ := by rw [hTm, Matrix.mul_assoc, hiF, Matrix.mul_one]
  have hTAA : symMat T * (A * Aᵀ) = 1 := by rw [← Matrix.mul_assoc, hTA, hBAt]
  -- `V² T = 1 + V² E`
  have hVT : S * S * symMat T = 1 + S * S * E := by
    rw [Matrix.mul_sub] at hVVT
    rw [← hVVT]; abel
  have hSpos : 0 < S.det := by
    rw [hVs, spectral_det _ _ _ _ _ _ n0 n1 n2 o01 o02 o12]; positivity
  have hmε : 0 < m - ε := by linarith
  -- `V z` for a vector `z`
  have hcomm : S * (symMat T - E) * S = 1 := by
    have h1 : S * (S * (symMat T - E)) = 1 := by rw [← Matrix.mul_assoc]; exact hVVT
    exact mul_eq_one_comm.mp h1
  have hSz : ∀ z : Fin 3 → ℝ, (m - ε) * ((S *ᵥ z) ⬝ᵥ (S *ᵥ z)) ≤ z ⬝ᵥ z := by
    intro z
    refine (perturbed_lower _ E m ε hε0 hEε hlow' (S *ᵥ z)).trans (le_of_eq ?_)
    rw [Matrix.mulVec_mulVec, dotProduct_comm, Matrix.dotProduct_mulVec, ← Matrix.mulVec_transpose,
      hSt, Matrix.mulVec_mulVec, ← Matrix.mul_assoc, hcomm, Matrix.one_mulVec]
  have hSSz : ∀ z : Fin 3 → ℝ, (m - ε) ^ 2 * (((S * S) *ᵥ z) ⬝ᵥ ((S * S) *ᵥ z)) ≤ z ⬝ᵥ z := by
    intro z
    have h1 := hSz (S *ᵥ z)
    rw [Matrix.mulVec_mulVec] at h1
    have h2 := hSz z
    have h3 := mul_le_mul_of_nonneg_left h1 hmε.le
    nlinarith only [h2, h3]
  have hSSEz : ∀ z : Fin 3 → ℝ, ((S * S * E) *ᵥ z) ⬝ᵥ ((S * S * E) *ᵥ z) ≤ η ^ 2 * (z ⬝ᵥ z) := by
    intro z
    have h1 := hSSz (E *ᵥ z)
    rw [Matrix.mulVec_mulVec] at h1
    have h2 := (frob_mulVec E z).trans
      (mul_le_mul_of_nonneg_right hEε (dotProduct_self_nonneg' z))
    have h3 := h1.trans h2
    rw [hη]
    rw [div_pow, div_mul_eq_mul_div, le_div_iff₀ (by positivity)]
    linarith
  have hVRF : S * (S * Bᵀ) - A = S * S * E * A := by
    rw [← hTA, ← Matrix.mul_assoc S S, ← Matrix.mul_assoc (S * S), hVT, Matrix.add_mul,
      Matrix.one_mul]
    abel
  have hVV : S * S - A * Aᵀ = S * S * E * (A * Aᵀ) := by
    calc S * S - A * Aᵀ = S * S * (symMat T * (A * Aᵀ)) - A * Aᵀ := by rw [hTAA, Matrix.mul_one]
      _ = _ := by rw [← Matrix.mul_assoc (S * S), hVT, Matrix.add_mul, Matrix.one_mul]; abel
  refine ⟨?_, ?_, ?_, ?_, ?_⟩
  · intro x hx
    rw [hVs]
    exact spectral_posdef _ _ _ _ _ _ n0 n1 n2 o01 o02 o12 (by positivity) (by positivity)
      (by positivity) x hx
  · intro x
    rw [hVRF, ← Matrix.mulVec_mulVec]
    exact hSSEz _
  · intro x
    rw [hVV, ← Matrix.mulVec_mulVec]
    exact hSSEz _
  · rw [Matrix.det_mul, Matrix.det_transpose]
    have hBpos : 0 < B.det := by
      have := congrArg Matrix.det hFi
      rw [Matrix.det_mul, Matrix.det_one] at this
      exact (mul_pos_iff_of_pos_left hF).mp (by rw [this]; exact one_pos)
    exact mul_pos hSpos hBpos
  · intro x
    have h1 : ((S * Bᵀ)ᵀ *ᵥ x) ⬝ᵥ ((S * Bᵀ)ᵀ *ᵥ x) = (S *ᵥ x) ⬝ᵥ (symMat T *ᵥ (S *ᵥ x)) := by
      rw [Matrix.transpose_mul, Matrix.transpose_transpose, hSt, ← Matrix.mulVec_mulVec, hTm,
        ← Matrix.mulVec_mulVec, Matrix.dotProduct_mulVec (S *ᵥ x), Matrix.vecMul_transpose]
    have h2 : x ⬝ᵥ x = (S *ᵥ x) ⬝ᵥ ((symMat T - E) *ᵥ (S *ᵥ x)) := by
      rw [Matrix.mulVec_mulVec, dotProduct_comm (S *ᵥ x), Matrix.dotProduct_mulVec,
        ← Matrix.mulVec_transpose, hSt, Matrix.mulVec_mulVec, ← Matrix.mul_assoc, hcomm,
        Matrix.one_mulVec]
    have h3 : ((S * Bᵀ)ᵀ *ᵥ x) ⬝ᵥ ((S * Bᵀ)ᵀ *ᵥ x) - x ⬝ᵥ x = (S *ᵥ x) ⬝ᵥ (E *ᵥ (S *ᵥ x)) := by
      rw [h1, h2, Matrix.sub_mulVec, dotProduct_sub]; ring
    rw [h3]
    refine (frob_quad E ε hε0 hEε _).trans ?_
    rw [hη]
    rw [div_mul_eq_mul_div, le_div_iff₀ hmε]
    have := mul_le_mul_of_nonneg_left (hSz x) hε0
    linarith

/-- Non-vacuity: a simple shear combined with a stretch satisfies the hypotheses of both theorems, with
the bounds `m = 1/20`, `M = 20` (left) and `m = 1/20`, `M = 2` (inverse). -/
example : 0 < (fullMat (store9 2 1 0 0 1 0 0 0 3 : Fin 9 → ℝ)).det ∧
    (∀ x : Fin 3 → ℝ, 1 / 20 * (x ⬝ᵥ x) ≤ ((fullMat (store9 2 1 0 0 1 0 0 0 3 : Fin 9 → ℝ))ᵀ *ᵥ x)
      ⬝ᵥ ((fullMat (store9 2 1 0 0 1 0 0 0 3 : Fin 9 → ℝ))ᵀ *ᵥ x)) ∧
    frobSq (fullMat (store9 2 1 0 0 1 0 0 0 3 : Fin 9 → ℝ)
      * (fullMat (store9 2 1 0 0 1 0 0 0 3 : Fin 9 → ℝ))ᵀ) ≤ 20 ^ 2 ∧
    (∀ x : Fin 3 → ℝ, 1 / 20 * ((fullMat (store9 2 1 0 0 1 0 0 0 3 : Fin 9 → ℝ) *ᵥ x)
      ⬝ᵥ (fullMat (store9 2 1 0 0 1 0 0 0 3 : Fin 9 → ℝ) *ᵥ x)) ≤ x ⬝ᵥ x) ∧
    frobSq ((fullMat (store9 2 1 0 0 1 0 0 0 3 : Fin 9 → ℝ)
      * (fullMat (store9 2 1 0 0 1 0 0 0 3 : Fin 9 → ℝ))ᵀ)⁻¹) ≤ 2 ^ 2 := by
  have hm : fullMat (store9 2 1 0 0 1 0 0 0 3 : Fin 9 → ℝ) = !![2, 1, 0; 0, 1, 0; 0, 0, 3] :=
    fullMat_store9 _ _ _ _ _ _ _ _ _
  have hB : (!![2, 1, 0; 0, 1, 0; 0, 0, 3] : Matrix (Fin 3) (Fin 3) ℝ)
      * (!![2, 1, 0; 0, 1, 0; 0, 0, 3] : Matrix (Fin 3) (Fin 3) ℝ)ᵀ
      = !![5, 1, 0; 1, 1, 0; 0, 0, 9] := by
    ext i j
    fin_cases i <;> fin_cases j <;>
      simp [Matrix.mul_apply, Fin.sum_univ_three, Matrix.transpose_apply] <;> norm_num
  have hI : (!![5, 1, 0; 1, 1, 0; 0, 0, 9] : Matrix (Fin 3) (Fin 3) ℝ)⁻¹
      = !![1/4, -1/4, 0; -1/4, 5/4, 0; 0, 0, 1/9] := by
    apply Matrix.inv_eq_left_inv
    ext i j
    fin_cases i <;> fin_cases j <;>
      simp [Matrix.mul_apply, Fin.sum_univ_three, Matrix.one_apply] <;> norm_num
  rw [hm, hB, hI]
  refine ⟨?_, ?_, ?_, ?_, ?_⟩
  · rw [Matrix.det_fin_three]; simp
  · intro x
    simp [Matrix.mulVec, dotProduct, Fin.sum_univ_three, Matrix.transpose_apply]
    nlinarith [sq_nonneg (5 * x 0 + x 1), sq_nonneg (x 0), sq_nonneg (x 1), sq_nonneg (x 2),
      sq_nonneg (2 * x 0 + x 1)]
  · simp [frobSq, Fin.sum_univ_three]; norm_num
  · intro x
    simp [Matrix.mulVec, dotProduct, Fin.sum_univ_three]
    nlinarith [sq_nonneg (x 0 - 2 * x 1), sq_nonneg (x 0), sq_nonneg (x 1), sq_nonneg (x 2)]
  · simp [frobSq, Fin.sum_univ_three]; norm_num

end NimbleSM.Tensor
