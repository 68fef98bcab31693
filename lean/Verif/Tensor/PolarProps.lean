import Verif.Tensor.EigenLemmas
import Mathlib.Analysis.Normed.Algebra.MatrixExponential
import Mathlib.Analysis.SpecialFunctions.Log.Basic
import Mathlib.Analysis.SpecialFunctions.Exponential

/-!
# C55: symmetric eigenproblem and polar decomposition

`IsEigenSystem A e0 e1 e2 v0 v1 v2` (EigenLemmas.lean) is the specification: `A vᵢ = eᵢ vᵢ`, the
`vᵢ` are nonzero and mutually orthogonal.
`Resolved T` says that the tensor is exactly isotropic or far enough from isotropic
for the code not to replace it by an isotropic one (nimble_utils.h:836-854).
-/

set_option linter.unusedSimpArgs false

namespace NimbleSM.Tensor

open Matrix

/-- Mean of the diagonal. -/
noncomputable def meanDiag (T : Fin 6 → ℝ) : ℝ := (T 0 + T 1 + T 2) / 3

/-- Half the squared Frobenius norm of the deviatoric part. -/
noncomputable def devNorm (T : Fin 6 → ℝ) : ℝ :=
  ((T 0 - meanDiag T) ^ 2 + (T 1 - meanDiag T) ^ 2 + (T 2 - meanDiag T) ^ 2) / 2
    + T 3 ^ 2 + T 4 ^ 2 + T 5 ^ 2

/-- The tensor is exactly isotropic, or its deviatoric part is not below the code's relative
threshold `1e-30`. -/
def Resolved (T : Fin 6 → ℝ) : Prop :=
  devNorm T = 0 ∨ 1e-30 * meanDiag T ^ 2 < devNorm T

theorem eigen_dev (f : ℝ → ℝ) (hf : IsCosThird f) (a b c p q r : ℝ) (htr : a + b + c = 0)
    (c2 c3 : ℝ) (hc2d : c2 = a * b + b * c + c * a - p * p - q * q - r * r)
    (hc3d : c3 = a * (q * q) + b * (r * r) - 2 * p * q * r + c * (p * p - a * b))
    (hc2 : c2 < 0) (l : ℝ)
    (hl : l = 2 * multiplySign (f (minimum |(-0.5) * c3 * ((-3) / c2) * Real.sqrt ((-3) / c2)| 1))
      ((-0.5) * c3 * ((-3) / c2) * Real.sqrt ((-3) / c2)) / Real.sqrt ((-3) / c2)) :
    let r0 : Fin 3 → ℝ := ![a - l, p, r]
    let r1 : Fin 3 → ℝ := ![p, b - l, q]
    let r2 : Fin 3 → ℝ := ![r, q, c - l]
    let P := pivotRows r0 r1 r2 (dot3 r0 r0) (dot3 r1 r1) (dot3 r2 r2)
    let Q := planeProblem a b c p q r P.1 P.2.1 P.2.2.1 P.2.2.2
    IsEigenSystem (symMat ![a, b, c, p, q, r]) Q.1 Q.2.1 l Q.2.2.1 Q.2.2.2.1 Q.2.2.2.2 := by
  intro r0 r1 r2 P Q
  have hd := discr_le a b c p q r htr
  rw [← hc2d, ← hc3d] at hd
  obtain ⟨hroot, hbig⟩ := eval2_root f hf c2 c3 hc2 hd
  rw [← hl] at hroot hbig
  have hdet : dot3 r0 (crossProduct r1 r2) = 0 := by
    have : dot3 r0 (crossProduct r1 r2) = -(l ^ 3 + c2 * l + c3) + l ^ 2 * (a + b + c) := by
      rw [hc2d, hc3d]; simp [r0, r1, r2, dot3, crossProduct]; ring
    rw [this, hroot, htr]; ring
  have hrank : crossProduct r0 r1 ≠ 0 ∨ crossProduct r1 r2 ≠ 0 ∨ crossProduct r0 r2 ≠ 0 := by
    by_contra hcon
    push Not at hcon
    obtain ⟨h1, h2, h3⟩ := hcon
    have m0 := congrFun h2 0
    have m1 := congrFun h3 1
    have m2 := congrFun h1 2
    simp [r0, r1, r2, crossProduct] at m0 m1 m2
    have : 3 * l ^ 2 + c2 = 0 := by
      rw [hc2d]
      linear_combination m0 - m1 + m2 + 2 * l * htr
    linarith
  have hP := pivotRows_ok r0 r1 r2 hdet hrank
  apply planeProblem_ok a b c p q r P.1 P.2.1 P.2.2.1 P.2.2.2 l hP.orth hP.kpos hP.apos hP.ki_eq
    hP.ai_eq
  have n0 := hP.null0
  have n1 := hP.null1
  have n2 := hP.null2
  change dot3 r0 (crossProduct P.1 P.2.1) = 0 at n0
  change dot3 r1 (crossProduct P.1 P.2.1) = 0 at n1
  change dot3 r2 (crossProduct P.1 P.2.1) = 0 at n2
  generalize crossProduct P.1 P.2.1 = w at n0 n1 n2 ⊢
  simp [r0, dot3] at n0
  simp [r1, dot3] at n1
  simp [r2, dot3] at n2
  funext i
  fin_cases i <;> simp [symMat, Matrix.mulVec, dotProduct, Fin.sum_univ_three] <;> linarith

/-- **C55 (eigenproblem).**  With the exact function in place of the Padé approximation
(`IsCosThird`), `Eigen_Sym33_NonUnit` returns three nonzero, mutually orthogonal eigenvectors with
their eigenvalues, for every symmetric tensor that is exactly isotropic or resolved. -/
theorem eigenSym33_exact_partial (f : ℝ → ℝ) (hf : IsCosThird f) (T : Fin 6 → ℝ) (hT : Resolved T) :
    let e := eigenSym33NonUnit f T
    IsEigenSystem (symMat T) e.eval0 e.eval1 e.eval2 e.evec0 e.evec1 e.evec2 := by
  intro e
  have hc2dev : ∀ x0 x1 x2 x3 x4 x5 : ℝ, (x0 - (x0 + x1 + x2) / 3) * (x1 - (x0 + x1 + x2) / 3) +
      (x1 - (x0 + x1 + x2) / 3) * (x2 - (x0 + x1 + x2) / 3) +
      (x2 - (x0 + x1 + x2) / 3) * (x0 - (x0 + x1 + x2) / 3) - x3 * x3 - x4 * x4 - x5 * x5
      = - (((x0 - (x0 + x1 + x2) / 3) ^ 2 + (x1 - (x0 + x1 + x2) / 3) ^ 2
          + (x2 - (x0 + x1 + x2) / 3) ^ 2) / 2 + x3 ^ 2 + x4 ^ 2 + x5 ^ 2) := by
    intro x0 x1 x2 x3 x4 x5; ring
  have hdev := hc2dev (T 0) (T 1) (T 2) (T 3) (T 4) (T 5)
  set c1 := (T 0 + T 1 + T 2) / 3 with hc1
  set a := T 0 - c1 with ha
  set b := T 1 - c1 with hb
  set c := T 2 - c1 with hc
  set c2 := a * b + b * c + c * a - T 3 * T 3 - T 4 * T 4 - T 5 * T 5 with hc2
  have hdn : devNorm T = -c2 := by
    rw [hdev]; unfold devNorm meanDiag; rw [← hc1]; ring
  have htr : a + b + c = 0 := by rw [ha, hb, hc, hc1]; ring
  by_cases hlt : c2 < c1 * c1 * (-1.0e-30)
  · have hneg : c2 < 0 := by nlinarith [mul_self_nonneg c1]
    have key := eigen_dev f hf a b c (T 3) (T 4) (T 5) htr c2 _ hc2 rfl hneg _ rfl
    simp only at key
    set l := 2 * multiplySign (f (minimum |(-0.5) * (a * (T 4 * T 4) + b * (T 5 * T 5) - 2 * T 3 * T 4 * T 5 + c * (T 3 * T 3 - a * b)) * ((-3) / c2) * Real.sqrt ((-3) / c2)| 1))
      ((-0.5) * (a * (T 4 * T 4) + b * (T 5 * T 5) - 2 * T 3 * T 4 * T 5 + c * (T 3 * T 3 - a * b)) * ((-3) / c2) * Real.sqrt ((-3) / c2)) / Real.sqrt ((-3) / c2) with hl
    set P := pivotRows ![a - l, T 3, T 5] ![T 3, b - l, T 4] ![T 5, T 4, c - l]
      (dot3 ![a - l, T 3, T 5] ![a - l, T 3, T 5]) (dot3 ![T 3, b - l, T 4] ![T 3, b - l, T 4])
      (dot3 ![T 5, T 4, c - l] ![T 5, T 4, c - l]) with hP
    set Q := planeProblem a b c (T 3) (T 4) (T 5) P.1 P.2.1 P.2.2.1 P.2.2.2 with hQ
    have he : e = ⟨Q.1 + c1, Q.2.1 + c1, l + c1, Q.2.2.1, Q.2.2.2.1, Q.2.2.2.2⟩ := by
      simp only [e, eigenSym33NonUnit]
      simp only [K_S_XX, K_S_YY, K_S_ZZ, K_S_XY, K_S_YZ, K_S_ZX, ← hc1, ← ha, ← hb, ← hc, ← hc2,
        ← hl, if_pos hlt]
      have hk : pivotRows ![a - l, T 3, T 5] ![T 3, b - l, T 4] ![T 5, T 4, c - l]
          ((![a - l, T 3, T 5] : Fin 3 → ℝ) 0 * (![a - l, T 3, T 5] : Fin 3 → ℝ) 0 + T 3 * T 3 + T 5 * T 5)
          (T 3 * T 3 + (![T 3, b - l, T 4] : Fin 3 → ℝ) 1 * (![T 3, b - l, T 4] : Fin 3 → ℝ) 1 + T 4 * T 4)
          (T 5 * T 5 + T 4 * T 4 + (![T 5, T 4, c - l] : Fin 3 → ℝ) 2 * (![T 5, T 4, c - l] : Fin 3 → ℝ) 2)
          = P := by
        rw [hP]; simp [dot3]
      rw [hk]
    rw [he]
    simp only
    have shift : ∀ (v : Fin 3 → ℝ) (x : ℝ), symMat ![a, b, c, T 3, T 4, T 5] *ᵥ v = x • v →
        symMat T *ᵥ v = (x + c1) • v := by
      intro v x hv
      have hs : symMat T *ᵥ v = symMat ![a, b, c, T 3, T 4, T 5] *ᵥ v + c1 • v := by
        funext i
        fin_cases i <;>
          simp [symMat, Matrix.mulVec, dotProduct, Fin.sum_univ_three, ha, hb, hc] <;> ring
      rw [hs, hv, add_smul]
    exact ⟨shift _ _ key.ev0, shift _ _ key.ev1, shift _ _ key.ev2, key.ne0, key.ne1, key.ne2,
      key.o01, key.o02, key.o12⟩
  · have h0 : devNorm T = 0 := by
      rcases hT with h | h
      · exact h
      · exfalso; apply hlt
        rw [hdn] at h
        unfold meanDiag at h
        rw [← hc1] at h
        linarith
    have he : e = ⟨c1, c1, c1, ![1, 0, 0], ![0, 1, 0], ![0, 0, 1]⟩ := by
      simp only [e, eigenSym33NonUnit]
      simp only [K_S_XX, K_S_YY, K_S_ZZ, K_S_XY, K_S_YZ, K_S_ZX, ← hc1, ← ha, ← hb, ← hc, ← hc2,
        if_neg hlt]
    have z : a = 0 ∧ b = 0 ∧ c = 0 ∧ T 3 = 0 ∧ T 4 = 0 ∧ T 5 = 0 := by
      have h1 : (a ^ 2 + b ^ 2 + c ^ 2) / 2 + T 3 ^ 2 + T 4 ^ 2 + T 5 ^ 2 = 0 := by
        have := h0
        unfold devNorm meanDiag at this
        rw [← hc1] at this
        exact this
      have q1 := sq_nonneg a
      have q2 := sq_nonneg b
      have q3 := sq_nonneg c
      have q4 := sq_nonneg (T 3)
      have q5 := sq_nonneg (T 4)
      have q6 := sq_nonneg (T 5)
      refine ⟨?_, ?_, ?_, ?_, ?_, ?_⟩ <;> apply pow_eq_zero_iff (two_ne_zero) |>.mp <;> linarith
    obtain ⟨z0, z1, z2, z3, z4, z5⟩ := z
    have t0 : T 0 = c1 := by linarith [ha]
    have t1 : T 1 = c1 := by linarith [hb]
    have t2 : T 2 = c1 := by linarith [hc]
    rw [he]
    clear_value c1 a b c c2
    constructor
    any_goals (intro h; have h0 := congrFun h 0; have h1 := congrFun h 1; have h2 := congrFun h 2
               simp at h0 h1 h2)
    all_goals first
      | (funext i; fin_cases i <;>
          simp [symMat, Matrix.mulVec, dotProduct, Fin.sum_univ_three, z3, z4, z5, t0, t1, t2])
      | simp [dotProduct, Fin.sum_univ_three]

/-- With an orthogonal eigensystem of positive eigenvalues, any function of the matrix:
`Σ g(eᵢ)/|vᵢ|² vᵢ vᵢᵀ`. -/
noncomputable def spectral (g0 g1 g2 : ℝ) (v0 v1 v2 : Fin 3 → ℝ) : Matrix (Fin 3) (Fin 3) ℝ :=
  (g0 / (v0 ⬝ᵥ v0)) • vecMulVec v0 v0 + (g1 / (v1 ⬝ᵥ v1)) • vecMulVec v1 v1
    + (g2 / (v2 ⬝ᵥ v2)) • vecMulVec v2 v2

theorem dotProduct_self_pos {v : Fin 3 → ℝ} (h : v ≠ 0) : 0 < v ⬝ᵥ v := by
  rw [dotProduct_eq_dot3]
  rcases lt_or_eq_of_le (dot3_self_nonneg v) with h' | h'
  · exact h'
  · exact absurd (dot3_self_eq_zero v h'.symm) h

/-- A matrix is determined by its action on three orthogonal nonzero vectors. -/
theorem eq_of_frame (v0 v1 v2 : Fin 3 → ℝ) (n0 : v0 ≠ 0) (n1 : v1 ≠ 0) (n2 : v2 ≠ 0)
    (o01 : v0 ⬝ᵥ v1 = 0) (o02 : v0 ⬝ᵥ v2 = 0) (o12 : v1 ⬝ᵥ v2 = 0)
    (A B : Matrix (Fin 3) (Fin 3) ℝ) (h0 : A *ᵥ v0 = B *ᵥ v0) (h1 : A *ᵥ v1 = B *ᵥ v1)
    (h2 : A *ᵥ v2 = B *ᵥ v2) : A = B := by
  let V : Matrix (Fin 3) (Fin 3) ℝ := Matrix.of ![v0, v1, v2]
  have hVV : V * Vᵀ = Matrix.diagonal ![v0 ⬝ᵥ v0, v1 ⬝ᵥ v1, v2 ⬝ᵥ v2] := by
    have e : ∀ i j, (V * Vᵀ) i j = (V i) ⬝ᵥ (V j) := fun i j => by
      simp [Matrix.mul_apply, dotProduct]
    ext i j
    rw [e]
    fin_cases i <;> fin_cases j
    · rfl
    · exact o01
    · exact o02
    · exact (dotProduct_comm v1 v0).trans o01
    · rfl
    · exact o12
    · exact (dotProduct_comm v2 v0).trans o02
    · exact (dotProduct_comm v2 v1).trans o12
    · rfl
  have hdet : IsUnit V.det := by
    have h : V.det * V.det ≠ 0 := by
      have := congrArg Matrix.det hVV
      rw [Matrix.det_mul, Matrix.det_transpose, Matrix.det_diagonal, Fin.prod_univ_three] at this
      rw [this]
      simp only [Matrix.cons_val_zero, Matrix.cons_val_one, Matrix.cons_val]
      exact (mul_pos (mul_pos (dotProduct_self_pos n0) (dotProduct_self_pos n1))
        (dotProduct_self_pos n2)).ne'
    exact isUnit_iff_ne_zero.mpr (fun h' => h (by rw [h', zero_mul]))
  have hAB : A * Vᵀ = B * Vᵀ := by
    have e : ∀ (M : Matrix (Fin 3) (Fin 3) ℝ) i j, (M * Vᵀ) i j = (M *ᵥ (V j)) i := fun M i j => by
      simp [Matrix.mul_apply, Matrix.mulVec, dotProduct]
    ext i j
    rw [e, e]
    fin_cases j
    · exact congrFun h0 i
    · exact congrFun h1 i
    · exact congrFun h2 i
  have hT : IsUnit (Vᵀ).det := by rw [Matrix.det_transpose]; exact hdet
  have := congrArg (· * (Vᵀ)⁻¹) hAB
  simpa [Matrix.mul_assoc, Matrix.mul_nonsing_inv _ hT] using this

theorem spectral_mulVec (g0 g1 g2 : ℝ) (v0 v1 v2 : Fin 3 → ℝ) (n0 : v0 ≠ 0) (n1 : v1 ≠ 0)
    (n2 : v2 ≠ 0) (o01 : v0 ⬝ᵥ v1 = 0) (o02 : v0 ⬝ᵥ v2 = 0) (o12 : v1 ⬝ᵥ v2 = 0) :
    spectral g0 g1 g2 v0 v1 v2 *ᵥ v0 = g0 • v0 ∧ spectral g0 g1 g2 v0 v1 v2 *ᵥ v1 = g1 • v1 ∧
    spectral g0 g1 g2 v0 v1 v2 *ᵥ v2 = g2 • v2 := by
  have p0 := (dotProduct_self_pos n0).ne'
  have p1 := (dotProduct_self_pos n1).ne'
  have p2 := (dotProduct_self_pos n2).ne'
  have hv : ∀ u w : Fin 3 → ℝ, vecMulVec u u *ᵥ w = (u ⬝ᵥ w) • u := by
    intro u w; rw [Matrix.vecMulVec_mulVec]; ext i; simp; ring
  refine ⟨?_, ?_, ?_⟩ <;>
  · unfold spectral
    simp only [Matrix.add_mulVec, Matrix.smul_mulVec, hv, o01, o02, o12, dotProduct_comm v1 v0,
      dotProduct_comm v2 v0, dotProduct_comm v2 v1, zero_smul, smul_zero, add_zero, zero_add,
      smul_smul]
    congr 1
    field_simp

theorem spectral_mul (g0 g1 g2 h0 h1 h2 : ℝ) (v0 v1 v2 : Fin 3 → ℝ) (n0 : v0 ≠ 0) (n1 : v1 ≠ 0)
    (n2 : v2 ≠ 0) (o01 : v0 ⬝ᵥ v1 = 0) (o02 : v0 ⬝ᵥ v2 = 0) (o12 : v1 ⬝ᵥ v2 = 0) :
    spectral g0 g1 g2 v0 v1 v2 * spectral h0 h1 h2 v0 v1 v2
      = spectral (g0 * h0) (g1 * h1) (g2 * h2) v0 v1 v2 := by
  obtain ⟨a0, a1, a2⟩ := spectral_mulVec g0 g1 g2 v0 v1 v2 n0 n1 n2 o01 o02 o12
  obtain ⟨b0, b1, b2⟩ := spectral_mulVec h0 h1 h2 v0 v1 v2 n0 n1 n2 o01 o02 o12
  obtain ⟨c0, c1, c2⟩ := spectral_mulVec (g0 * h0) (g1 * h1) (g2 * h2) v0 v1 v2 n0 n1 n2 o01 o02 o12
  apply eq_of_frame v0 v1 v2 n0 n1 n2 o01 o02 o12
  · rw [← Matrix.mulVec_mulVec, b0, Matrix.mulVec_smul, a0, c0, smul_smul, mul_comm]
  · rw [← Matrix.mulVec_mulVec, b1, Matrix.mulVec_smul, a1, c1, smul_smul, mul_comm]
  · rw [← Matrix.mulVec_mulVec, b2, Matrix.mulVec_smul, a2, c2, smul_smul, mul_comm]

theorem spectral_eq_of_eigen (A : Matrix (Fin 3) (Fin 3) ℝ) (e0 e1 e2 : ℝ) (v0 v1 v2 : Fin 3 → ℝ)
    (h : IsEigenSystem A e0 e1 e2 v0 v1 v2) : A = spectral e0 e1 e2 v0 v1 v2 := by
  obtain ⟨a0, a1, a2⟩ := spectral_mulVec e0 e1 e2 v0 v1 v2 h.ne0 h.ne1 h.ne2 h.o01 h.o02 h.o12
  apply eq_of_frame v0 v1 v2 h.ne0 h.ne1 h.ne2 h.o01 h.o02 h.o12
  · rw [h.ev0, a0]
  · rw [h.ev1, a1]
  · rw [h.ev2, a2]

theorem spectral_one (v0 v1 v2 : Fin 3 → ℝ) (n0 : v0 ≠ 0) (n1 : v1 ≠ 0)
    (n2 : v2 ≠ 0) (o01 : v0 ⬝ᵥ v1 = 0) (o02 : v0 ⬝ᵥ v2 = 0) (o12 : v1 ⬝ᵥ v2 = 0) :
    spectral 1 1 1 v0 v1 v2 = 1 := by
  obtain ⟨a0, a1, a2⟩ := spectral_mulVec 1 1 1 v0 v1 v2 n0 n1 n2 o01 o02 o12
  apply eq_of_frame v0 v1 v2 n0 n1 n2 o01 o02 o12
  · rw [a0]; simp
  · rw [a1]; simp
  · rw [a2]; simp

/-- Eigenvalues of `MᵀM` for invertible `M` are positive. -/
theorem gram_eigen_pos (M : Matrix (Fin 3) (Fin 3) ℝ) (hM : M.det ≠ 0) (e : ℝ) (v : Fin 3 → ℝ)
    (hv : v ≠ 0) (h : (Mᵀ * M) *ᵥ v = e • v) : 0 < e := by
  have h1 : v ⬝ᵥ ((Mᵀ * M) *ᵥ v) = (M *ᵥ v) ⬝ᵥ (M *ᵥ v) := by
    rw [← Matrix.mulVec_mulVec, Matrix.dotProduct_mulVec, Matrix.vecMul_transpose]
  rw [h, dotProduct_smul, smul_eq_mul] at h1
  have hMv : M *ᵥ v ≠ 0 := by
    intro h0
    exact hM (Matrix.exists_mulVec_eq_zero_iff.mp ⟨v, hv, h0⟩)
  have h2 := dotProduct_self_pos hMv
  have h3 := dotProduct_self_pos hv
  rw [← h1] at h2
  exact (mul_pos_iff_of_pos_right h3).mp h2

/-- **C55 (Polar_Decomp).**  For every deformation gradient with positive determinant whose
`F⁻ᵀF⁻¹` is resolved, and with the exact trigonometric function, `Polar_Decomp` succeeds and
returns `V` and `R` with `F = V R`, `R` a rotation, `V` (a symmetric array) positive on every
vector and `V² = F Fᵀ`. -/
theorem polarDecomp_correct_partial (f : ℝ → ℝ) (hf : IsCosThird f) (F : Fin 9 → ℝ)
    (hF : 0 < (fullMat F).det)
    (hres : ∀ inv d, invertFull33 F = some (inv, d) → Resolved (squareFull33TFull33 inv)) :
    ∃ V R, polarDecomp f F = some (V, R) ∧
      fullMat F = symMat V * fullMat R ∧
      (fullMat R)ᵀ * fullMat R = 1 ∧ (fullMat R).det = 1 ∧
      (∀ x : Fin 3 → ℝ, x ≠ 0 → 0 < x ⬝ᵥ (symMat V *ᵥ x)) ∧
      symMat V * symMat V = fullMat F * (fullMat F)ᵀ := by
  obtain ⟨inv, hinv, hFi, hiF⟩ := invertFull33_of_det_pos F hF
  have hR := hres _ _ hinv
  set T := squareFull33TFull33 inv with hT
  have hE := eigenSym33_exact_partial f hf T hR
  simp only at hE
  have hTm : symMat T = (fullMat inv)ᵀ * fullMat inv := squareFull33TFull33_spec inv
  have hdi : (fullMat inv).det ≠ 0 := by
    intro h0
    have := congrArg Matrix.det hFi
    rw [Matrix.det_mul, h0, mul_zero, Matrix.det_one] at this
    exact zero_ne_one this
  have p0 := gram_eigen_pos (fullMat inv) hdi _ _ hE.ne0 (by rw [← hTm]; exact hE.ev0)
  have p1 := gram_eigen_pos (fullMat inv) hdi _ _ hE.ne1 (by rw [← hTm]; exact hE.ev1)
  have p2 := gram_eigen_pos (fullMat inv) hdi _ _ hE.ne2 (by rw [← hTm]; exact hE.ev2)
  have hspec := spectral_eq_of_eigen _ _ _ _ _ _ _ hE
  unfold polarDecomp
  rw [hinv]
  simp only [Option.map_some, ← hT, if_neg (not_lt.mpr p0.le), if_neg (not_lt.mpr p1.le),
    if_neg (not_lt.mpr p2.le)]
  generalize eigenSym33NonUnit f T = e at *
  obtain ⟨e0, e1, e2, v0, v1, v2⟩ := e
  simp only at *
  obtain ⟨-, -, -, n0, n1, n2, o01, o02, o12⟩ := hE
  refine ⟨_, _, rfl, ?_⟩
  have s0 := Real.sqrt_pos.mpr p0
  have s1 := Real.sqrt_pos.mpr p1
  have s2 := Real.sqrt_pos.mpr p2
  set V := store6 _ _ _ _ _ _ with hV
  have hVs : symMat V = spectral (1 / Real.sqrt e0) (1 / Real.sqrt e1) (1 / Real.sqrt e2) v0 v1 v2 := by
    rw [hV, symMat_store6]
    unfold spectral
    have d0 : v0 K_X * v0 K_X + v0 K_Y * v0 K_Y + v0 K_Z * v0 K_Z = v0 ⬝ᵥ v0 := by
      simp [dotProduct, Fin.sum_univ_three, K_X, K_Y, K_Z]
    have d1 : v1 K_X * v1 K_X + v1 K_Y * v1 K_Y + v1 K_Z * v1 K_Z = v1 ⬝ᵥ v1 := by
      simp [dotProduct, Fin.sum_univ_three, K_X, K_Y, K_Z]
    have d2 : v2 K_X * v2 K_X + v2 K_Y * v2 K_Y + v2 K_Z * v2 K_Z = v2 ⬝ᵥ v2 := by
      simp [dotProduct, Fin.sum_univ_three, K_X, K_Y, K_Z]
    rw [d0, d1, d2, ← div_div, ← div_div, ← div_div]
    ext i j
    fin_cases i <;> fin_cases j <;>
      simp [Matrix.vecMulVec_apply, K_X, K_Y, K_Z] <;> ring
  clear_value V
  clear hV
  -- `V² T = 1`
  have hVVT : symMat V * symMat V * symMat T = 1 := by
    rw [hspec, hVs, spectral_mul _ _ _ _ _ _ _ _ _ n0 n1 n2 o01 o02 o12,
      spectral_mul _ _ _ _ _ _ _ _ _ n0 n1 n2 o01 o02 o12,
      ← spectral_one v0 v1 v2 n0 n1 n2 o01 o02 o12]
    have h : ∀ x : ℝ, 0 < x → 1 / Real.sqrt x * (1 / Real.sqrt x) * x = 1 := by
      intro x hx
      have hs := Real.sqrt_pos.mpr hx
      have hm := Real.mul_self_sqrt hx.le
      field_simp
      nlinarith
    rw [h e0 p0, h e1 p1, h e2 p2]
  set A := fullMat F with hA
  set B := fullMat inv with hB
  set S := symMat V with hS
  have hSt : Sᵀ = S := symMat_transpose V
  have hAA : S * S = A * Aᵀ := by
    have h1 : symMat T * (A * Aᵀ) = 1 := by
      rw [hTm]
      calc Bᵀ * B * (A * Aᵀ) = Bᵀ * (B * A) * Aᵀ := by simp only [Matrix.mul_assoc]
        _ = (A * B)ᵀ := by rw [hiF, Matrix.mul_one, Matrix.transpose_mul]
        _ = 1 := by rw [hFi, Matrix.transpose_one]
    calc S * S = S * S * (symMat T * (A * Aᵀ)) := by rw [h1, Matrix.mul_one]
      _ = (S * S * symMat T) * (A * Aᵀ) := by simp only [Matrix.mul_assoc]
      _ = A * Aᵀ := by rw [hVVT, Matrix.one_mul]
  have hRm : fullMat (multFull33Sym33ReturnT inv V) = S * Bᵀ := by
    rw [multFull33Sym33ReturnT_spec, Matrix.transpose_mul, ← hS, hSt]
  rw [hRm]
  have hABt : Aᵀ * Bᵀ = 1 := by rw [← Matrix.transpose_mul, hiF, Matrix.transpose_one]
  have hVR : A = S * (S * Bᵀ) := by
    rw [← Matrix.mul_assoc, hAA, Matrix.mul_assoc, hABt, Matrix.mul_one]
  have hRR : (S * Bᵀ)ᵀ * (S * Bᵀ) = 1 := by
    rw [Matrix.transpose_mul, Matrix.transpose_transpose, hSt]
    calc B * S * (S * Bᵀ) = B * (S * S) * Bᵀ := by simp only [Matrix.mul_assoc]
      _ = (B * A) * (Aᵀ * Bᵀ) := by rw [hAA]; simp only [Matrix.mul_assoc]
      _ = 1 := by rw [hiF, hABt, Matrix.one_mul]
  have hposV : ∀ x : Fin 3 → ℝ, x ≠ 0 → 0 < x ⬝ᵥ (S *ᵥ x) := by
    intro x hx
    set Q := spectral (Real.sqrt (1 / Real.sqrt e0)) (Real.sqrt (1 / Real.sqrt e1))
      (Real.sqrt (1 / Real.sqrt e2)) v0 v1 v2 with hQ
    have hQQ : Q * Q = S := by
      rw [hQ, spectral_mul _ _ _ _ _ _ _ _ _ n0 n1 n2 o01 o02 o12, hVs,
        Real.mul_self_sqrt (by positivity), Real.mul_self_sqrt (by positivity),
        Real.mul_self_sqrt (by positivity)]
    have hQt : Qᵀ = Q := by
      rw [hQ]; unfold spectral
      ext i j; simp [Matrix.vecMulVec_apply]; ring
    have hSd : S.det ≠ 0 := by
      intro h0
      have := congrArg Matrix.det hVVT
      rw [Matrix.det_mul, Matrix.det_mul, h0, zero_mul, zero_mul, Matrix.det_one] at this
      exact zero_ne_one this
    have hQd : Q.det ≠ 0 := by
      intro h0; apply hSd; rw [← hQQ, Matrix.det_mul, h0, zero_mul]
    have h1 : x ⬝ᵥ (S *ᵥ x) = (Q *ᵥ x) ⬝ᵥ (Q *ᵥ x) := by
      rw [← hQQ, ← Matrix.mulVec_mulVec, Matrix.dotProduct_mulVec, ← Matrix.mulVec_transpose, hQt]
    rw [h1]
    exact dotProduct_self_pos (fun h0 => hQd (Matrix.exists_mulVec_eq_zero_iff.mp ⟨x, hx, h0⟩))
  refine ⟨hVR, hRR, ?_, hposV, hAA⟩
  -- determinant of the rotation
  have hd2 : (S * Bᵀ).det * (S * Bᵀ).det = 1 := by
    have := congrArg Matrix.det hRR
    rwa [Matrix.det_mul, Matrix.det_transpose, Matrix.det_one] at this
  have hSpos : 0 < S.det := by
    have hdet : S.det = 1 / Real.sqrt e0 * (1 / Real.sqrt e1) * (1 / Real.sqrt e2) := by
      let W : Matrix (Fin 3) (Fin 3) ℝ := (Matrix.of ![v0, v1, v2])ᵀ
      have hSW : S * W = W * Matrix.diagonal ![1 / Real.sqrt e0, 1 / Real.sqrt e1, 1 / Real.sqrt e2] := by
        obtain ⟨a0, a1, a2⟩ := spectral_mulVec (1 / Real.sqrt e0) (1 / Real.sqrt e1)
          (1 / Real.sqrt e2) v0 v1 v2 n0 n1 n2 o01 o02 o12
        rw [← hVs] at a0 a1 a2
        have e' : ∀ i j, (S * W) i j = (S *ᵥ ((Matrix.of ![v0, v1, v2]) j)) i := fun i j => by
          simp [W, Matrix.mul_apply, Matrix.mulVec, dotProduct]
        ext i j
        rw [e', Matrix.mul_diagonal]
        fin_cases j
        · exact (congrFun a0 i).trans (mul_comm _ _)
        · exact (congrFun a1 i).trans (mul_comm _ _)
        · exact (congrFun a2 i).trans (mul_comm _ _)
      have hWd : W.det ≠ 0 := by
        intro h0
        obtain ⟨x, hx, hx0⟩ := Matrix.exists_vecMul_eq_zero_iff.mpr h0
        -- `x ⊥ v0, v1, v2` hence `spectral 1 1 1 x = 0`
        have hx' : ∀ j, x ⬝ᵥ ((Matrix.of ![v0, v1, v2]) j) = 0 := fun j => by
          have := congrFun hx0 j
          simpa [W, Matrix.vecMul, dotProduct] using this
        have y0 : x ⬝ᵥ v0 = 0 := hx' 0
        have y1 : x ⬝ᵥ v1 = 0 := hx' 1
        have y2 : x ⬝ᵥ v2 = 0 := hx' 2
        have hone := spectral_one v0 v1 v2 n0 n1 n2 o01 o02 o12
        apply hx
        have : (1 : Matrix (Fin 3) (Fin 3) ℝ) *ᵥ x = 0 := by
          rw [← hone]
          have hv : ∀ u w : Fin 3 → ℝ, vecMulVec u u *ᵥ w = (u ⬝ᵥ w) • u := by
            intro u w; rw [Matrix.vecMulVec_mulVec]; ext i; simp; ring
          unfold spectral
          simp only [Matrix.add_mulVec, Matrix.smul_mulVec, hv, dotProduct_comm _ x, y0, y1, y2,
            zero_smul, smul_zero, add_zero]
        simpa using this
      have h2 := congrArg Matrix.det hSW
      rw [Matrix.det_mul, Matrix.det_mul, Matrix.det_diagonal, Fin.prod_univ_three, mul_comm] at h2
      have h3 := mul_left_cancel₀ hWd h2
      simpa using h3
    rw [hdet]; positivity
  have hBpos : 0 < B.det := by
    have := congrArg Matrix.det hFi
    rw [Matrix.det_mul, Matrix.det_one] at this
    exact (mul_pos_iff_of_pos_left hF).mp (by rw [this]; exact one_pos)
  have hpos : 0 < (S * Bᵀ).det := by
    rw [Matrix.det_mul, Matrix.det_transpose]; exact mul_pos hSpos hBpos
  nlinarith

theorem spectral_transpose (g0 g1 g2 : ℝ) (v0 v1 v2 : Fin 3 → ℝ) :
    (spectral g0 g1 g2 v0 v1 v2)ᵀ = spectral g0 g1 g2 v0 v1 v2 := by
  unfold spectral
  ext i j; simp [Matrix.vecMulVec_apply]; ring

/-- Diagonalisation: with `W` the matrix whose columns are the vectors. -/
theorem spectral_conj (v0 v1 v2 : Fin 3 → ℝ) (n0 : v0 ≠ 0) (n1 : v1 ≠ 0)
    (n2 : v2 ≠ 0) (o01 : v0 ⬝ᵥ v1 = 0) (o02 : v0 ⬝ᵥ v2 = 0) (o12 : v1 ⬝ᵥ v2 = 0) :
    ∃ W : Matrix (Fin 3) (Fin 3) ℝ, IsUnit W ∧ ∀ g0 g1 g2,
      spectral g0 g1 g2 v0 v1 v2 = W * Matrix.diagonal ![g0, g1, g2] * W⁻¹ := by
  let W : Matrix (Fin 3) (Fin 3) ℝ := (Matrix.of ![v0, v1, v2])ᵀ
  have hWd : W.det ≠ 0 := by
    intro h0
    obtain ⟨x, hx, hx0⟩ := Matrix.exists_vecMul_eq_zero_iff.mpr h0
    have hx' : ∀ j, x ⬝ᵥ ((Matrix.of ![v0, v1, v2]) j) = 0 := fun j => by
      have := congrFun hx0 j
      simpa [W, Matrix.vecMul, dotProduct] using this
    have y0 : x ⬝ᵥ v0 = 0 := hx' 0
    have y1 : x ⬝ᵥ v1 = 0 := hx' 1
    have y2 : x ⬝ᵥ v2 = 0 := hx' 2
    have hone := spectral_one v0 v1 v2 n0 n1 n2 o01 o02 o12
    apply hx
    have : (1 : Matrix (Fin 3) (Fin 3) ℝ) *ᵥ x = 0 := by
      rw [← hone]
      have hv : ∀ u w : Fin 3 → ℝ, vecMulVec u u *ᵥ w = (u ⬝ᵥ w) • u := by
        intro u w; rw [Matrix.vecMulVec_mulVec]; ext i; simp; ring
      unfold spectral
      simp only [Matrix.add_mulVec, Matrix.smul_mulVec, hv, dotProduct_comm _ x, y0, y1, y2,
        zero_smul, smul_zero, add_zero]
    simpa using this
  refine ⟨W, (Matrix.isUnit_iff_isUnit_det W).mpr (isUnit_iff_ne_zero.mpr hWd), ?_⟩
  intro g0 g1 g2
  have hSW : spectral g0 g1 g2 v0 v1 v2 * W = W * Matrix.diagonal ![g0, g1, g2] := by
    obtain ⟨a0, a1, a2⟩ := spectral_mulVec g0 g1 g2 v0 v1 v2 n0 n1 n2 o01 o02 o12
    have e' : ∀ i j, (spectral g0 g1 g2 v0 v1 v2 * W) i j
        = (spectral g0 g1 g2 v0 v1 v2 *ᵥ ((Matrix.of ![v0, v1, v2]) j)) i := fun i j => by
      simp [W, Matrix.mul_apply, Matrix.mulVec, dotProduct]
    ext i j
    rw [e', Matrix.mul_diagonal]
    fin_cases j
    · exact (congrFun a0 i).trans (mul_comm _ _)
    · exact (congrFun a1 i).trans (mul_comm _ _)
    · exact (congrFun a2 i).trans (mul_comm _ _)
  rw [← hSW, Matrix.mul_assoc, Matrix.mul_nonsing_inv _ (isUnit_iff_ne_zero.mpr hWd),
    Matrix.mul_one]

theorem spectral_det (g0 g1 g2 : ℝ) (v0 v1 v2 : Fin 3 → ℝ) (n0 : v0 ≠ 0) (n1 : v1 ≠ 0)
    (n2 : v2 ≠ 0) (o01 : v0 ⬝ᵥ v1 = 0) (o02 : v0 ⬝ᵥ v2 = 0) (o12 : v1 ⬝ᵥ v2 = 0) :
    (spectral g0 g1 g2 v0 v1 v2).det = g0 * g1 * g2 := by
  obtain ⟨W, hW, h⟩ := spectral_conj v0 v1 v2 n0 n1 n2 o01 o02 o12
  rw [h, Matrix.det_conj hW, Matrix.det_diagonal, Fin.prod_univ_three]
  simp

theorem spectral_posdef (g0 g1 g2 : ℝ) (v0 v1 v2 : Fin 3 → ℝ) (n0 : v0 ≠ 0) (n1 : v1 ≠ 0)
    (n2 : v2 ≠ 0) (o01 : v0 ⬝ᵥ v1 = 0) (o02 : v0 ⬝ᵥ v2 = 0) (o12 : v1 ⬝ᵥ v2 = 0)
    (h0 : 0 < g0) (h1 : 0 < g1) (h2 : 0 < g2) (x : Fin 3 → ℝ) (hx : x ≠ 0) :
    0 < x ⬝ᵥ (spectral g0 g1 g2 v0 v1 v2 *ᵥ x) := by
  set Q := spectral (Real.sqrt g0) (Real.sqrt g1) (Real.sqrt g2) v0 v1 v2 with hQ
  have hQQ : Q * Q = spectral g0 g1 g2 v0 v1 v2 := by
    rw [hQ, spectral_mul _ _ _ _ _ _ _ _ _ n0 n1 n2 o01 o02 o12,
      Real.mul_self_sqrt h0.le, Real.mul_self_sqrt h1.le, Real.mul_self_sqrt h2.le]
  have hQt : Qᵀ = Q := spectral_transpose ..
  have hQd : Q.det ≠ 0 := by
    rw [hQ, spectral_det _ _ _ _ _ _ n0 n1 n2 o01 o02 o12]
    have := Real.sqrt_pos.mpr h0
    have := Real.sqrt_pos.mpr h1
    have := Real.sqrt_pos.mpr h2
    positivity
  have h1 : x ⬝ᵥ (spectral g0 g1 g2 v0 v1 v2 *ᵥ x) = (Q *ᵥ x) ⬝ᵥ (Q *ᵥ x) := by
    rw [← hQQ, ← Matrix.mulVec_mulVec, Matrix.dotProduct_mulVec, ← Matrix.mulVec_transpose, hQt]
  rw [h1]
  exact dotProduct_self_pos (fun h0 => hQd (Matrix.exists_mulVec_eq_zero_iff.mp ⟨x, hx, h0⟩))

theorem spectral_exp (g0 g1 g2 : ℝ) (v0 v1 v2 : Fin 3 → ℝ) (n0 : v0 ≠ 0) (n1 : v1 ≠ 0)
    (n2 : v2 ≠ 0) (o01 : v0 ⬝ᵥ v1 = 0) (o02 : v0 ⬝ᵥ v2 = 0) (o12 : v1 ⬝ᵥ v2 = 0)
    (p0 : 0 < g0) (p1 : 0 < g1) (p2 : 0 < g2) :
    NormedSpace.exp (spectral (Real.log g0) (Real.log g1) (Real.log g2) v0 v1 v2)
      = spectral g0 g1 g2 v0 v1 v2 := by
  obtain ⟨W, hW, h⟩ := spectral_conj v0 v1 v2 n0 n1 n2 o01 o02 o12
  rw [h, h, Matrix.exp_conj W _ hW, Matrix.exp_diagonal]
  congr 3
  funext i
  rw [Pi.coe_exp, ← Real.exp_eq_exp_ℝ]
  fin_cases i
  · exact Real.exp_log p0
  · exact Real.exp_log p1
  · exact Real.exp_log p2

theorem normalize3_prod (v : Fin 3 → ℝ) (n : v ≠ 0) (i j : Fin 3) :
    normalize3 v i * normalize3 v j = v i * v j / (v ⬝ᵥ v) := by
  have hv := dotProduct_self_pos n
  have e : v 0 * v 0 + v 1 * v 1 + v 2 * v 2 = v ⬝ᵥ v := by
    simp [dotProduct, Fin.sum_univ_three]
  unfold normalize3
  simp only [e]
  rw [div_mul_div_comm, Real.mul_self_sqrt hv.le]

theorem spectralSym_spec (g0 g1 g2 : ℝ) (v0 v1 v2 : Fin 3 → ℝ) (n0 : v0 ≠ 0) (n1 : v1 ≠ 0)
    (n2 : v2 ≠ 0) :
    symMat (spectralSym (normalize3 v0) (normalize3 v1) (normalize3 v2) g0 g1 g2)
      = spectral g0 g1 g2 v0 v1 v2 := by
  unfold spectralSym
  simp only []
  rw [symMat_store6]
  have h : ∀ i j, spectral g0 g1 g2 v0 v1 v2 i j
      = normalize3 v0 i * g0 * normalize3 v0 j + normalize3 v1 i * g1 * normalize3 v1 j
        + normalize3 v2 i * g2 * normalize3 v2 j := by
    intro i j
    have e0 := normalize3_prod v0 n0 i j
    have e1 := normalize3_prod v1 n1 i j
    have e2 := normalize3_prod v2 n2 i j
    simp only [spectral, Matrix.add_apply, Matrix.smul_apply, Matrix.vecMulVec_apply, smul_eq_mul]
    linear_combination (-g0) * e0 - g1 * e1 - g2 * e2
  ext i j
  rw [h]
  fin_cases i <;> fin_cases j <;>
    simp [store9, K_F_XX, K_F_XY, K_F_XZ, K_F_YX, K_F_YY, K_F_YZ, K_F_ZX, K_F_ZY, K_F_ZZ] <;> ring

/-- **C55 (Polar_Left_LogV_Lame).**  For every deformation gradient with positive determinant whose
`F Fᵀ` is resolved, and with the exact trigonometric function, the routine returns `V`, `R` and
`L` with `F = V R`, `R` a rotation, `V` symmetric positive definite with `V² = F Fᵀ`, and `L` the
logarithm of `V` (its matrix exponential is `V`). -/
theorem polarLeftLogVLame_correct_partial (f : ℝ → ℝ) (hf : IsCosThird f) (F : Fin 9 → ℝ)
    (hF : 0 < (fullMat F).det) (hres : Resolved (squareFull33Full33T F)) :
    let V := (polarLeftLogVLame f F).1
    let R := (polarLeftLogVLame f F).2.1
    let L := (polarLeftLogVLame f F).2.2
    fullMat F = symMat V * fullMat R ∧
      (fullMat R)ᵀ * fullMat R = 1 ∧ (fullMat R).det = 1 ∧
      (∀ x : Fin 3 → ℝ, x ≠ 0 → 0 < x ⬝ᵥ (symMat V *ᵥ x)) ∧
      symMat V * symMat V = fullMat F * (fullMat F)ᵀ ∧
      NormedSpace.exp (symMat L) = symMat V := by
  have hE := eigenSym33_exact_partial f hf _ hres
  have hB := squareFull33Full33T_spec F
  intro V R L
  have hV : V = (polarLeftLogVLame f F).1 := rfl
  have hR : R = (polarLeftLogVLame f F).2.1 := rfl
  have hL : L = (polarLeftLogVLame f F).2.2 := rfl
  clear_value V R L
  unfold polarLeftLogVLame at hV hR hL
  simp only at hE hV hR hL
  generalize eigenSym33NonUnit f (squareFull33Full33T F) = e at *
  obtain ⟨e0, e1, e2, v0, v1, v2⟩ := e
  simp only at hE hV hR hL
  have hspec := spectral_eq_of_eigen _ _ _ _ _ _ _ hE
  have hdt : ((fullMat F)ᵀ).det ≠ 0 := by rw [Matrix.det_transpose]; exact hF.ne'
  have hBt : symMat (squareFull33Full33T F) = ((fullMat F)ᵀ)ᵀ * (fullMat F)ᵀ := by
    rw [hB, Matrix.transpose_transpose]
  have p0 := gram_eigen_pos _ hdt _ _ hE.ne0 (by rw [← hBt]; exact hE.ev0)
  have p1 := gram_eigen_pos _ hdt _ _ hE.ne1 (by rw [← hBt]; exact hE.ev1)
  have p2 := gram_eigen_pos _ hdt _ _ hE.ne2 (by rw [← hBt]; exact hE.ev2)
  obtain ⟨-, -, -, n0, n1, n2, o01, o02, o12⟩ := hE
  have s0 := Real.sqrt_pos.mpr p0
  have s1 := Real.sqrt_pos.mpr p1
  have s2 := Real.sqrt_pos.mpr p2
  have hVs : symMat V = spectral (Real.sqrt e0) (Real.sqrt e1) (Real.sqrt e2) v0 v1 v2 := by
    rw [hV, spectralSym_spec _ _ _ _ _ _ n0 n1 n2]
  have hLs : symMat L = spectral (Real.log (Real.sqrt e0)) (Real.log (Real.sqrt e1))
      (Real.log (Real.sqrt e2)) v0 v1 v2 := by
    rw [hL, spectralSym_spec _ _ _ _ _ _ n0 n1 n2]
  have hVi : ∀ g0 g1 g2 : ℝ, fullMat (multFull33Full33
      (store9 (normalize3 v0 0 * g0) (normalize3 v1 0 * g1) (normalize3 v2 0 * g2)
        (normalize3 v0 1 * g0) (normalize3 v1 1 * g1) (normalize3 v2 1 * g2)
        (normalize3 v0 2 * g0) (normalize3 v1 2 * g1) (normalize3 v2 2 * g2))
      (store9 (normalize3 v0 0) (normalize3 v0 1) (normalize3 v0 2) (normalize3 v1 0)
        (normalize3 v1 1) (normalize3 v1 2) (normalize3 v2 0) (normalize3 v2 1) (normalize3 v2 2)))
      = spectral g0 g1 g2 v0 v1 v2 := by
    intro g0 g1 g2
    rw [← spectralSym_spec _ _ _ _ _ _ n0 n1 n2, multFull33Full33_spec, spectralSym]
    rw [symMat_store6]
    ext i j
    fin_cases i <;> fin_cases j <;>
      simp [Matrix.mul_apply, Fin.sum_univ_three, fullMat, store9, K_F_XX, K_F_XY, K_F_XZ, K_F_YX,
        K_F_YY, K_F_YZ, K_F_ZX, K_F_ZY, K_F_ZZ] <;> ring
  have hRs : fullMat R = spectral (1 / Real.sqrt e0) (1 / Real.sqrt e1) (1 / Real.sqrt e2) v0 v1 v2
      * fullMat F := by
    rw [hR, multFull33Full33_spec, hVi]
  have hVVi : symMat V * spectral (1 / Real.sqrt e0) (1 / Real.sqrt e1) (1 / Real.sqrt e2) v0 v1 v2
      = 1 := by
    rw [hVs, spectral_mul _ _ _ _ _ _ _ _ _ n0 n1 n2 o01 o02 o12,
      ← spectral_one v0 v1 v2 n0 n1 n2 o01 o02 o12, mul_one_div_cancel s0.ne',
      mul_one_div_cancel s1.ne', mul_one_div_cancel s2.ne']
  have hVV : symMat V * symMat V = fullMat F * (fullMat F)ᵀ := by
    rw [← hB, hspec, hVs, spectral_mul _ _ _ _ _ _ _ _ _ n0 n1 n2 o01 o02 o12,
      Real.mul_self_sqrt p0.le, Real.mul_self_sqrt p1.le, Real.mul_self_sqrt p2.le]
  have hFVR : fullMat F = symMat V * fullMat R := by
    rw [hRs, ← Matrix.mul_assoc, hVVi, Matrix.one_mul]
  have hVd : 0 < (symMat V).det := by
    rw [hVs, spectral_det _ _ _ _ _ _ n0 n1 n2 o01 o02 o12]; positivity
  have hRRt : fullMat R * (fullMat R)ᵀ = 1 := by
    have hu : IsUnit (symMat V).det := isUnit_iff_ne_zero.mpr hVd.ne'
    have h : symMat V * (fullMat R * (fullMat R)ᵀ) * symMat V = symMat V * 1 * symMat V := by
      rw [Matrix.mul_one, hVV]
      conv_rhs => rw [hFVR, Matrix.transpose_mul, symMat_transpose]
      simp only [Matrix.mul_assoc]
    have h' := congrArg (fun M => (symMat V)⁻¹ * M * (symMat V)⁻¹) h
    simpa [Matrix.mul_assoc, Matrix.nonsing_inv_mul_cancel_left _ _ hu,
      Matrix.mul_nonsing_inv _ hu] using h'
  have hRR : (fullMat R)ᵀ * fullMat R = 1 := mul_eq_one_comm.mp hRRt
  refine ⟨hFVR, hRR, ?_, ?_, hVV, ?_⟩
  · have hd2 := congrArg Matrix.det hRR
    rw [Matrix.det_mul, Matrix.det_transpose, Matrix.det_one] at hd2
    have hd := congrArg Matrix.det hFVR
    rw [Matrix.det_mul] at hd
    have hpos : 0 < (fullMat R).det := by
      rw [hd] at hF
      exact (mul_pos_iff_of_pos_left hVd).mp hF
    nlinarith only [hd2, hpos]
  · intro x hx
    rw [hVs]
    exact spectral_posdef _ _ _ _ _ _ n0 n1 n2 o01 o02 o12 s0 s1 s2 x hx
  · rw [hLs, hVs]
    exact spectral_exp _ _ _ _ _ _ n0 n1 n2 o01 o02 o12 s0 s1 s2

/-- Non-vacuity: a simple shear combined with a stretch meets the hypotheses of
`polarLeftLogVLame_correct_partial`. -/
example : 0 < (fullMat (store9 2 1 0 0 1 0 0 0 3 : Fin 9 → ℝ)).det ∧
    Resolved (squareFull33Full33T (store9 2 1 0 0 1 0 0 0 3 : Fin 9 → ℝ)) := by
  constructor
  · rw [Matrix.det_fin_three]
    simp [fullMat, store9, K_F_XX, K_F_XY, K_F_XZ, K_F_YX, K_F_YY, K_F_YZ, K_F_ZX, K_F_ZY, K_F_ZZ]
  · right
    simp [devNorm, meanDiag, squareFull33Full33T, store6, store9, K_F_XX, K_F_XY, K_F_XZ, K_F_YX,
      K_F_YY, K_F_YZ, K_F_ZX, K_F_ZY, K_F_ZZ, K_S_XX, K_S_YY, K_S_ZZ, K_S_XY, K_S_YZ, K_S_ZX]
    norm_num

/-- Non-vacuity of `polarDecomp_correct_partial` for the same deformation gradient, with the exact
function. -/
example : ∃ V R, polarDecomp (fun x => Real.cos (Real.arccos x / 3))
    (store9 2 1 0 0 1 0 0 0 3 : Fin 9 → ℝ) = some (V, R) ∧
      fullMat (store9 2 1 0 0 1 0 0 0 3 : Fin 9 → ℝ) = symMat V * fullMat R := by
  have hd : 0 < (fullMat (store9 2 1 0 0 1 0 0 0 3 : Fin 9 → ℝ)).det := by
    rw [Matrix.det_fin_three]
    simp [fullMat, store9, K_F_XX, K_F_XY, K_F_XZ, K_F_YX, K_F_YY, K_F_YZ, K_F_ZX, K_F_ZY, K_F_ZZ]
  have h := polarDecomp_correct_partial _ isCosThird_exact _ hd (by
    intro inv d h
    right
    simp [invertFull33, store9, K_F_XX, K_F_XY, K_F_XZ, K_F_YX, K_F_YY, K_F_YZ, K_F_ZX, K_F_ZY,
      K_F_ZZ] at h
    obtain ⟨h, -⟩ := h
    rw [← h]
    simp [devNorm, meanDiag, squareFull33TFull33, store6, store9, K_F_XX, K_F_XY, K_F_XZ, K_F_YX,
      K_F_YY, K_F_YZ, K_F_ZX, K_F_ZY, K_F_ZZ, K_S_XX, K_S_YY, K_S_ZZ, K_S_XY, K_S_YZ, K_S_ZX]
    norm_num)
  obtain ⟨V, R, h1, h2, -⟩ := h
  exact ⟨V, R, h1, h2⟩

end NimbleSM.Tensor
