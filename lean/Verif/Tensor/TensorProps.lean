import Verif.Tensor.Tensor
import Mathlib.LinearAlgebra.Matrix.Determinant.Basic
import Mathlib.LinearAlgebra.Matrix.NonsingularInverse
import Mathlib.LinearAlgebra.CrossProduct
import Mathlib.Tactic.FinCases
import Mathlib.Tactic.FieldSimp
import Mathlib.Tactic.Linarith
import Mathlib.Tactic.NormNum
import Mathlib.Tactic.LinearCombination

/-!
# C54: the component routines compute 3×3 matrix algebra

Specification side: `fullMat` and `symMat` say, with literal indices, which matrix a stored array
denotes: the documented component order is XX, YY, ZZ, XY, YZ, ZX, YX, ZY, XZ for full tensors
and XX, YY, ZZ, XY, YZ, ZX for symmetric ones.
-/

namespace NimbleSM.Tensor

open Matrix

/-- The matrix a full tensor array `[XX,YY,ZZ,XY,YZ,ZX,YX,ZY,XZ]` denotes. -/
def fullMat {K : Type*} (a : Fin 9 → K) : Matrix (Fin 3) (Fin 3) K :=
  !![a 0, a 3, a 8;
     a 6, a 1, a 4;
     a 5, a 7, a 2]

/-- The matrix a symmetric tensor array `[XX,YY,ZZ,XY,YZ,ZX]` denotes. -/
def symMat {K : Type*} (a : Fin 6 → K) : Matrix (Fin 3) (Fin 3) K :=
  !![a 0, a 3, a 5;
     a 3, a 1, a 4;
     a 5, a 4, a 2]

set_option linter.unusedSectionVars false

variable {K : Type*} [Field K]

theorem fullMat_injective : Function.Injective (fullMat : (Fin 9 → K) → _) := by
  intro a b h
  funext i
  have h' := fun r c => congrFun (congrFun h r) c
  have := h' 0 0; have := h' 0 1; have := h' 0 2
  have := h' 1 0; have := h' 1 1; have := h' 1 2
  have := h' 2 0; have := h' 2 1; have := h' 2 2
  fin_cases i <;> simp_all [fullMat]

theorem symMat_injective : Function.Injective (symMat : (Fin 6 → K) → _) := by
  intro a b h
  funext i
  have h' := fun r c => congrFun (congrFun h r) c
  have := h' 0 0; have := h' 0 1; have := h' 0 2
  have := h' 1 1; have := h' 1 2
  have := h' 2 2
  fin_cases i <;> simp_all [symMat]

theorem symMat_transpose (s : Fin 6 → K) : (symMat s)ᵀ = symMat s := by
  ext i j
  fin_cases i <;> fin_cases j <;> rfl

/-- Unfold everything down to component equations. -/
macro "tensor_unfold" : tactic =>
  `(tactic| (ext i j; fin_cases i <;> fin_cases j <;>
      simp [fullMat, symMat, store9, store6, Matrix.mul_apply, Fin.sum_univ_three,
        K_F_XX, K_F_XY, K_F_XZ, K_F_YX, K_F_YY, K_F_YZ, K_F_ZX, K_F_ZY, K_F_ZZ,
        K_S_XX, K_S_XY, K_S_XZ, K_S_YX, K_S_YY, K_S_YZ, K_S_ZX, K_S_ZY, K_S_ZZ]))

theorem fullMat_store9 (xx xy xz yx yy yz zx zy zz : K) :
    fullMat (store9 xx xy xz yx yy yz zx zy zz) = !![xx, xy, xz; yx, yy, yz; zx, zy, zz] := by
  tensor_unfold

theorem symMat_store6 (xx yy zz xy yz zx : K) :
    symMat (store6 xx yy zz xy yz zx) = !![xx, xy, zx; xy, yy, yz; zx, yz, zz] := by
  tensor_unfold

/-- C54 `Mult_Scalar_Full33`. -/
theorem multScalarFull33_spec (a : K) (A : Fin 9 → K) :
    fullMat (multScalarFull33 a A) = a • fullMat A := by
  unfold multScalarFull33; tensor_unfold

/-- C54 `Sum_Full33_Full33`. -/
theorem sumFull33Full33_spec (A B : Fin 9 → K) :
    fullMat (sumFull33Full33 A B) = fullMat A + fullMat B := by
  unfold sumFull33Full33; tensor_unfold

/-- C54 `Sum_Sym33_Full33`. -/
theorem sumSym33Full33_spec (A : Fin 6 → K) (B : Fin 9 → K) :
    fullMat (sumSym33Full33 A B) = symMat A + fullMat B := by
  unfold sumSym33Full33; tensor_unfold

/-- C54 `Mult_Full33_Full33`. -/
theorem multFull33Full33_spec (A B : Fin 9 → K) :
    fullMat (multFull33Full33 A B) = fullMat A * fullMat B := by
  unfold multFull33Full33; tensor_unfold

/-- C54 `Mult_Sym33_Full33`. -/
theorem multSym33Full33_spec (S : Fin 6 → K) (A : Fin 9 → K) :
    fullMat (multSym33Full33 S A) = symMat S * fullMat A := by
  unfold multSym33Full33; tensor_unfold

/-- C54 `Mult_Scalar_Full33_Full33`. -/
theorem multScalarFull33Full33_spec (a : K) (A B : Fin 9 → K) :
    fullMat (multScalarFull33Full33 a A B) = a • (fullMat A * fullMat B) := by
  unfold multScalarFull33Full33; tensor_unfold <;> left <;> ring

/-- C54 `Mult_Full33_Sym33_ReturnT`. -/
theorem multFull33Sym33ReturnT_spec (A : Fin 9 → K) (S : Fin 6 → K) :
    fullMat (multFull33Sym33ReturnT A S) = (fullMat A * symMat S)ᵀ := by
  unfold multFull33Sym33ReturnT; tensor_unfold <;> ring

/-- C54 `Square_Full33T_Full33`. -/
theorem squareFull33TFull33_spec (A : Fin 9 → K) :
    symMat (squareFull33TFull33 A) = (fullMat A)ᵀ * fullMat A := by
  unfold squareFull33TFull33; tensor_unfold <;> ring

/-- C54 `Square_Full33_Full33T`. -/
theorem squareFull33Full33T_spec (A : Fin 9 → K) :
    symMat (squareFull33Full33T A) = fullMat A * (fullMat A)ᵀ := by
  unfold squareFull33Full33T; tensor_unfold <;> ring

/-- C54 `Rotate_Sym33_Using_Rtranspose_S_R`. -/
theorem rotateSym33_spec (S : Fin 6 → K) (R : Fin 9 → K) :
    symMat (rotateSym33 S R) = (fullMat R)ᵀ * symMat S * fullMat R := by
  unfold rotateSym33; tensor_unfold <;> ring

/-- C54 `Unrotate_Sym33_Using_R_S_Rtranspose`. -/
theorem unrotateSym33_spec (S : Fin 6 → K) (R : Fin 9 → K) :
    symMat (unrotateSym33 S R) = fullMat R * symMat S * (fullMat R)ᵀ := by
  unfold unrotateSym33; tensor_unfold <;> ring

/-- C54: un-rotating a rotated tensor returns it, for every orthogonal `R`, and conversely. -/
theorem rotate_unrotate (S : Fin 6 → K) (R : Fin 9 → K) (hR : (fullMat R)ᵀ * fullMat R = 1) :
    unrotateSym33 (rotateSym33 S R) R = S ∧ rotateSym33 (unrotateSym33 S R) R = S := by
  have hR' : fullMat R * (fullMat R)ᵀ = 1 := mul_eq_one_comm.mp hR
  constructor
  · apply symMat_injective
    rw [unrotateSym33_spec, rotateSym33_spec]
    calc fullMat R * ((fullMat R)ᵀ * symMat S * fullMat R) * (fullMat R)ᵀ
        = (fullMat R * (fullMat R)ᵀ) * symMat S * (fullMat R * (fullMat R)ᵀ) := by
          simp only [Matrix.mul_assoc]
      _ = symMat S := by rw [hR']; simp
  · apply symMat_injective
    rw [rotateSym33_spec, unrotateSym33_spec]
    calc (fullMat R)ᵀ * (fullMat R * symMat S * (fullMat R)ᵀ) * fullMat R
        = ((fullMat R)ᵀ * fullMat R) * symMat S * ((fullMat R)ᵀ * fullMat R) := by
          simp only [Matrix.mul_assoc]
      _ = symMat S := by rw [hR]; simp

/-- C54 `SymPart_Full33` and `SkewPart_Full33` are the symmetric and skew parts, and add up. -/
theorem symPart_skewPart_spec [CharZero K] (A : Fin 9 → K) :
    symMat (symPartFull33 A) = (1/2 : K) • (fullMat A + (fullMat A)ᵀ) ∧
    fullMat (skewPartFull33 A) = (1/2 : K) • (fullMat A - (fullMat A)ᵀ) ∧
    symMat (symPartFull33 A) + fullMat (skewPartFull33 A) = fullMat A ∧
    (fullMat (skewPartFull33 A))ᵀ = - fullMat (skewPartFull33 A) := by
  refine ⟨?_, ?_, ?_, ?_⟩
  · unfold symPartFull33; tensor_unfold <;> ring
  · unfold skewPartFull33; tensor_unfold
  · unfold symPartFull33 skewPartFull33; tensor_unfold <;> ring
  · unfold skewPartFull33; tensor_unfold <;> ring

/-- C54 `Determinant_Full33`. -/
theorem determinantFull33_spec (A : Fin 9 → K) :
    determinantFull33 A = (fullMat A).det := by
  rw [Matrix.det_fin_three]
  simp [determinantFull33, fullMat, K_F_XX, K_F_XY, K_F_XZ, K_F_YX, K_F_YY, K_F_YZ, K_F_ZX,
    K_F_ZY, K_F_ZZ]
  ring

/-- C54 `CrossProduct` is the vector product. -/
theorem crossProduct_spec (u v : Fin 3 → K) : crossProduct u v = u ⨯₃ v := by
  ext i
  fin_cases i <;> simp [crossProduct, cross_apply]

/-- C54 norms: the number under the root is the squared Frobenius norm. -/
theorem normSq_spec (A : Fin 9 → K) (S : Fin 6 → K) :
    normSqFull33 A = ((fullMat A)ᵀ * fullMat A).trace ∧
    normSqSym33 S = ((symMat S)ᵀ * symMat S).trace := by
  constructor <;>
  · simp [normSqFull33, normSqSym33, Matrix.trace, Matrix.mul_apply, Fin.sum_univ_three, fullMat,
      symMat,
      K_F_XX, K_F_XY, K_F_XZ, K_F_YX, K_F_YY, K_F_YZ, K_F_ZX, K_F_ZY, K_F_ZZ,
      K_S_XX, K_S_XY, K_S_XZ, K_S_YX, K_S_YY, K_S_YZ, K_S_ZX, K_S_ZY, K_S_ZZ]
    try ring

/-- C54: zeroing and copying. -/
theorem zero_setEqual_spec (A : Fin 9 → K) (S : Fin 6 → K) :
    fullMat (zeroFull33 : Fin 9 → K) = 0 ∧ setEqualFull33 A = A ∧ setEqualSym33 S = S := by
  refine ⟨?_, ?_, ?_⟩
  · unfold zeroFull33; tensor_unfold
  · apply fullMat_injective; unfold setEqualFull33; tensor_unfold
  · apply symMat_injective; unfold setEqualSym33; tensor_unfold

section Inverse
variable [LinearOrder K]

/-- C54 `Invert_Full33`: it is refused exactly for negative determinants; when it returns and the
determinant is not zero, the result is the two-sided inverse and the returned number is the
determinant. -/
theorem invertFull33_spec (A : Fin 9 → K) :
    (invertFull33 A = none ↔ (fullMat A).det < 0) ∧
    ∀ inv d, invertFull33 A = some (inv, d) →
      d = (fullMat A).det ∧
      ((fullMat A).det ≠ 0 → fullMat A * fullMat inv = 1 ∧ fullMat inv * fullMat A = 1) := by
  have hd : A K_F_XX * (A K_F_YY * A K_F_ZZ - A K_F_YZ * A K_F_ZY) -
      A K_F_XY * (A K_F_YX * A K_F_ZZ - A K_F_YZ * A K_F_ZX) +
      A K_F_XZ * (A K_F_YX * A K_F_ZY - A K_F_YY * A K_F_ZX) = (fullMat A).det := by
    rw [← determinantFull33_spec]; rfl
  unfold invertFull33
  simp only [hd]
  constructor
  · by_cases h : (fullMat A).det ≥ 0
    · simp [h]
    · simp [h, lt_of_not_ge h]
  · intro inv d h
    split at h
    · simp only [Option.some.injEq, Prod.mk.injEq] at h
      obtain ⟨h1, h2⟩ := h
      refine ⟨h2.symm, fun hne => ?_⟩
      have key : fullMat A * fullMat inv = 1 := by
        rw [← h1]
        ext i j
        have hdet := hd
        generalize (fullMat A).det = D at *
        fin_cases i <;> fin_cases j <;>
          simp [fullMat, store9, Matrix.mul_apply, Fin.sum_univ_three,
            K_F_XX, K_F_XY, K_F_XZ, K_F_YX, K_F_YY, K_F_YZ, K_F_ZX, K_F_ZY, K_F_ZZ] at hdet ⊢ <;>
          field_simp <;> first | linear_combination hdet | ring
      exact ⟨key, mul_eq_one_comm.mp key⟩
    · simp at h

/-- C54: every matrix with positive determinant is inverted. -/
theorem invertFull33_of_det_pos (A : Fin 9 → K) (h : 0 < (fullMat A).det) :
    ∃ inv, invertFull33 A = some (inv, (fullMat A).det) ∧
      fullMat A * fullMat inv = 1 ∧ fullMat inv * fullMat A = 1 := by
  obtain ⟨h1, h2⟩ := invertFull33_spec A
  cases hA : invertFull33 A with
  | none => exact absurd (h1.mp hA) (not_lt.mpr h.le)
  | some r =>
    obtain ⟨inv, d⟩ := r
    obtain ⟨hd, hi⟩ := h2 inv d hA
    exact ⟨inv, by rw [hd], hi h.ne'⟩

/-- A singular matrix passes the assertion of `Invert_Full33` (whose message speaks of singular
matrices): the zero matrix is not rejected. -/
theorem invertFull33_accepts_singular :
    (invertFull33 (fun _ => (0 : K))).isSome = true := by
  simp [invertFull33]

/-- `Invert3x3` refuses exactly the non-positive determinants, otherwise it returns the two-sided
inverse and the determinant. -/
theorem invert3x3_spec (A : Fin 3 → Fin 3 → K) :
    (invert3x3 A = none ↔ (Matrix.of A).det ≤ 0) ∧
    ∀ inv d, invert3x3 A = some (inv, d) →
      d = (Matrix.of A).det ∧ Matrix.of A * Matrix.of inv = 1 ∧ Matrix.of inv * Matrix.of A = 1 := by
  have hd : A 0 0 * (A 1 1 * A 2 2 - A 1 2 * A 2 1) -
      A 0 1 * (A 1 0 * A 2 2 - A 1 2 * A 2 0) +
      A 0 2 * (A 1 0 * A 2 1 - A 1 1 * A 2 0) = (Matrix.of A).det := by
    rw [Matrix.det_fin_three]; simp; ring
  unfold invert3x3
  simp only [hd]
  constructor
  · by_cases h : (Matrix.of A).det ≤ 0 <;> simp [h]
  · intro inv d h
    split at h
    · simp at h
    · rename_i hpos
      simp only [Option.some.injEq, Prod.mk.injEq] at h
      obtain ⟨h1, h2⟩ := h
      have hne : (Matrix.of A).det ≠ 0 := fun h0 => hpos h0.le
      have key : Matrix.of A * Matrix.of inv = 1 := by
        rw [← h1]
        ext i j
        have hdet := hd
        generalize (Matrix.of A).det = D at *
        fin_cases i <;> fin_cases j <;>
          simp [Matrix.mul_apply, Fin.sum_univ_three] at hdet ⊢ <;>
          field_simp <;> first | linear_combination hdet | ring
      exact ⟨h2.symm, key, mul_eq_one_comm.mp key⟩

end Inverse

/-- `BCH` returns the four-term Baker–Campbell–Hausdorff expansion, written with commutators
`⁅X,Y⁆ = XY - YX`: `X + Y + 1/2 [X,Y] + 1/12 ([X,[X,Y]] + [Y,[Y,X]]) - 1/24 [Y,[X,[X,Y]]]`. -/
theorem bch_spec [CharZero K] (x y : Fin 9 → K) :
    let X := fullMat x
    let Y := fullMat y
    let br : Matrix (Fin 3) (Fin 3) K → Matrix (Fin 3) (Fin 3) K → Matrix (Fin 3) (Fin 3) K :=
      fun P Q => P * Q - Q * P
    fullMat (bch x y) =
      X + Y + (1/2 : K) • br X Y + (1/12 : K) • (br X (br X Y) + br Y (br Y X))
        - (1/24 : K) • br Y (br X (br X Y)) := by
  intro X Y br
  simp only [bch, sumFull33Full33_spec, multScalarFull33Full33_spec, multFull33Full33_spec]
  simp only [br]
  change X + Y + _ + _ + _ + _ + _ + _ + _ + _ + _ + _ + _ + _ = _
  simp only [Matrix.mul_sub, Matrix.sub_mul, smul_sub, smul_add, Matrix.mul_assoc]
  module

/-- `BCH_Sym33_Full33` is `BCH` of the symmetric matrix. -/
theorem bchSym33Full33_spec (s : Fin 6 → K) (y : Fin 9 → K) :
    ∃ x, fullMat x = symMat s ∧ bchSym33Full33 s y = bch x y :=
  ⟨_, by tensor_unfold, rfl⟩

/-! Non-vacuity: concrete instances. -/

/-- The rotation by 90° about z, in the stored order. -/
def rotZ90 : Fin 9 → ℚ := ![0, 0, 1, -1, 0, 0, 1, 0, 0]

example : (fullMat rotZ90)ᵀ * fullMat rotZ90 = 1 := by
  ext i j; fin_cases i <;> fin_cases j <;>
    simp [rotZ90, fullMat, Matrix.mul_apply, Fin.sum_univ_three]

example : rotateSym33 (![1, 2, 3, 4, 5, 6] : Fin 6 → ℚ) rotZ90 ≠ ![1, 2, 3, 4, 5, 6] := by
  intro h
  have := congrFun h 0
  simp [rotateSym33, store6, rotZ90, K_S_XX, K_S_XY, K_S_XZ, K_S_YX, K_S_YY, K_S_YZ, K_S_ZX,
    K_S_ZY, K_S_ZZ, K_F_XX, K_F_XY, K_F_XZ, K_F_YX, K_F_YY, K_F_YZ, K_F_ZX, K_F_ZY, K_F_ZZ] at this

example : 0 < (fullMat (![2, 3, 4, 1, 0, 0, 0, 1, 0] : Fin 9 → ℚ)).det := by
  rw [Matrix.det_fin_three]
  simp [fullMat]

end NimbleSM.Tensor
