import Mathlib.Algebra.Order.Field.Basic
import Mathlib.Data.Fin.VecNotation
import Mathlib.Tactic.Ring

/-!
# Small-tensor routines of `src/nimble_utils.h`

Scalars range over a linearly ordered field `K` (exact arithmetic instead of `double`;
this is a simplification stated in DESIGN.md).  A C array `ScalarT[9]` / `ScalarT[6]` /
`ScalarT[3]` is a function `Fin 9 → K` / `Fin 6 → K` / `Fin 3 → K`.  The C functions write their
result through a pointer that must not alias an input (`NIMBLE_DEBUG_ASSERT`); here they are
pure functions, so aliasing is not modelled.
-/

namespace NimbleSM.Tensor

/- nimble_utils.h:85-112: component numbering of vectors, symmetric and full tensors. -/
def K_X : Fin 3 := 0
def K_Y : Fin 3 := 1
def K_Z : Fin 3 := 2
def K_S_XX : Fin 6 := 0
def K_S_YY : Fin 6 := 1
def K_S_ZZ : Fin 6 := 2
def K_S_XY : Fin 6 := 3
def K_S_YZ : Fin 6 := 4
def K_S_ZX : Fin 6 := 5
def K_S_YX : Fin 6 := 3
def K_S_ZY : Fin 6 := 4
def K_S_XZ : Fin 6 := 5
def K_F_XX : Fin 9 := 0
def K_F_YY : Fin 9 := 1
def K_F_ZZ : Fin 9 := 2
def K_F_XY : Fin 9 := 3
def K_F_YZ : Fin 9 := 4
def K_F_ZX : Fin 9 := 5
def K_F_YX : Fin 9 := 6
def K_F_ZY : Fin 9 := 7
def K_F_XZ : Fin 9 := 8

/-- The nine assignments `result[K_F_XX] = xx; result[K_F_XY] = xy; ...`
that end every function returning a full tensor (e.g. nimble_utils.h:212-220). -/
def store9 {K : Type*} (xx xy xz yx yy yz zx zy zz : K) : Fin 9 → K := fun i =>
  if i = K_F_XX then xx else if i = K_F_XY then xy else if i = K_F_XZ then xz
  else if i = K_F_YX then yx else if i = K_F_YY then yy else if i = K_F_YZ then yz
  else if i = K_F_ZX then zx else if i = K_F_ZY then zy else zz

/-- The six assignments `result[K_S_XX] = xx; result[K_S_YY] = yy; ...`
that end every function returning a symmetric tensor (e.g. nimble_utils.h:199-204). -/
def store6 {K : Type*} (xx yy zz xy yz zx : K) : Fin 6 → K := fun i =>
  if i = K_S_XX then xx else if i = K_S_YY then yy else if i = K_S_ZZ then zz
  else if i = K_S_XY then xy else if i = K_S_YZ then yz else zx

variable {K : Type*} [Field K] [LinearOrder K]

/-- nimble_utils.h:195-205 `Square_Full33T_Full33`: `matᵀ mat`. -/
def squareFull33TFull33 (mat : Fin 9 → K) : Fin 6 → K :=
  store6
    (mat K_F_XX * mat K_F_XX + mat K_F_YX * mat K_F_YX + mat K_F_ZX * mat K_F_ZX)
    (mat K_F_XY * mat K_F_XY + mat K_F_YY * mat K_F_YY + mat K_F_ZY * mat K_F_ZY)
    (mat K_F_XZ * mat K_F_XZ + mat K_F_YZ * mat K_F_YZ + mat K_F_ZZ * mat K_F_ZZ)
    (mat K_F_XX * mat K_F_XY + mat K_F_YX * mat K_F_YY + mat K_F_ZX * mat K_F_ZY)
    (mat K_F_XY * mat K_F_XZ + mat K_F_YY * mat K_F_YZ + mat K_F_ZY * mat K_F_ZZ)
    (mat K_F_XX * mat K_F_XZ + mat K_F_YX * mat K_F_YZ + mat K_F_ZX * mat K_F_ZZ)

/-- nimble_utils.h:209-221 `Mult_Scalar_Full33`. -/
def multScalarFull33 (a : K) (mat : Fin 9 → K) : Fin 9 → K :=
  store9
    (a * mat K_F_XX)
    (a * mat K_F_XY)
    (a * mat K_F_XZ)
    (a * mat K_F_YX)
    (a * mat K_F_YY)
    (a * mat K_F_YZ)
    (a * mat K_F_ZX)
    (a * mat K_F_ZY)
    (a * mat K_F_ZZ)

/-- nimble_utils.h:225-237 `Sum_Full33_Full33`. -/
def sumFull33Full33 (A B : Fin 9 → K) : Fin 9 → K :=
  store9
    (A K_F_XX + B K_F_XX)
    (A K_F_XY + B K_F_XY)
    (A K_F_XZ + B K_F_XZ)
    (A K_F_YX + B K_F_YX)
    (A K_F_YY + B K_F_YY)
    (A K_F_YZ + B K_F_YZ)
    (A K_F_ZX + B K_F_ZX)
    (A K_F_ZY + B K_F_ZY)
    (A K_F_ZZ + B K_F_ZZ)

/-- nimble_utils.h:241-253 `Sum_Sym33_Full33`. -/
def sumSym33Full33 (A : Fin 6 → K) (B : Fin 9 → K) : Fin 9 → K :=
  store9
    (A K_S_XX + B K_F_XX)
    (A K_S_XY + B K_F_XY)
    (A K_S_XZ + B K_F_XZ)
    (A K_S_YX + B K_F_YX)
    (A K_S_YY + B K_F_YY)
    (A K_S_YZ + B K_F_YZ)
    (A K_S_ZX + B K_F_ZX)
    (A K_S_ZY + B K_F_ZY)
    (A K_S_ZZ + B K_F_ZZ)

/-- nimble_utils.h:257-271 `Mult_Full33_Full33`. -/
def multFull33Full33 (A B : Fin 9 → K) : Fin 9 → K :=
  store9
    (A K_F_XX * B K_F_XX + A K_F_XY * B K_F_YX + A K_F_XZ * B K_F_ZX)
    (A K_F_XX * B K_F_XY + A K_F_XY * B K_F_YY + A K_F_XZ * B K_F_ZY)
    (A K_F_XX * B K_F_XZ + A K_F_XY * B K_F_YZ + A K_F_XZ * B K_F_ZZ)
    (A K_F_YX * B K_F_XX + A K_F_YY * B K_F_YX + A K_F_YZ * B K_F_ZX)
    (A K_F_YX * B K_F_XY + A K_F_YY * B K_F_YY + A K_F_YZ * B K_F_ZY)
    (A K_F_YX * B K_F_XZ + A K_F_YY * B K_F_YZ + A K_F_YZ * B K_F_ZZ)
    (A K_F_ZX * B K_F_XX + A K_F_ZY * B K_F_YX + A K_F_ZZ * B K_F_ZX)
    (A K_F_ZX * B K_F_XY + A K_F_ZY * B K_F_YY + A K_F_ZZ * B K_F_ZY)
    (A K_F_ZX * B K_F_XZ + A K_F_ZY * B K_F_YZ + A K_F_ZZ * B K_F_ZZ)

/-- nimble_utils.h:275-289 `Mult_Sym33_Full33`. -/
def multSym33Full33 (sym : Fin 6 → K) (full : Fin 9 → K) : Fin 9 → K :=
  store9
    (sym K_S_XX * full K_F_XX + sym K_S_XY * full K_F_YX + sym K_S_XZ * full K_F_ZX)
    (sym K_S_XX * full K_F_XY + sym K_S_XY * full K_F_YY + sym K_S_XZ * full K_F_ZY)
    (sym K_S_XX * full K_F_XZ + sym K_S_XY * full K_F_YZ + sym K_S_XZ * full K_F_ZZ)
    (sym K_S_YX * full K_F_XX + sym K_S_YY * full K_F_YX + sym K_S_YZ * full K_F_ZX)
    (sym K_S_YX * full K_F_XY + sym K_S_YY * full K_F_YY + sym K_S_YZ * full K_F_ZY)
    (sym K_S_YX * full K_F_XZ + sym K_S_YY * full K_F_YZ + sym K_S_YZ * full K_F_ZZ)
    (sym K_S_ZX * full K_F_XX + sym K_S_ZY * full K_F_YX + sym K_S_ZZ * full K_F_ZX)
    (sym K_S_ZX * full K_F_XY + sym K_S_ZY * full K_F_YY + sym K_S_ZZ * full K_F_ZY)
    (sym K_S_ZX * full K_F_XZ + sym K_S_ZY * full K_F_YZ + sym K_S_ZZ * full K_F_ZZ)

/-- nimble_utils.h:293-307 `Mult_Scalar_Full33_Full33`. -/
def multScalarFull33Full33 (alpha : K) (A B : Fin 9 → K) : Fin 9 → K :=
  store9
    (alpha * (A K_F_XX * B K_F_XX + A K_F_XY * B K_F_YX + A K_F_XZ * B K_F_ZX))
    (alpha * (A K_F_XX * B K_F_XY + A K_F_XY * B K_F_YY + A K_F_XZ * B K_F_ZY))
    (alpha * (A K_F_XX * B K_F_XZ + A K_F_XY * B K_F_YZ + A K_F_XZ * B K_F_ZZ))
    (alpha * (A K_F_YX * B K_F_XX + A K_F_YY * B K_F_YX + A K_F_YZ * B K_F_ZX))
    (alpha * (A K_F_YX * B K_F_XY + A K_F_YY * B K_F_YY + A K_F_YZ * B K_F_ZY))
    (alpha * (A K_F_YX * B K_F_XZ + A K_F_YY * B K_F_YZ + A K_F_YZ * B K_F_ZZ))
    (alpha * (A K_F_ZX * B K_F_XX + A K_F_ZY * B K_F_YX + A K_F_ZZ * B K_F_ZX))
    (alpha * (A K_F_ZX * B K_F_XY + A K_F_ZY * B K_F_YY + A K_F_ZZ * B K_F_ZY))
    (alpha * (A K_F_ZX * B K_F_XZ + A K_F_ZY * B K_F_YZ + A K_F_ZZ * B K_F_ZZ))

/-- nimble_utils.h:311-321 `Square_Full33_Full33T`: `mat matᵀ`. -/
def squareFull33Full33T (mat : Fin 9 → K) : Fin 6 → K :=
  store6
    (mat K_F_XX * mat K_F_XX + mat K_F_XY * mat K_F_XY + mat K_F_XZ * mat K_F_XZ)
    (mat K_F_YX * mat K_F_YX + mat K_F_YY * mat K_F_YY + mat K_F_YZ * mat K_F_YZ)
    (mat K_F_ZX * mat K_F_ZX + mat K_F_ZY * mat K_F_ZY + mat K_F_ZZ * mat K_F_ZZ)
    (mat K_F_XX * mat K_F_YX + mat K_F_XY * mat K_F_YY + mat K_F_XZ * mat K_F_YZ)
    (mat K_F_YX * mat K_F_ZX + mat K_F_YY * mat K_F_ZY + mat K_F_YZ * mat K_F_ZZ)
    (mat K_F_ZX * mat K_F_XX + mat K_F_ZY * mat K_F_XY + mat K_F_ZZ * mat K_F_XZ)

/-- nimble_utils.h:325-339 `Mult_Full33_Sym33_ReturnT`: transpose of the product. -/
def multFull33Sym33ReturnT (full : Fin 9 → K) (sym : Fin 6 → K) : Fin 9 → K :=
  store9
    (full K_F_XX * sym K_S_XX + full K_F_XY * sym K_S_YX + full K_F_XZ * sym K_S_ZX)
    (full K_F_YX * sym K_S_XX + full K_F_YY * sym K_S_YX + full K_F_YZ * sym K_S_ZX)
    (full K_F_ZX * sym K_S_XX + full K_F_ZY * sym K_S_YX + full K_F_ZZ * sym K_S_ZX)
    (full K_F_XX * sym K_S_XY + full K_F_XY * sym K_S_YY + full K_F_XZ * sym K_S_ZY)
    (full K_F_YX * sym K_S_XY + full K_F_YY * sym K_S_YY + full K_F_YZ * sym K_S_ZY)
    (full K_F_ZX * sym K_S_XY + full K_F_ZY * sym K_S_YY + full K_F_ZZ * sym K_S_ZY)
    (full K_F_XX * sym K_S_XZ + full K_F_XY * sym K_S_YZ + full K_F_XZ * sym K_S_ZZ)
    (full K_F_YX * sym K_S_XZ + full K_F_YY * sym K_S_YZ + full K_F_YZ * sym K_S_ZZ)
    (full K_F_ZX * sym K_S_XZ + full K_F_ZY * sym K_S_YZ + full K_F_ZZ * sym K_S_ZZ)

/-- nimble_utils.h:343-365 `Rotate_Sym33_Using_Rtranspose_S_R`: `Rᵀ S R`. -/
def rotateSym33 (s : Fin 6 → K) (r : Fin 9 → K) : Fin 6 → K :=
  let temp_xx := s K_S_XX * r K_F_XX + s K_S_XY * r K_F_YX + s K_S_XZ * r K_F_ZX
  let temp_yx := s K_S_YX * r K_F_XX + s K_S_YY * r K_F_YX + s K_S_YZ * r K_F_ZX
  let temp_zx := s K_S_ZX * r K_F_XX + s K_S_ZY * r K_F_YX + s K_S_ZZ * r K_F_ZX
  let temp_xy := s K_S_XX * r K_F_XY + s K_S_XY * r K_F_YY + s K_S_XZ * r K_F_ZY
  let temp_yy := s K_S_YX * r K_F_XY + s K_S_YY * r K_F_YY + s K_S_YZ * r K_F_ZY
  let temp_zy := s K_S_ZX * r K_F_XY + s K_S_ZY * r K_F_YY + s K_S_ZZ * r K_F_ZY
  let temp_xz := s K_S_XX * r K_F_XZ + s K_S_XY * r K_F_YZ + s K_S_XZ * r K_F_ZZ
  let temp_yz := s K_S_YX * r K_F_XZ + s K_S_YY * r K_F_YZ + s K_S_YZ * r K_F_ZZ
  let temp_zz := s K_S_ZX * r K_F_XZ + s K_S_ZY * r K_F_YZ + s K_S_ZZ * r K_F_ZZ
  store6
    (r K_F_XX * temp_xx + r K_F_YX * temp_yx + r K_F_ZX * temp_zx)
    (r K_F_XY * temp_xy + r K_F_YY * temp_yy + r K_F_ZY * temp_zy)
    (r K_F_XZ * temp_xz + r K_F_YZ * temp_yz + r K_F_ZZ * temp_zz)
    (r K_F_XX * temp_xy + r K_F_YX * temp_yy + r K_F_ZX * temp_zy)
    (r K_F_XY * temp_xz + r K_F_YY * temp_yz + r K_F_ZY * temp_zz)
    (r K_F_XZ * temp_xx + r K_F_YZ * temp_yx + r K_F_ZZ * temp_zx)

/-- nimble_utils.h:369-391 `Unrotate_Sym33_Using_R_S_Rtranspose`: `R S Rᵀ`. -/
def unrotateSym33 (s : Fin 6 → K) (r : Fin 9 → K) : Fin 6 → K :=
  let temp_xx := s K_S_XX * r K_F_XX + s K_S_XY * r K_F_XY + s K_S_XZ * r K_F_XZ
  let temp_yx := s K_S_YX * r K_F_XX + s K_S_YY * r K_F_XY + s K_S_YZ * r K_F_XZ
  let temp_zx := s K_S_ZX * r K_F_XX + s K_S_ZY * r K_F_XY + s K_S_ZZ * r K_F_XZ
  let temp_xy := s K_S_XX * r K_F_YX + s K_S_XY * r K_F_YY + s K_S_XZ * r K_F_YZ
  let temp_yy := s K_S_YX * r K_F_YX + s K_S_YY * r K_F_YY + s K_S_YZ * r K_F_YZ
  let temp_zy := s K_S_ZX * r K_F_YX + s K_S_ZY * r K_F_YY + s K_S_ZZ * r K_F_YZ
  let temp_xz := s K_S_XX * r K_F_ZX + s K_S_XY * r K_F_ZY + s K_S_XZ * r K_F_ZZ
  let temp_yz := s K_S_YX * r K_F_ZX + s K_S_YY * r K_F_ZY + s K_S_YZ * r K_F_ZZ
  let temp_zz := s K_S_ZX * r K_F_ZX + s K_S_ZY * r K_F_ZY + s K_S_ZZ * r K_F_ZZ
  store6
    (r K_F_XX * temp_xx + r K_F_XY * temp_yx + r K_F_XZ * temp_zx)
    (r K_F_YX * temp_xy + r K_F_YY * temp_yy + r K_F_YZ * temp_zy)
    (r K_F_ZX * temp_xz + r K_F_ZY * temp_yz + r K_F_ZZ * temp_zz)
    (r K_F_XX * temp_xy + r K_F_XY * temp_yy + r K_F_XZ * temp_zy)
    (r K_F_YX * temp_xz + r K_F_YY * temp_yz + r K_F_YZ * temp_zz)
    (r K_F_ZX * temp_xx + r K_F_ZY * temp_yx + r K_F_ZZ * temp_zx)

/-- nimble_utils.h:485-494 `SymPart_Full33`. -/
def symPartFull33 (mat : Fin 9 → K) : Fin 6 → K :=
  store6
    (mat K_F_XX)
    (mat K_F_YY)
    (mat K_F_ZZ)
    ((1/2) * (mat K_F_XY + mat K_F_YX))
    ((1/2) * (mat K_F_YZ + mat K_F_ZY))
    ((1/2) * (mat K_F_ZX + mat K_F_XZ))

/-- nimble_utils.h:497-509 `SkewPart_Full33`. -/
def skewPartFull33 (mat : Fin 9 → K) : Fin 9 → K :=
  store9
    (0)
    ((1/2) * (mat K_F_XY - mat K_F_YX))
    ((1/2) * (mat K_F_XZ - mat K_F_ZX))
    ((1/2) * (mat K_F_YX - mat K_F_XY))
    (0)
    ((1/2) * (mat K_F_YZ - mat K_F_ZY))
    ((1/2) * (mat K_F_ZX - mat K_F_XZ))
    ((1/2) * (mat K_F_ZY - mat K_F_YZ))
    (0)

/-- nimble_utils.h:393-400 `CrossProduct`. -/
def crossProduct (u v : Fin 3 → K) : Fin 3 → K :=
  ![u 1 * v 2 - u 2 * v 1,
    u 2 * v 0 - u 0 * v 2,
    u 0 * v 1 - u 1 * v 0]

/-- nimble_utils.h:402-412 `Determinant_Full33`. -/
def determinantFull33 (mat : Fin 9 → K) : K :=
  let minor0 := mat K_F_YY * mat K_F_ZZ - mat K_F_YZ * mat K_F_ZY
  let minor1 := mat K_F_YX * mat K_F_ZZ - mat K_F_YZ * mat K_F_ZX
  let minor2 := mat K_F_YX * mat K_F_ZY - mat K_F_YY * mat K_F_ZX
  mat K_F_XX * minor0 - mat K_F_XY * minor1 + mat K_F_XZ * minor2

/-- nimble_utils.h:414-426 `Norm_Sym33`, up to the final `sqrt`: the accumulated square. -/
def normSqSym33 (mat : Fin 6 → K) : K :=
  let norm := 0
  let norm := norm + (mat K_S_XX * mat K_S_XX + mat K_S_XY * mat K_S_XY + mat K_S_XZ * mat K_S_XZ)
  let norm := norm + (mat K_S_YX * mat K_S_YX + mat K_S_YY * mat K_S_YY + mat K_S_YZ * mat K_S_YZ)
  norm + (mat K_S_ZX * mat K_S_ZX + mat K_S_ZY * mat K_S_ZY + mat K_S_ZZ * mat K_S_ZZ)

/-- nimble_utils.h:428-440 `Norm_Full33`, up to the final `sqrt`: the accumulated square. -/
def normSqFull33 (mat : Fin 9 → K) : K :=
  let norm := 0
  let norm := norm + (mat K_F_XX * mat K_F_XX + mat K_F_XY * mat K_F_XY + mat K_F_XZ * mat K_F_XZ)
  let norm := norm + (mat K_F_YX * mat K_F_YX + mat K_F_YY * mat K_F_YY + mat K_F_YZ * mat K_F_YZ)
  norm + (mat K_F_ZX * mat K_F_ZX + mat K_F_ZY * mat K_F_ZY + mat K_F_ZZ * mat K_F_ZZ)

/-- nimble_utils.h:442-455 `Zero_Full33`. -/
def zeroFull33 : Fin 9 → K := store9 0 0 0 0 0 0 0 0 0

/-- nimble_utils.h:457-470 `SetEqual_Full33`. -/
def setEqualFull33 (B : Fin 9 → K) : Fin 9 → K :=
  store9 (B K_F_XX) (B K_F_XY) (B K_F_XZ) (B K_F_YX) (B K_F_YY) (B K_F_YZ)
    (B K_F_ZX) (B K_F_ZY) (B K_F_ZZ)

/-- nimble_utils.h:472-482 `SetEqual_Sym33`. -/
def setEqualSym33 (B : Fin 6 → K) : Fin 6 → K :=
  store6 (B K_S_XX) (B K_S_YY) (B K_S_ZZ) (B K_S_XY) (B K_S_YZ) (B K_S_ZX)

/-- nimble_utils.h:523-551 `Invert_Full33`.  `none` is the failed `NIMBLE_ASSERT(det >= 0.0)`
(line 537); otherwise the inverse array and the returned determinant.  For `det = 0`, which
passes the assertion, C++ divides by zero; here division by zero yields `0` (the totalised
division of `K`), which no theorem below uses. -/
def invertFull33 (mat : Fin 9 → K) : Option ((Fin 9 → K) × K) :=
  let minor0 := mat K_F_YY * mat K_F_ZZ - mat K_F_YZ * mat K_F_ZY
  let minor1 := mat K_F_YX * mat K_F_ZZ - mat K_F_YZ * mat K_F_ZX
  let minor2 := mat K_F_YX * mat K_F_ZY - mat K_F_YY * mat K_F_ZX
  let minor3 := mat K_F_XY * mat K_F_ZZ - mat K_F_XZ * mat K_F_ZY
  let minor4 := mat K_F_XX * mat K_F_ZZ - mat K_F_ZX * mat K_F_XZ
  let minor5 := mat K_F_XX * mat K_F_ZY - mat K_F_XY * mat K_F_ZX
  let minor6 := mat K_F_XY * mat K_F_YZ - mat K_F_XZ * mat K_F_YY
  let minor7 := mat K_F_XX * mat K_F_YZ - mat K_F_XZ * mat K_F_YX
  let minor8 := mat K_F_XX * mat K_F_YY - mat K_F_XY * mat K_F_YX
  let det := mat K_F_XX * minor0 - mat K_F_XY * minor1 + mat K_F_XZ * minor2
  if det ≥ 0 then
    some (store9
      (minor0 / det) (-1 * minor3 / det) (minor6 / det)
      (-1 * minor1 / det) (minor4 / det) (-1 * minor7 / det)
      (minor2 / det) (-1 * minor5 / det) (minor8 / det), det)
  else none

/-- nimble_utils.h:1229-1266 `Invert3x3` (build without Kokkos): `mat[i][j]` is `mat i j`;
`none` is the failed `NIMBLE_ASSERT(det > 0.0)` of line 1254. -/
def invert3x3 (mat : Fin 3 → Fin 3 → K) : Option ((Fin 3 → Fin 3 → K) × K) :=
  let minor0 := mat 1 1 * mat 2 2 - mat 1 2 * mat 2 1
  let minor1 := mat 1 0 * mat 2 2 - mat 1 2 * mat 2 0
  let minor2 := mat 1 0 * mat 2 1 - mat 1 1 * mat 2 0
  let minor3 := mat 0 1 * mat 2 2 - mat 0 2 * mat 2 1
  let minor4 := mat 0 0 * mat 2 2 - mat 2 0 * mat 0 2
  let minor5 := mat 0 0 * mat 2 1 - mat 0 1 * mat 2 0
  let minor6 := mat 0 1 * mat 1 2 - mat 0 2 * mat 1 1
  let minor7 := mat 0 0 * mat 1 2 - mat 0 2 * mat 1 0
  let minor8 := mat 0 0 * mat 1 1 - mat 0 1 * mat 1 0
  let det := mat 0 0 * minor0 - mat 0 1 * minor1 + mat 0 2 * minor2
  if det ≤ 0 then none
  else
    some (![![minor0 / det, -1 * minor3 / det, minor6 / det],
            ![-1 * minor1 / det, minor4 / det, -1 * minor7 / det],
            ![minor2 / det, -1 * minor5 / det, minor8 / det]], det)

/-- nimble_utils.h:553-623 `BCH`, statement by statement. -/
def bch (x y : Fin 9 → K) : Fin 9 → K :=
  let result := sumFull33Full33 x y
  -- second order term
  let temp1 := multScalarFull33Full33 (1/2) x y
  let temp2 := multScalarFull33Full33 (-(1/2)) y x
  let result := sumFull33Full33 result temp1
  let result := sumFull33Full33 result temp2
  -- third order term
  let temp1 := multFull33Full33 x y
  let temp2 := multScalarFull33Full33 (1/12) x temp1
  let result := sumFull33Full33 result temp2
  let temp1 := multFull33Full33 y x
  let temp2 := multScalarFull33Full33 (-1/6) x temp1
  let result := sumFull33Full33 result temp2
  let temp1 := multFull33Full33 y y
  let temp2 := multScalarFull33Full33 (1/12) x temp1
  let result := sumFull33Full33 result temp2
  let temp1 := multFull33Full33 x x
  let temp2 := multScalarFull33Full33 (1/12) y temp1
  let result := sumFull33Full33 result temp2
  let temp1 := multFull33Full33 x y
  let temp2 := multScalarFull33Full33 (-1/6) y temp1
  let result := sumFull33Full33 result temp2
  let temp1 := multFull33Full33 y x
  let temp2 := multScalarFull33Full33 (1/12) y temp1
  let result := sumFull33Full33 result temp2
  -- fourth order term
  let temp1 := multFull33Full33 y y
  let temp2 := multFull33Full33 x temp1
  let temp3 := multScalarFull33Full33 (1/24) x temp2
  let result := sumFull33Full33 result temp3
  let temp1 := multFull33Full33 x y
  let temp2 := multFull33Full33 y temp1
  let temp3 := multScalarFull33Full33 (-2/24) x temp2
  let result := sumFull33Full33 result temp3
  let temp1 := multFull33Full33 y x
  let temp2 := multFull33Full33 x temp1
  let temp3 := multScalarFull33Full33 (2/24) y temp2
  let result := sumFull33Full33 result temp3
  let temp1 := multFull33Full33 x x
  let temp2 := multFull33Full33 y temp1
  let temp3 := multScalarFull33Full33 (-1/24) y temp2
  sumFull33Full33 result temp3

/-- nimble_utils.h:627-642 `BCH_Sym33_Full33`. -/
def bchSym33Full33 (sym : Fin 6 → K) (full : Fin 9 → K) : Fin 9 → K :=
  bch (store9 (sym K_S_XX) (sym K_S_XY) (sym K_S_XZ) (sym K_S_YX) (sym K_S_YY) (sym K_S_YZ)
    (sym K_S_ZX) (sym K_S_ZY) (sym K_S_ZZ)) full

end NimbleSM.Tensor
