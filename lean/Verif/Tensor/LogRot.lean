import Verif.Tensor.Tensor
import Mathlib.Analysis.SpecialFunctions.Trigonometric.Inverse
import Mathlib.Analysis.Real.Sqrt

/-!
# The logarithm of a rotation: `Log_Rotation`, `Log_Rotation_Pi` (`src/nimble_utils.h:1105-1231`)

Scalars are real numbers; `eps` is the constant `std::numeric_limits<ScalarT>::epsilon()`.
-/

namespace NimbleSM.Tensor

/-- nimble_utils.h:1105-1175 `Log_Rotation_Pi`.  `none`: the assertion of line 1156.  The test of lines
1113-1115 has an empty body. -/
noncomputable def logRotationPi (eps : ℝ) (rotation : Fin 9 → ℝ) : Option (Fin 9 → ℝ) :=
  let B : Fin 9 → ℝ := store9 (rotation K_F_XX - 1) (rotation K_F_XY) (rotation K_F_XZ)
    (rotation K_F_YX) (rotation K_F_YY - 1) (rotation K_F_YZ)
    (rotation K_F_ZX) (rotation K_F_ZY) (rotation K_F_ZZ - 1)
  let u : Fin 3 → ℝ := ![B K_F_XX, B K_F_XY, B K_F_XZ]
  let v : Fin 3 → ℝ := ![B K_F_YX, B K_F_YY, B K_F_YZ]
  let length (n : Fin 3 → ℝ) : ℝ :=
    let norm := n 0 * n 0 + n 1 * n 1 + n 2 * n 2
    if norm > 0 then Real.sqrt norm else norm
  let write (normal : Fin 3 → ℝ) (norm : ℝ) : Fin 9 → ℝ :=
    let normal0 := normal 0 / norm
    let normal1 := normal 1 / norm
    let normal2 := normal 2 / norm
    let pi := Real.arccos (-1)
    store9 0 (-normal2 * pi) (normal1 * pi) (normal2 * pi) 0 (-normal0 * pi) (-normal1 * pi) (normal0 * pi) 0
  let normal := crossProduct u v
  let norm := length normal
  if norm < eps then
    let w : Fin 3 → ℝ := ![B K_F_ZX, B K_F_ZY, B K_F_ZZ]
    let normal := crossProduct u w
    let norm := length normal
    if norm ≥ eps then some (write normal norm) else none
  else some (write normal norm)

open Classical in
/-- nimble_utils.h:1177-1226 `Log_Rotation`; `log_rotation` is the content of the output before the call.  The
input check of lines 1184-1203 has no effect (its `throw` is commented out), nor has the case of lines
1218-1219. -/
noncomputable def logRotation (eps : ℝ) (rotation log_rotation : Fin 9 → ℝ) : Fin 9 → ℝ :=
  let cosine := (1/2) * (rotation K_F_XX + rotation K_F_YY + rotation K_F_ZZ - 1)
  let cosine := if cosine < -1 then -1 else if cosine > 1 then 1 else cosine
  let theta := Real.arccos cosine
  if theta = 0 then zeroFull33
  else if |cosine + 1| < 10 * eps then log_rotation
  else
    let a := theta / Real.sin theta
    let rotation_skew := skewPartFull33 rotation
    multScalarFull33 a rotation_skew

end NimbleSM.Tensor
