import Verif.Tensor.Tensor
import Mathlib.Analysis.SpecialFunctions.Pow.Real
import Mathlib.Analysis.SpecialFunctions.Trigonometric.Inverse

/-!
# Symmetric eigenproblem and polar decomposition of `src/nimble_utils.h`

Scalars are real numbers (exact arithmetic, exact `sqrt` and `log`).  The Padé approximation
`Cos_Of_Acos_Divided_By_3` is transcribed (`padeCos`), but the eigensolver takes the function
that plays this role as an argument `cosThird`, so that theorems can speak about the solver with the
function the code approximates, `x ↦ cos(acos(x)/3)`.
Division by zero (IEEE inf/nan in C++) is Lean's totalised division.
-/

namespace NimbleSM.Tensor

/-- nimble_utils.h:132-136 `MultiplySign`: `x * (1 - 2*(y<0))`. -/
noncomputable def multiplySign (x y : ℝ) : ℝ := x * (1 - 2 * (if y < 0 then 1 else 0))

/-- nimble_utils.h:139-143 `Minimum`. -/
noncomputable def minimum (x y : ℝ) : ℝ := if x < y then x else y

/-- nimble_utils.h:650-664 `Cos_Of_Acos_Divided_By_3`. -/
noncomputable def padeCos (x : ℝ) : ℝ :=
  let x2 := x * x
  let x4 := x2 * x2
  (0.866025403784438713 + 2.12714890259493060 * x +
      ((1.89202064815951569 + 0.739603278343401613 * x) * x2 +
       (0.121973926953064794 + x * (0.00655637626263929360 + 0.0000390884982780803443 * x)) * x4)) /
    (1.0 + 2.26376989330935617 * x +
      ((1.80461009751278976 + 0.603976798217196003 * x) * x2 +
       (0.0783255761115461708 + 0.00268525944538021629 * x) * x4))

/-- Result of `Eigen_Sym33_NonUnit`: three eigenvalues and three (not normalised) vectors. -/
structure EigenSystem where
  eval0 : ℝ
  eval1 : ℝ
  eval2 : ℝ
  evec0 : Fin 3 → ℝ
  evec1 : Fin 3 → ℝ
  evec2 : Fin 3 → ℝ

/-- The inline expression `u[0]*v[0] + u[1]*v[1] + u[2]*v[2]` (e.g. nimble_utils.h:757). -/
def dot3 (u v : Fin 3 → ℝ) : ℝ := u 0 * v 0 + u 1 * v 1 + u 2 * v 2

/-- nimble_utils.h:717-778: QR step with row pivoting.  From the three rows of the shifted
matrix it returns `(k_row1, a_row2)`: the longest row and the longer of the two others after
making them orthogonal to it.  `k0 k1 k2` are the squared row lengths. -/
noncomputable def pivotRows (crow0 crow1 crow2 : Fin 3 → ℝ) (k0 k1 k2 : ℝ) :
    (Fin 3 → ℝ) × (Fin 3 → ℝ) × ℝ × ℝ :=
  -- 729-731
  let k0gk1 : Prop := k1 ≤ k0
  let k0gk2 : Prop := k2 ≤ k0
  let k1gk2 : Prop := k2 ≤ k1
  -- 733-735
  let k0_largest : Prop := k0gk1 ∧ k0gk2
  let k1_largest : Prop := k1gk2 ∧ ¬ k0gk1
  let k2_largest : Prop := ¬ (k0_largest ∨ k1_largest)
  open Classical in
  -- 737-744
  let k_row1 : Fin 3 → ℝ := fun i =>
    (if k0_largest then crow0 i else 0) + (if k1_largest then crow1 i else 0) +
      (if k2_largest then crow2 i else 0)
  -- 746-752
  let row2 : Fin 3 → ℝ := fun i => if k0_largest then crow1 i else crow0 i
  let row3 : Fin 3 → ℝ := fun i => if k2_largest then crow1 i else crow2 i
  -- 754-755
  let ki_ki := 1 / ((if k0_largest then k0 else 0) + (if k1_largest then k1 else 0) +
    (if k2_largest then k2 else 0))
  -- 757-758
  let ki_dpr1 := ki_ki * dot3 k_row1 row2
  let ki_dpr2 := ki_ki * dot3 k_row1 row3
  -- 760-766
  let row2 : Fin 3 → ℝ := fun i => row2 i - ki_dpr1 * k_row1 i
  let row3 : Fin 3 → ℝ := fun i => row3 i - ki_dpr2 * k_row1 i
  -- 768-769
  let a0 := dot3 row2 row2
  let a1 := dot3 row3 row3
  -- 773-778
  let a_row2 : Fin 3 → ℝ := fun i => if a0 ≤ a1 then row3 i else row2 i
  let ai_ai := 1 / (if a0 ≤ a1 then a1 else a0)
  (k_row1, a_row2, ki_ki, ai_ai)

/-- nimble_utils.h:780-830: the remaining 2×2 problem.  Arguments: the deviatoric components, the
two rows and the reciprocals of their squared lengths; result `(eval0, eval1, evec0, evec1, evec2)`
(eigenvalues of the deviatoric tensor). -/
noncomputable def planeProblem (cxx cyy czz cxy cyz czx : ℝ) (k_row1 a_row2 : Fin 3 → ℝ)
    (ki_ki ai_ai : ℝ) : ℝ × ℝ × (Fin 3 → ℝ) × (Fin 3 → ℝ) × (Fin 3 → ℝ) :=
  -- 780-782
  let evec2 : Fin 3 → ℝ := ![k_row1 1 * a_row2 2 - k_row1 2 * a_row2 1,
    k_row1 2 * a_row2 0 - k_row1 0 * a_row2 2,
    k_row1 0 * a_row2 1 - k_row1 1 * a_row2 0]
  -- 784-790
  let k_atr11 := cxx * k_row1 0 + cxy * k_row1 1 + czx * k_row1 2
  let k_atr21 := cxy * k_row1 0 + cyy * k_row1 1 + cyz * k_row1 2
  let k_atr31 := czx * k_row1 0 + cyz * k_row1 1 + czz * k_row1 2
  let a_atr12 := cxx * a_row2 0 + cxy * a_row2 1 + czx * a_row2 2
  let a_atr22 := cxy * a_row2 0 + cyy * a_row2 1 + cyz * a_row2 2
  let a_atr32 := czx * a_row2 0 + cyz * a_row2 1 + czz * a_row2 2
  -- 792-795
  let rm2xx := (k_row1 0 * k_atr11 + k_row1 1 * k_atr21 + k_row1 2 * k_atr31) * ki_ki
  let k_a_rm2xy := k_row1 0 * a_atr12 + k_row1 1 * a_atr22 + k_row1 2 * a_atr32
  let rm2yy := (a_row2 0 * a_atr12 + a_row2 1 * a_atr22 + a_row2 2 * a_atr32) * ai_ai
  let rm2xy_rm2xy := k_a_rm2xy * k_a_rm2xy * ai_ai * ki_ki
  -- 800-804: Wilkinson shift
  let b := 0.5 * (rm2xx - rm2yy)
  let sqrtTerm := multiplySign (Real.sqrt (b * b + rm2xy_rm2xy)) b
  let eval0 := rm2yy + b - sqrtTerm
  let eval1 := rm2xx + rm2yy - eval0
  -- 806-813
  let rm2xx := rm2xx - eval0
  let rm2yy := rm2yy - eval0
  let rm2xx2 := rm2xx * rm2xx
  let rm2yy2 := rm2yy * rm2yy
  let fac1 := if rm2xx2 < rm2yy2 then k_a_rm2xy * ai_ai else rm2xx
  let fac2 := if rm2xx2 < rm2yy2 then rm2yy else ki_ki * k_a_rm2xy
  -- 815-817
  let evec0 : Fin 3 → ℝ := fun i => fac1 * a_row2 i - fac2 * k_row1 i
  -- 819-826: degeneracy
  let evec0 : Fin 3 → ℝ := fun i =>
    if rm2xx2 = 0 ∧ rm2xy_rm2xy = 0 then a_row2 i else evec0 i
  -- 828-830
  let evec1 : Fin 3 → ℝ := ![evec2 1 * evec0 2 - evec2 2 * evec0 1,
    evec2 2 * evec0 0 - evec2 0 * evec0 2,
    evec2 0 * evec0 1 - evec2 1 * evec0 0]
  (eval0, eval1, evec0, evec1, evec2)

/-- nimble_utils.h:667-857 `Eigen_Sym33_NonUnit`. -/
noncomputable def eigenSym33NonUnit (cosThird : ℝ → ℝ) (tensor : Fin 6 → ℝ) : EigenSystem :=
  let cxx := tensor K_S_XX
  let cyy := tensor K_S_YY
  let czz := tensor K_S_ZZ
  let cxy := tensor K_S_XY
  let cyz := tensor K_S_YZ
  let czx := tensor K_S_ZX
  let c1 := (cxx + cyy + czz) / 3
  let cxx := cxx - c1
  let cyy := cyy - c1
  let czz := czz - c1
  let cxy_cxy := cxy * cxy
  let cyz_cyz := cyz * cyz
  let czx_czx := czx * czx
  let cxx_cyy := cxx * cyy
  let c2 := cxx_cyy + cyy * czz + czz * cxx - cxy_cxy - cyz_cyz - czx_czx
  let threeOverA := (-3) / c2
  let sqrtThreeOverA := Real.sqrt threeOverA
  let c3 := cxx * cyz_cyz + cyy * czx_czx - 2 * cxy * cyz * czx + czz * (cxy_cxy - cxx_cyy)
  let rr := (-0.5) * c3 * threeOverA * sqrtThreeOverA
  let arg := minimum |rr| 1
  let cos_thd3 := cosThird arg
  let two_cos_thd3 := 2 * multiplySign cos_thd3 rr
  let eval2 := two_cos_thd3 / sqrtThreeOverA
  let crow0 : Fin 3 → ℝ := ![cxx - eval2, cxy, czx]
  let crow1 : Fin 3 → ℝ := ![cxy, cyy - eval2, cyz]
  let crow2 : Fin 3 → ℝ := ![czx, cyz, czz - eval2]
  let k0 := crow0 0 * crow0 0 + cxy_cxy + czx_czx
  let k1 := cxy_cxy + crow1 1 * crow1 1 + cyz_cyz
  let k2 := czx_czx + cyz_cyz + crow2 2 * crow2 2
  let (k_row1, a_row2, ki_ki, ai_ai) := pivotRows crow0 crow1 crow2 k0 k1 k2
  let (eval0, eval1, evec0, evec1, evec2) :=
    planeProblem cxx cyy czz cxy cyz czx k_row1 a_row2 ki_ki ai_ai
  let eval0 := eval0 + c1
  let eval1 := eval1 + c1
  let eval2 := eval2 + c1
  -- 836-854: nearly isotropic tensors
  let c2tol := (c1 * c1) * (-1.0e-30)
  open Classical in
  let c2lsmall_neg : Prop := c2 < c2tol
  { eval0 := if c2lsmall_neg then eval0 else c1
    eval1 := if c2lsmall_neg then eval1 else c1
    eval2 := if c2lsmall_neg then eval2 else c1
    evec0 := fun i => if c2lsmall_neg then evec0 i else ![1, 0, 0] i
    evec1 := fun i => if c2lsmall_neg then evec1 i else ![0, 1, 0] i
    evec2 := fun i => if c2lsmall_neg then evec2 i else ![0, 0, 1] i }

/-- nimble_utils.h:859-908 `Polar_Decomp`: `none` when `Invert_Full33` asserts, else
`(left_stretch, rotation)`. -/
noncomputable def polarDecomp (cosThird : ℝ → ℝ) (mat : Fin 9 → ℝ) :
    Option ((Fin 6 → ℝ) × (Fin 9 → ℝ)) :=
  (invertFull33 mat).map fun (mat_inv, _) =>
    let mat_inv_squared := squareFull33TFull33 mat_inv
    let e := eigenSym33NonUnit cosThird mat_inv_squared
    let vec1 := e.evec0
    let vec2 := e.evec1
    let vec3 := e.evec2
    let eval0 := if e.eval0 < 0 then 0 else e.eval0
    let eval1 := if e.eval1 < 0 then 0 else e.eval1
    let eval2 := if e.eval2 < 0 then 0 else e.eval2
    let len1_sq := vec1 K_X * vec1 K_X + vec1 K_Y * vec1 K_Y + vec1 K_Z * vec1 K_Z
    let len2_sq := vec2 K_X * vec2 K_X + vec2 K_Y * vec2 K_Y + vec2 K_Z * vec2 K_Z
    let len3_sq := vec3 K_X * vec3 K_X + vec3 K_Y * vec3 K_Y + vec3 K_Z * vec3 K_Z
    let xlx := Real.sqrt eval0
    let xly := Real.sqrt eval1
    let xlz := Real.sqrt eval2
    let xlxi := 1 / (xlx * len1_sq)
    let xlyi := 1 / (xly * len2_sq)
    let xlzi := 1 / (xlz * len3_sq)
    let left_stretch := store6
      (xlxi * vec1 K_X * vec1 K_X + xlyi * vec2 K_X * vec2 K_X + xlzi * vec3 K_X * vec3 K_X)
      (xlxi * vec1 K_Y * vec1 K_Y + xlyi * vec2 K_Y * vec2 K_Y + xlzi * vec3 K_Y * vec3 K_Y)
      (xlxi * vec1 K_Z * vec1 K_Z + xlyi * vec2 K_Z * vec2 K_Z + xlzi * vec3 K_Z * vec3 K_Z)
      (xlxi * vec1 K_X * vec1 K_Y + xlyi * vec2 K_X * vec2 K_Y + xlzi * vec3 K_X * vec3 K_Y)
      (xlxi * vec1 K_Y * vec1 K_Z + xlyi * vec2 K_Y * vec2 K_Z + xlzi * vec3 K_Y * vec3 K_Z)
      (xlxi * vec1 K_Z * vec1 K_X + xlyi * vec2 K_Z * vec2 K_X + xlzi * vec3 K_Z * vec3 K_X)
    (left_stretch, multFull33Sym33ReturnT mat_inv left_stretch)

/-- nimble_utils.h:935-947: `mag = sqrt(v·v); v /= mag`. -/
noncomputable def normalize3 (v : Fin 3 → ℝ) : Fin 3 → ℝ :=
  let mag := Real.sqrt (v 0 * v 0 + v 1 * v 1 + v 2 * v 2)
  fun i => v i / mag

/-- nimble_utils.h:972-1006 (and the two copies of it at 1008-1019, 1021-1042): with
`temp = eVec * diag(x)`, the product `temp * transpose(eVec)`, as a symmetric tensor. -/
def spectralSym (vec1 vec2 vec3 : Fin 3 → ℝ) (x0 x1 x2 : ℝ) : Fin 6 → ℝ :=
  let vt := store9 (vec1 0) (vec1 1) (vec1 2) (vec2 0) (vec2 1) (vec2 2) (vec3 0) (vec3 1) (vec3 2)
  let temp := store9 (vec1 0 * x0) (vec2 0 * x1) (vec3 0 * x2) (vec1 1 * x0) (vec2 1 * x1)
    (vec3 1 * x2) (vec1 2 * x0) (vec2 2 * x1) (vec3 2 * x2)
  store6
    (temp K_F_XX * vt K_F_XX + temp K_F_XY * vt K_F_YX + temp K_F_XZ * vt K_F_ZX)
    (temp K_F_YX * vt K_F_XY + temp K_F_YY * vt K_F_YY + temp K_F_YZ * vt K_F_ZY)
    (temp K_F_ZX * vt K_F_XZ + temp K_F_ZY * vt K_F_YZ + temp K_F_ZZ * vt K_F_ZZ)
    (temp K_F_XX * vt K_F_XY + temp K_F_XY * vt K_F_YY + temp K_F_XZ * vt K_F_ZY)
    (temp K_F_YX * vt K_F_XZ + temp K_F_YY * vt K_F_YZ + temp K_F_YZ * vt K_F_ZZ)
    (temp K_F_ZX * vt K_F_XX + temp K_F_ZY * vt K_F_YX + temp K_F_ZZ * vt K_F_ZX)

/-- nimble_utils.h:910-1046 `Polar_Left_LogV_Lame`: returns
`(left_stretch_inc, rotation_inc, log_left_stretch_inc)`.  (`CheckVectorSanity`, a debug check,
is not modelled.) -/
noncomputable def polarLeftLogVLame (cosThird : ℝ → ℝ) (def_grad_inc : Fin 9 → ℝ) :
    (Fin 6 → ℝ) × (Fin 9 → ℝ) × (Fin 6 → ℝ) :=
  let b := squareFull33Full33T def_grad_inc
  let e := eigenSym33NonUnit cosThird b
  let vec1 := normalize3 e.evec0
  let vec2 := normalize3 e.evec1
  let vec3 := normalize3 e.evec2
  let x0 := Real.sqrt e.eval0
  let x1 := Real.sqrt e.eval1
  let x2 := Real.sqrt e.eval2
  let xi0 := 1 / x0
  let xi1 := 1 / x1
  let xi2 := 1 / x2
  let lnx0 := Real.log x0
  let lnx1 := Real.log x1
  let lnx2 := Real.log x2
  let vec_transpose := store9 (vec1 0) (vec1 1) (vec1 2) (vec2 0) (vec2 1) (vec2 2)
    (vec3 0) (vec3 1) (vec3 2)
  let left_stretch_inc := spectralSym vec1 vec2 vec3 x0 x1 x2
  let temp := store9 (vec1 0 * xi0) (vec2 0 * xi1) (vec3 0 * xi2) (vec1 1 * xi0) (vec2 1 * xi1)
    (vec3 1 * xi2) (vec1 2 * xi0) (vec2 2 * xi1) (vec3 2 * xi2)
  let left_stretch_inc_inverse := multFull33Full33 temp vec_transpose
  let log_left_stretch_inc := spectralSym vec1 vec2 vec3 lnx0 lnx1 lnx2
  let rotation_inc := multFull33Full33 left_stretch_inc_inverse def_grad_inc
  (left_stretch_inc, rotation_inc, log_left_stretch_inc)

end NimbleSM.Tensor
