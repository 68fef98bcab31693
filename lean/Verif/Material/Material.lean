import Verif.Element.Hex
import Verif.Tensor.Polar

/-!
# Materials: `src/nimble_material.cc`

Exact arithmetic.  The elastic law is modelled over any field, the neo-Hookean law over the reals
(it needs `sqrt` and `cbrt`).  A material object is the record of its mutable members; `none` is the
abort of the process by `NIMBLE_ASSERT` inside `Polar_Decomp` (nimble_utils.h, `Invert_Full33`).
`CheckVectorSanity` (a debug-build check for inf/nan) is not modelled.  Times, stress at the previous
step, state data and the data manager are ignored by both laws (their arguments are not used in
nimble_material.cc:68-126, 226-310) and are left out.
-/

namespace NimbleSM.Constitutive

open NimbleSM.Tensor
open NimbleSM.Hex (put)

/-- nimble_material.h:420-422, 529-531: the members `density_`, `bulk_modulus_`, `shear_modulus_`. -/
structure Material (K : Type*) where
  density : K
  bulk : K
  shear : K

/-- nimble_material.cc:95-126 `ElasticMaterial::GetStress` for one integration point. -/
def elasticStress {K : Type*} [Field K] (m : Material K) (def_grad : Fin 9 → K) : Fin 6 → K :=
  let two_mu := 2 * m.shear
  let lambda := m.bulk - 2 * m.shear / 3
  let strain : Fin 6 → K := store6
    (def_grad K_F_XX - 1)
    (def_grad K_F_YY - 1)
    (def_grad K_F_ZZ - 1)
    (0.5 * (def_grad K_F_XY + def_grad K_F_YX))
    (0.5 * (def_grad K_F_YZ + def_grad K_F_ZY))
    (0.5 * (def_grad K_F_ZX + def_grad K_F_XZ))
  let trace_strain := strain K_S_XX + strain K_S_YY + strain K_S_ZZ
  store6
    (two_mu * strain K_S_XX + lambda * trace_strain)
    (two_mu * strain K_S_YY + lambda * trace_strain)
    (two_mu * strain K_S_ZZ + lambda * trace_strain)
    (two_mu * strain K_S_XY)
    (two_mu * strain K_S_YZ)
    (two_mu * strain K_S_ZX)

/-- nimble_material.cc:160-206 and (an identical copy) 344-390 `GetTangent`: the 36 entries written
for one integration point. -/
def tangentEntry {K : Type*} [Field K] (m : Material K) : ℕ → K :=
  let lambda := m.bulk - 2 * m.shear / 3
  let mu := m.shear
  let two_mu := 2 * m.shear
  fun k => match k with
  | 0 => lambda + two_mu | 1 => lambda | 2 => lambda | 3 => 0 | 4 => 0 | 5 => 0
  | 6 => lambda | 7 => lambda + two_mu | 8 => lambda | 9 => 0 | 10 => 0 | 11 => 0
  | 12 => lambda | 13 => lambda | 14 => lambda + two_mu | 15 => 0 | 16 => 0 | 17 => 0
  | 18 => 0 | 19 => 0 | 20 => 0 | 21 => mu | 22 => 0 | 23 => 0
  | 24 => 0 | 25 => 0 | 26 => 0 | 27 => 0 | 28 => mu | 29 => 0
  | 30 => 0 | 31 => 0 | 32 => 0 | 33 => 0 | 34 => 0 | 35 => mu
  | _ => 0

/-- nimble_material.cc:160-206, 344-390 `GetTangent`: the loop over the integration points,
writing `material_tangent[36 int_pt + k]`. -/
def getTangent {K : Type*} [Field K] (m : Material K) (num_pts : ℕ) (material_tangent : ℕ → K) :
    ℕ → K :=
  (List.range num_pts).foldl
    (fun out int_pt =>
      (List.range 36).foldl (fun out k => put out (int_pt * 36 + k) (tangentEntry m k)) out)
    material_tangent

/-- `std::cbrt`. -/
noncomputable def cbrt (x : ℝ) : ℝ := if x < 0 then -((-x) ^ ((1 : ℝ) / 3)) else x ^ ((1 : ℝ) / 3)

/-- nimble_material.cc:271-309: stress from the left stretch `v`. -/
noncomputable def stressOfStretch (m : Material ℝ) (v : Fin 6 → ℝ) : Fin 6 → ℝ :=
  let xj := v K_S_XX * v K_S_YY * v K_S_ZZ + 2 * v K_S_XY * v K_S_YZ * v K_S_ZX
    - v K_S_XX * v K_S_YZ * v K_S_YZ - v K_S_YY * v K_S_ZX * v K_S_ZX
    - v K_S_ZZ * v K_S_XY * v K_S_XY
  let cbrt_xj := cbrt xj
  let fac := 1 / (cbrt_xj * cbrt_xj)
  let pressure := 0.5 * m.bulk * (xj - 1 / xj)
  let bxx := v K_S_XX * v K_S_XX + v K_S_XY * v K_S_YX + v K_S_XZ * v K_S_ZX
  let byy := v K_S_YX * v K_S_XY + v K_S_YY * v K_S_YY + v K_S_YZ * v K_S_ZY
  let bzz := v K_S_ZX * v K_S_XZ + v K_S_ZY * v K_S_YZ + v K_S_ZZ * v K_S_ZZ
  let bxy := v K_S_XX * v K_S_XY + v K_S_XY * v K_S_YY + v K_S_XZ * v K_S_ZY
  let byz := v K_S_YX * v K_S_XZ + v K_S_YY * v K_S_YZ + v K_S_YZ * v K_S_ZZ
  let bzx := v K_S_ZX * v K_S_XX + v K_S_ZY * v K_S_YX + v K_S_ZZ * v K_S_ZX
  let bxx := fac * bxx
  let byy := fac * byy
  let bzz := fac * bzz
  let bxy := fac * bxy
  let byz := fac * byz
  let bzx := fac * bzx
  let trace := bxx + byy + bzz
  let bxx := bxx - trace / 3
  let byy := byy - trace / 3
  let bzz := bzz - trace / 3
  store6
    (pressure + m.shear * bxx / xj)
    (pressure + m.shear * byy / xj)
    (pressure + m.shear * bzz / xj)
    (m.shear * bxy / xj)
    (m.shear * byz / xj)
    (m.shear * bzx / xj)

/-- nimble_material.cc:252-310 `NeohookeanMaterial::GetStress` for one integration point.
`cosThird` is the function the eigensolver uses (Polar.lean); the code's is `padeCos`. -/
noncomputable def neohookeanStress (cosThird : ℝ → ℝ) (m : Material ℝ) (def_grad : Fin 9 → ℝ) :
    Option (Fin 6 → ℝ) :=
  (polarDecomp cosThird def_grad).map fun (v, _) => stressOfStretch m v

/-- nimble_material.cc:88-91, 148-152, 245-249, 332-336: the loop over the integration points of an
element, with the law for one point as an argument: reads `F[9 pt .. 9 pt + 8]`, writes
`stress[6 pt .. 6 pt + 5]`. -/
def pointLoop {K : Type*} (law : (Fin 9 → K) → Option (Fin 6 → K)) (num_pts : ℕ)
    (deformation_gradient_np1 : ℕ → K) (stress_np1 : ℕ → K) : Option (ℕ → K) :=
  (List.range num_pts).foldlM
    (fun (out : ℕ → K) pt =>
      (law fun i => deformation_gradient_np1 (9 * pt + i.val)).map fun sig =>
        (List.finRange 6).foldl (fun out c => put out (6 * pt + c.val) (sig c)) out)
    stress_np1

/-- nimble_material.cc:68-93, 226-250 `GetStress` (element version). -/
def getStress {K : Type*} (law : Material K → (Fin 9 → K) → Option (Fin 6 → K)) (m : Material K)
    (num_pts : ℕ) (F stress : ℕ → K) : Option (ℕ → K) :=
  pointLoop (law m) num_pts F stress

/-- nimble_material.cc:129-157, 313-341 `GetOffNominalStress`: new contents of the object and of the
stress array. -/
def getOffNominalStress {K : Type*} (law : Material K → (Fin 9 → K) → Option (Fin 6 → K))
    (m : Material K) (bulk_mod shear_mod : K) (num_pts : ℕ) (F stress : ℕ → K) :
    Option (Material K × (ℕ → K)) :=
  let old_bulk := m.bulk
  let old_shear := m.shear
  let m := { m with bulk := bulk_mod }
  let m := { m with shear := shear_mod }
  (pointLoop (law m) num_pts F stress).map fun stress =>
    let m := { m with bulk := old_bulk }
    let m := { m with shear := old_shear }
    (m, stress)

/-- One call on a material object, with its arguments. -/
inductive Call (K : Type*) where
  | stress (num_pts : ℕ) (F stress : ℕ → K)
  | offNominal (bulk shear : K) (num_pts : ℕ) (F stress : ℕ → K)

/-- Effect of one call: new contents of the object and stress array. -/
def call {K : Type*} (law : Material K → (Fin 9 → K) → Option (Fin 6 → K)) (m : Material K) :
    Call K → Option (Material K × (ℕ → K))
  | .stress n F s => (getStress law m n F s).map fun r => (m, r)
  | .offNominal b g n F s => getOffNominalStress law m b g n F s

/-- A sequence of calls on one object: final contents and the arrays written, in order. -/
def history {K : Type*} (law : Material K → (Fin 9 → K) → Option (Fin 6 → K)) :
    Material K → List (Call K) → Option (Material K × List (ℕ → K))
  | m, [] => some (m, [])
  | m, c :: cs => do
    let (m, r) ← call law m c
    let (m, rs) ← history law m cs
    some (m, r :: rs)

end NimbleSM.Constitutive
