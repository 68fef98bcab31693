import Verif.Tensor.Tensor
import Mathlib.Data.Fin.VecNotation

/-!
# The eight-node hexahedron of `src/nimble_element.{h,cc}`

Exact arithmetic over a linearly ordered field `K` (the code: `double`).  Flat C arrays are functions
`ℕ → K` on the same flat index the code uses; two-index views are functions `ℕ → ℕ → K`.
A failed `NIMBLE_ASSERT` in `Invert3x3` aborts the process: the result is `none`
(build without Kokkos; the Kokkos build prints a message and carries on).

The Gauss coordinate `val` is `0.577350269189626` in the code (`gaussVal`); the functions take it as
an argument so that theorems can be stated for the code's constant and for the exact
`1/√3` it stands for.
-/

namespace NimbleSM.Hex

open NimbleSM.Tensor (invert3x3 K_S_XX K_S_YY K_S_ZZ K_S_XY K_S_YZ K_S_ZX K_S_YX K_S_ZY K_S_XZ
  K_F_XX K_F_YY K_F_ZZ K_F_XY K_F_YZ K_F_ZX K_F_YX K_F_ZY K_F_XZ)

variable {K : Type*} [Field K] [LinearOrder K]

/-- nimble_element.cc:58 `val = 0.577350269189626`. -/
def gaussVal : K := 577350269189626 / 1000000000000000

/-- nimble_element.cc:59-90: the table `int_pts_` (24 entries). -/
def intPts (val : K) : ℕ → K
  | 0 => -val | 1 => -val | 2 => -val
  | 3 => val | 4 => -val | 5 => -val
  | 6 => val | 7 => val | 8 => -val
  | 9 => -val | 10 => val | 11 => -val
  | 12 => -val | 13 => -val | 14 => val
  | 15 => val | 16 => -val | 17 => val
  | 18 => val | 19 => val | 20 => val
  | 21 => -val | 22 => val | 23 => val
  | _ => 0

/-- nimble_element.cc:92: `int_wts_`. -/
def intWts : ℕ → K := fun _ => 1

/-- nimble_element.cc:103-120: the eight assignments of the loop body of `ShapeFunctionValues`. -/
def shapeAt (r s t : K) : ℕ → K :=
  let c := 1 / 8
  fun k => match k with
  | 0 => c * (1 - r) * (1 - s) * (1 - t)
  | 1 => c * (1 + r) * (1 - s) * (1 - t)
  | 2 => c * (1 + r) * (1 + s) * (1 - t)
  | 3 => c * (1 - r) * (1 + s) * (1 - t)
  | 4 => c * (1 - r) * (1 - s) * (1 + t)
  | 5 => c * (1 + r) * (1 - s) * (1 + t)
  | 6 => c * (1 + r) * (1 + s) * (1 + t)
  | 7 => c * (1 - r) * (1 + s) * (1 + t)
  | _ => 0

/-- nimble_element.cc:99-122 `ShapeFunctionValues`.  The loop over `i` fills entries
`8 i .. 8 i + 7`; written as a function of the flat index. -/
def shapeFunctionValues (natural_coords : ℕ → K) : ℕ → K := fun idx =>
  let i := idx / 8
  shapeAt (natural_coords (3 * i)) (natural_coords (3 * i + 1)) (natural_coords (3 * i + 2)) (idx % 8)

/-- nimble_element.cc:128-169: the 24 assignments of the loop body of `ShapeFunctionDerivatives`. -/
def derivAt (r s t : K) : ℕ → K :=
  let c := 1 / 8
  fun k => match k with
  | 0 => -c * (1 - s) * (1 - t)
  | 1 => -c * (1 - r) * (1 - t)
  | 2 => -c * (1 - r) * (1 - s)
  | 3 => c * (1 - s) * (1 - t)
  | 4 => -c * (1 + r) * (1 - t)
  | 5 => -c * (1 + r) * (1 - s)
  | 6 => c * (1 + s) * (1 - t)
  | 7 => c * (1 + r) * (1 - t)
  | 8 => -c * (1 + r) * (1 + s)
  | 9 => -c * (1 + s) * (1 - t)
  | 10 => c * (1 - r) * (1 - t)
  | 11 => -c * (1 - r) * (1 + s)
  | 12 => -c * (1 - s) * (1 + t)
  | 13 => -c * (1 - r) * (1 + t)
  | 14 => c * (1 - r) * (1 - s)
  | 15 => c * (1 - s) * (1 + t)
  | 16 => -c * (1 + r) * (1 + t)
  | 17 => c * (1 + r) * (1 - s)
  | 18 => c * (1 + s) * (1 + t)
  | 19 => c * (1 + r) * (1 + t)
  | 20 => c * (1 + r) * (1 + s)
  | 21 => -c * (1 + s) * (1 + t)
  | 22 => c * (1 - r) * (1 + t)
  | 23 => c * (1 - r) * (1 + s)
  | _ => 0

/-- nimble_element.cc:124-171 `ShapeFunctionDerivatives`. -/
def shapeFunctionDerivatives (natural_coords : ℕ → K) : ℕ → K := fun idx =>
  let i := idx / 24
  derivAt (natural_coords (3 * i)) (natural_coords (3 * i + 1)) (natural_coords (3 * i + 2)) (idx % 24)

/-- nimble_element.cc:94: member `shape_fcn_vals_`. -/
def shapeFcnVals (val : K) : ℕ → K := shapeFunctionValues (intPts val)

/-- nimble_element.cc:96: member `shape_fcn_deriv_`. -/
def shapeFcnDeriv (val : K) : ℕ → K := shapeFunctionDerivatives (intPts val)

/-- The loop `a[i][j] += coordinate_i * sfd_j` over the eight nodes: nimble_element.h:277-296,
362-380, 443-482 (there for `a` and `b`), 564-582, nimble_element.cc:395-418.  `coords n d` is the
coordinate used for node `n` and direction `d`. -/
def jacobian (val : K) (coords : ℕ → ℕ → K) (int_pt : ℕ) : Fin 3 → Fin 3 → K :=
  (List.range 8).foldl
    (fun a n =>
      let cc1 := coords n 0
      let cc2 := coords n 1
      let cc3 := coords n 2
      let sfd1 := shapeFcnDeriv val (24 * int_pt + 3 * n)
      let sfd2 := shapeFcnDeriv val (24 * int_pt + 3 * n + 1)
      let sfd3 := shapeFcnDeriv val (24 * int_pt + 3 * n + 2)
      ![![a 0 0 + cc1 * sfd1, a 0 1 + cc1 * sfd2, a 0 2 + cc1 * sfd3],
        ![a 1 0 + cc2 * sfd1, a 1 1 + cc2 * sfd2, a 1 2 + cc2 * sfd3],
        ![a 2 0 + cc3 * sfd1, a 2 1 + cc3 * sfd2, a 2 2 + cc3 * sfd3]])
    ![![0, 0, 0], ![0, 0, 0], ![0, 0, 0]]

/-- A two-index `Viewify` with strides `{3, 1}` over a flat nodal array. -/
def view3 (p : ℕ → K) : ℕ → ℕ → K := fun n d => p (3 * n + d)

/-- Assignment to one entry of a flat array. -/
def put {A : Type*} (v : ℕ → A) (i : ℕ) (x : A) : ℕ → A := fun a => if a = i then x else v a

/-- nimble_element.h:266-309 `ComputeConsistentMass_impl`. -/
def computeConsistentMass (val density : K) (node_reference_coords : ℕ → ℕ → K) :
    Option (ℕ → ℕ → K) :=
  ((List.range 8).foldlM
    (fun (jac_det : ℕ → K) int_pt =>
      (invert3x3 (jacobian val node_reference_coords int_pt)).map fun (_, det) =>
        put jac_det int_pt det)
    (fun _ => 0)).map fun jac_det => fun i j =>
      (List.range 8).foldl
        (fun m int_pt => m + intWts int_pt * density * shapeFcnVals val (int_pt * 8 + i) *
          shapeFcnVals val (int_pt * 8 + j) * jac_det int_pt) 0

/-- nimble_element.cc:173-193 `ComputeLumpedMass`. -/
def computeLumpedMass (val density : K) (node_reference_coords : ℕ → K) : Option (ℕ → K) :=
  (computeConsistentMass val density (view3 node_reference_coords)).map fun consistent => fun i =>
    (List.range 8).foldl (fun m j => m + consistent i j) 0

/-- nimble_element.h:343-392 `ComputeVolumeAverageQuantities_impl`: `(volume, averages)`.
The state of the loop over integration points is `(volume, vol_ave)`. -/
def computeVolumeAverageImpl (val : K) (node_reference_coords node_displacements : ℕ → ℕ → K)
    (int_pt_quantities : ℕ → ℕ → K) : Option (K × (ℕ → K)) :=
  ((List.range 8).foldlM
    (fun (st : K × (ℕ → K)) int_pt =>
      (invert3x3 (jacobian val
          (fun n d => node_reference_coords n d + node_displacements n d) int_pt)).map fun (_, det) =>
        (st.1 + det, fun i => st.2 i + int_pt_quantities int_pt i * intWts int_pt * det))
    ((0 : K), fun _ => (0 : K))).map fun (volume, vol_ave) => (volume, fun i => vol_ave i / volume)

/-- nimble_element.cc:262-282 `ComputeVolumeAverage`: `(volume, volume_averaged_quantities)`. -/
def computeVolumeAverage (val : K) (node_current_coords : ℕ → K) (num_quantities : ℕ)
    (int_pt_quantities : ℕ → K) : Option (K × (ℕ → K)) :=
  computeVolumeAverageImpl val (view3 node_current_coords) (fun _ _ => 0)
    (fun int_pt i => int_pt_quantities (num_quantities * int_pt + i))

/-- nimble_element.h:430-502 `ComputeDeformationGradients_impl`: the nine components written for
one integration point. -/
def defGradAt (val : K) (node_reference_coords node_displacements : ℕ → ℕ → K) (int_pt : ℕ) :
    Option (Fin 9 → K) :=
  let a := jacobian val (fun n d => node_reference_coords n d + node_displacements n d) int_pt
  let b := jacobian val node_reference_coords int_pt
  (invert3x3 b).map fun (b_inv, _) =>
    let def_grad : Fin 3 → Fin 3 → K := fun j k =>
      a j 0 * b_inv 0 k + a j 1 * b_inv 1 k + a j 2 * b_inv 2 k
    fun i =>
      if i = K_F_XX then def_grad 0 0 else if i = K_F_XY then def_grad 0 1
      else if i = K_F_XZ then def_grad 0 2 else if i = K_F_YX then def_grad 1 0
      else if i = K_F_YY then def_grad 1 1 else if i = K_F_YZ then def_grad 1 2
      else if i = K_F_ZX then def_grad 2 0 else if i = K_F_ZY then def_grad 2 1
      else def_grad 2 2

/-- nimble_element.cc:333-351 `ComputeDeformationGradients`; the result is the flat array with
nine entries per integration point. -/
def computeDeformationGradients (val : K) (node_reference_coords node_current_coords : ℕ → K) :
    Option (ℕ → K) :=
  let tmp_disp : ℕ → K := fun ii => node_current_coords ii - node_reference_coords ii
  (List.range 8).foldlM
    (fun (out : ℕ → K) int_pt =>
      (defGradAt val (view3 node_reference_coords) (view3 tmp_disp) int_pt).map fun dg =>
        (List.finRange 9).foldl (fun out i => put out (9 * int_pt + i.val) (dg i)) out)
    (fun _ => 0)

/-- nimble_element.h:587-597 and nimble_element.cc:424-429: derivatives of the shape function of
`node` with respect to the current coordinates. -/
def dNdx (val : K) (a_inv : Fin 3 → Fin 3 → K) (int_pt node : ℕ) : Fin 3 → K :=
  let sfd1 := shapeFcnDeriv val (24 * int_pt + 3 * node)
  let sfd2 := shapeFcnDeriv val (24 * int_pt + 3 * node + 1)
  let sfd3 := shapeFcnDeriv val (24 * int_pt + 3 * node + 2)
  ![sfd1 * a_inv 0 0 + sfd2 * a_inv 1 0 + sfd3 * a_inv 2 0,
    sfd1 * a_inv 0 1 + sfd2 * a_inv 1 1 + sfd3 * a_inv 2 1,
    sfd1 * a_inv 0 2 + sfd2 * a_inv 1 2 + sfd3 * a_inv 2 2]

/-- nimble_element.h:540-625 `ComputeNodalForces_impl`; `stress int_pt c` is component `c` of the
stress at integration point `int_pt`. -/
def computeNodalForcesImpl (val : K) (node_reference_coords node_displacements : ℕ → ℕ → K)
    (stress : ℕ → Fin 6 → K) : Option (ℕ → Fin 3 → K) :=
  (List.range 8).foldlM
    (fun (force : ℕ → Fin 3 → K) int_pt =>
      (invert3x3 (jacobian val
          (fun n d => node_reference_coords n d + node_displacements n d) int_pt)).map
        fun (a_inv, jac_det) =>
          (List.range 8).foldl
            (fun force node =>
              let dN := dNdx val a_inv int_pt node
              let f1 := dN 0 * stress int_pt K_S_XX + dN 1 * stress int_pt K_S_YX +
                dN 2 * stress int_pt K_S_ZX
              let f2 := dN 0 * stress int_pt K_S_XY + dN 1 * stress int_pt K_S_YY +
                dN 2 * stress int_pt K_S_ZY
              let f3 := dN 0 * stress int_pt K_S_XZ + dN 1 * stress int_pt K_S_YZ +
                dN 2 * stress int_pt K_S_ZZ
              let f1 := f1 * (jac_det * intWts int_pt)
              let f2 := f2 * (jac_det * intWts int_pt)
              let f3 := f3 * (jac_det * intWts int_pt)
              put force node ![force node 0 - f1, force node 1 - f2, force node 2 - f3])
            force)
    (fun _ => ![0, 0, 0])

/-- nimble_element.cc:457-472 `ComputeNodalForces`; the result is indexed by node and direction
(the flat array entry `3 node + d`). -/
def computeNodalForces (val : K) (node_current_coords : ℕ → K) (int_pt_stresses : ℕ → K) :
    Option (ℕ → Fin 3 → K) :=
  computeNodalForcesImpl val (view3 node_current_coords) (fun _ _ => 0)
    (fun int_pt c => int_pt_stresses (6 * int_pt + c.val))

/-- Assignment `B[k][j] = x`. -/
def put2 (B : ℕ → ℕ → K) (k j : ℕ) (x : K) : ℕ → ℕ → K :=
  fun a b => if a = k ∧ b = j then x else B a b

/-- nimble_element.cc:421-439: filling of the strain-displacement matrix `B[6][24]` for one
integration point, over the previous contents. -/
def fillB (val : K) (a_inv : Fin 3 → Fin 3 → K) (int_pt : ℕ) (B : ℕ → ℕ → K) : ℕ → ℕ → K :=
  (List.range 8).foldl
    (fun B n =>
      let dN := dNdx val a_inv int_pt n
      let B := put2 B 0 (3 * n) (dN 0)
      let B := put2 B 1 (3 * n + 1) (dN 1)
      let B := put2 B 2 (3 * n + 2) (dN 2)
      let B := put2 B 3 (3 * n) (dN 1)
      let B := put2 B 3 (3 * n + 1) (dN 0)
      let B := put2 B 4 (3 * n + 1) (dN 2)
      let B := put2 B 4 (3 * n + 2) (dN 1)
      let B := put2 B 5 (3 * n) (dN 2)
      put2 B 5 (3 * n + 2) (dN 0))
    B

/-- nimble_element.cc:364-455 `ComputeTangent`: the state of the loop over integration points is
`(B, element_tangent)`; `element_tangent[i*24+j]` is `K i j`. -/
def computeTangent (val : K) (node_current_coords : ℕ → K) (material_tangent : ℕ → K) :
    Option (ℕ → ℕ → K) :=
  ((List.range 8).foldlM
    (fun (st : (ℕ → ℕ → K) × (ℕ → ℕ → K)) int_pt =>
      (invert3x3 (jacobian val (view3 node_current_coords) int_pt)).map fun (a_inv, jac_det) =>
        let B := fillB val a_inv int_pt st.1
        let temp : ℕ → ℕ → K := fun i j =>
          (List.range 6).foldl
            (fun s k => s + material_tangent (36 * int_pt + 6 * i + k) * B k j) 0
        let tangent : ℕ → ℕ → K := fun i j =>
          (List.range 6).foldl
            (fun s k => s + B k i * temp k j * intWts int_pt * jac_det) (st.2 i j)
        (B, tangent))
    ((fun _ _ => (0 : K)), fun _ _ => (0 : K))).map Prod.snd

/-- The six running extremes and the running minimum of nimble_element.cc:227-231. -/
structure Extremes (K : Type*) where
  minDist2 : K
  xmin : K
  xmax : K
  ymin : K
  ymax : K
  zmin : K
  zmax : K

/-- nimble_element.cc:237 `if (nx < x_min) { x_min = nx; }`. -/
def Extremes.lowX (e : Extremes K) (v : K) : Extremes K := if v < e.xmin then { e with xmin := v } else e

/-- nimble_element.cc:238 `if (nx > x_max) { x_max = nx; }`. -/
def Extremes.highX (e : Extremes K) (v : K) : Extremes K := if v > e.xmax then { e with xmax := v } else e

/-- nimble_element.cc:239 `if (ny < y_min) { y_min = ny; }`. -/
def Extremes.lowY (e : Extremes K) (v : K) : Extremes K := if v < e.ymin then { e with ymin := v } else e

/-- nimble_element.cc:240 `if (ny > y_max) { y_max = ny; }`. -/
def Extremes.highY (e : Extremes K) (v : K) : Extremes K := if v > e.ymax then { e with ymax := v } else e

/-- nimble_element.cc:241 `if (nz < z_min) { z_min = nz; }`. -/
def Extremes.lowZ (e : Extremes K) (v : K) : Extremes K := if v < e.zmin then { e with zmin := v } else e

/-- nimble_element.cc:242 `if (nz > z_max) { z_max = nz; }`. -/
def Extremes.highZ (e : Extremes K) (v : K) : Extremes K := if v > e.zmax then { e with zmax := v } else e

/-- nimble_element.cc:234-249: the body of the loop over nodes of `ComputeCharacteristicLength`. -/
def extremesStep (node_coords : ℕ → K) (e : Extremes K) (n : ℕ) : Extremes K :=
  let nx := node_coords (3 * n)
  let ny := node_coords (3 * n + 1)
  let nz := node_coords (3 * n + 2)
  let e := e.lowX nx
  let e := e.highX nx
  let e := e.lowY ny
  let e := e.highY ny
  let e := e.lowZ nz
  let e := e.highZ nz
  (List.range' (n + 1) (8 - (n + 1))).foldl
    (fun e m =>
      let mx := node_coords (3 * m)
      let my := node_coords (3 * m + 1)
      let mz := node_coords (3 * m + 2)
      let distance_squared := (nx - mx) * (nx - mx) + (ny - my) * (ny - my) + (nz - mz) * (nz - mz)
      if distance_squared < e.minDist2 then { e with minDist2 := distance_squared } else e)
    e

/-- nimble_element.cc:221-260 `ComputeCharacteristicLength`; `dmax` is
`std::numeric_limits<double>::max()`, `sqrt` the square root. -/
def computeCharacteristicLength (sqrt : K → K) (dmax : K) (node_coords : ℕ → K) : K :=
  let e := (List.range 8).foldl (extremesStep node_coords) ⟨dmax, dmax, 0, dmax, 0, dmax, 0⟩
  let characteristic_length := sqrt e.minDist2
  let min_box_length := e.xmax - e.xmin
  let min_box_length := if e.ymax - e.ymin < min_box_length then e.ymax - e.ymin else min_box_length
  let min_box_length := if e.zmax - e.zmin < min_box_length then e.zmax - e.zmin else min_box_length
  if min_box_length < characteristic_length then min_box_length else characteristic_length

end NimbleSM.Hex
