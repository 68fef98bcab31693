import Verif.Kokkos.Schedule
import Verif.Assembly.Assembly

/-!
# The element kernels of the default model data: `src/nimble_kokkos_model_data.cc`

`DataManager::Initialize` (nimble_data_manager.cc:105-114) uses this class for every run without
`--use_uq`.  Exact arithmetic; a division by zero has the value `0` here (it is not a number in the code).
All views are functions of their logical indices (node, coordinate), (element, node, coordinate), ...;
indices beyond the extents are not distinguished.  Host and device memory are the subject of
`Verif.Kokkos.Coherence`; here `X` and `u` are the device arrays.
-/

namespace NimbleSM.Kokkos

open NimbleSM.Hex NimbleSM.Constitutive NimbleSM.Tensor NimbleSM.Assembly

variable {K : Type*} [Field K] [LinearOrder K]

/-- nimble_utils.h:1229-1268 `Invert3x3` in a build with Kokkos: a determinant that is not positive is
reported on the terminal only (lines 1243-1251) and the computation goes on. -/
def invert3x3K (mat : Fin 3 → Fin 3 → K) : (Fin 3 → Fin 3 → K) × K :=
  let minor0 := mat 1 1 * mat 2 2 - mat 1 2 * mat 2 1
  let minor1 := mat 1 0 * mat 2 2 - mat 1 2 * mat 2 0
  let minor2 := mat 1 0 * mat 2 1 - mat 1 1 * mat 2 0
  let minor3 := mat 0 1 * mat 2 2 - mat 0 2 * mat 2 1
  let minor4 := mat 0 0 * mat 2 2 - mat 2 0 * mat 0 2
  let minor5 := mat 0 0 * mat 2 1 - mat 0 1 * mat 2 0
  let minor6 := mat 0 1 * mat 1 2 - mat 0 2 * mat 1 1
  let minor7 := mat 0 0 * mat 1 2 - mat 0 2 * mat 1 0
  let minor8 := mat 0 0 * mat 1 1 - mat 0 1 * mat 1 0
  let det := mat 0 0 * minor0 - mat 0 1 * minor1 + mat 0 2 * minor2
  (![![minor0 / det, -1 * minor3 / det, minor6 / det],
     ![-1 * minor1 / det, minor4 / det, -1 * minor7 / det],
     ![minor2 / det, -1 * minor5 / det, minor8 / det]], det)

/-- nimble_element.cc:196-219 `ComputeLumpedMass` on Kokkos views, with nimble_element.h:266-309
`ComputeConsistentMass_impl`. -/
def lumpedMassK (val density : K) (node_reference_coords : ℕ → ℕ → K) (i : ℕ) : K :=
  let jac_det : ℕ → K := fun int_pt => (invert3x3K (jacobian val node_reference_coords int_pt)).2
  let consistent : ℕ → ℕ → K := fun i j =>
    (List.range 8).foldl
      (fun m int_pt => m + intWts int_pt * density * shapeFcnVals val (int_pt * 8 + i) *
        shapeFcnVals val (int_pt * 8 + j) * jac_det int_pt) 0
  (List.range 8).foldl (fun m j => m + consistent i j) 0

/-- nimble_element.h:430-502 `ComputeDeformationGradients_impl` on Kokkos views: the nine entries
written for one integration point. -/
def defGradK (val : K) (node_reference_coords node_displacements : ℕ → ℕ → K) (int_pt : ℕ) : Fin 9 → K :=
  let a := jacobian val (fun n d => node_reference_coords n d + node_displacements n d) int_pt
  let b := jacobian val node_reference_coords int_pt
  let b_inv := (invert3x3K b).1
  let def_grad : Fin 3 → Fin 3 → K := fun j k =>
    a j 0 * b_inv 0 k + a j 1 * b_inv 1 k + a j 2 * b_inv 2 k
  fun i =>
    if i = K_F_XX then def_grad 0 0 else if i = K_F_XY then def_grad 0 1
    else if i = K_F_XZ then def_grad 0 2 else if i = K_F_YX then def_grad 1 0
    else if i = K_F_YY then def_grad 1 1 else if i = K_F_YZ then def_grad 1 2
    else if i = K_F_ZX then def_grad 2 0 else if i = K_F_ZY then def_grad 2 1
    else def_grad 2 2

/-- nimble_element.h:540-625 `ComputeNodalForces_impl` on Kokkos views. -/
def nodalForcesK (val : K) (node_reference_coords node_displacements : ℕ → ℕ → K)
    (stress : ℕ → Fin 6 → K) : ℕ → Fin 3 → K :=
  (List.range 8).foldl
    (fun (force : ℕ → Fin 3 → K) int_pt =>
      let r := invert3x3K (jacobian val
        (fun n d => node_reference_coords n d + node_displacements n d) int_pt)
      let a_inv := r.1
      let jac_det := r.2
      (List.range 8).foldl
        (fun force node =>
          let dN := dNdx val a_inv int_pt node
          let f1 := dN 0 * stress int_pt K_S_XX + dN 1 * stress int_pt K_S_YX +
            dN 2 * stress int_pt K_S_ZX
          let f2 := dN 0 * stress int_pt K_S_XY + dN 1 * stress int_pt K_S_YY +
            dN 2 * stress int_pt K_S_ZY
          let f3 := dN 0 * stress int_pt K_S_XZ + dN 1 * stress int_pt K_S_YZ +
            dN 2 * stress int_pt K_S_ZZ
          let f1 := f1 * (jac_det * intWts int_pt)
          let f2 := f2 * (jac_det * intWts int_pt)
          let f3 := f3 * (jac_det * intWts int_pt)
          put force node ![force node 0 - f1, force node 1 - f2, force node 2 - f3])
        force)
    (fun _ => ![0, 0, 0])

/-- A block (nimble_kokkos_block.h; nimble_kokkos_block_material_interface.h `BlockData`): density, the
law `GetStress` of the material on the device for one integration point, number of elements and
connectivity. -/
structure KBlk (K : Type*) where
  density : K
  law : (Fin 9 → K) → Fin 6 → K
  numElem : ℕ
  conn : ℕ → ℕ

/-- Views indexed by (node, coordinate). -/
abbrev NodeView (K : Type*) := ℕ × ℕ → K

/-- Views indexed by (element, node, coordinate) or (element, integration point, component). -/
abbrev ElemView (K : Type*) := ℕ × ℕ × ℕ → K

/-- nimble_kokkos_model_data.cc:1648-1656 (`GatherVectorNodeData`): the writes of one element. -/
def gatherBody (b : KBlk K) (data : NodeView K) (i_elem : ℕ) : List ((ℕ × ℕ × ℕ) × K) :=
  (List.range 8).flatMap fun i_node =>
    let node_index := b.conn (8 * i_elem + i_node)
    (List.finRange 3).map fun i_coord => ((i_elem, i_node, i_coord.val), data (node_index, i_coord.val))

/-- nimble_kokkos_model_data.cc:1211-1220 (`Deformation Gradient`): the writes of one element. -/
def defGradBody (val : K) (gX gU : ElemView K) (i_elem : ℕ) : List ((ℕ × ℕ × ℕ) × K) :=
  (List.range 8).flatMap fun int_pt =>
    (List.finRange 9).map fun i =>
      ((i_elem, int_pt, i.val), defGradK val (fun n d => gX (i_elem, n, d)) (fun n d => gU (i_elem, n, d)) int_pt i)

/-- nimble_kokkos_block_material_interface.cc:80-118 (`Stress`): the writes of one (element, integration
point) of the two-dimensional range; the material models of the repository have no state variables and use
the new deformation gradient only. -/
def stressBody (b : KBlk K) (F : ElemView K) (i_elem i_ipt : ℕ) : List ((ℕ × ℕ × ℕ) × K) :=
  let sig := b.law fun i => F (i_elem, i_ipt, i.val)
  (List.finRange 6).map fun c => ((i_elem, i_ipt, c.val), sig c)

/-- nimble_kokkos_model_data.cc:1259-1275 (`Force`): the writes of one element. -/
def forceBody (val : K) (gX gU stress : ElemView K) (i_elem : ℕ) : List ((ℕ × ℕ × ℕ) × K) :=
  let f := nodalForcesK val (fun n d => gX (i_elem, n, d)) (fun n d => gU (i_elem, n, d))
    (fun int_pt c => stress (i_elem, int_pt, c.val))
  (List.range 8).flatMap fun node => (List.finRange 3).map fun i => ((i_elem, node, i.val), f node i)

/-- nimble_kokkos_model_data.cc:1692-1700 (`ScatterVectorNodeData`): the atomic additions of one
element. -/
def scatterBody (b : KBlk K) (gathered : ElemView K) (i_elem : ℕ) : List ((ℕ × ℕ) × K) :=
  (List.range 8).flatMap fun i_node =>
    let node_index := b.conn (8 * i_elem + i_node)
    (List.finRange 3).map fun i_coord =>
      ((node_index, i_coord.val), gathered (i_elem, i_node, i_coord.val))

/-- Work arrays of a block on the device: `gathered_reference_coordinate_d`, `gathered_displacement_d`,
`gathered_internal_force_d`, and the fields `deformation_gradient` and `stress` at the new state. -/
structure Work (K : Type*) where
  gX : ElemView K
  gU : ElemView K
  gF : ElemView K
  F : ElemView K
  stress : ElemView K

/-- nimble_kokkos_model_data.cc:1180-1227: gather and deformation gradients of one block. -/
structure Kinematics (val : K) (X u : NodeView K) (b : KBlk K) (w w' : Work K) : Prop where
  gatherX : ParallelFor write b.numElem (gatherBody b X) w.gX w'.gX
  gatherU : ParallelFor write b.numElem (gatherBody b u) w.gU w'.gU
  defGrad : ParallelFor write b.numElem (defGradBody val w'.gX w'.gU) w.F w'.F
  gF : w'.gF = w.gF
  stress : w'.stress = w.stress

/-- nimble_kokkos_block_material_interface.cc:140-192 `ComputeStress` for one block. -/
structure Stress (b : KBlk K) (w w' : Work K) : Prop where
  stress : Run write ((List.range b.numElem).flatMap fun i_elem =>
    (List.range 8).map fun i_ipt => stressBody b w.F i_elem i_ipt) w.stress w'.stress
  gX : w'.gX = w.gX
  gU : w'.gU = w.gU
  gF : w'.gF = w.gF
  F : w'.F = w.F

/-- nimble_kokkos_model_data.cc:1238-1279: nodal forces of one block, and their addition to the nodes. -/
structure Divergence (val : K) (b : KBlk K) (w w' : Work K) (force force' : NodeView K) : Prop where
  nodal : ParallelFor write b.numElem (forceBody val w.gX w.gU w.stress) w.gF w'.gF
  scatter : ParallelFor atomicAdd b.numElem (scatterBody b w'.gF) force force'
  gX : w'.gX = w.gX
  gU : w'.gU = w.gU
  F : w'.F = w.F
  stress : w'.stress = w.stress

/-- nimble_kokkos_model_data.cc:1237-1280: the loop over the blocks for the third part. -/
inductive Divergences (val : K) : List (KBlk K) → List (Work K) → List (Work K) → NodeView K → NodeView K → Prop
  | nil {force} : Divergences val [] [] [] force force
  | cons {b bs w ws w' ws' f f' f''} : Divergence val b w w' f f' → Divergences val bs ws ws' f' f'' →
      Divergences val (b :: bs) (w :: ws) (w' :: ws') f f''

/-- nimble_kokkos_model_data.cc:1155-1286 `ModelData::ComputeInternalForce` up to the parallel reduction,
with a block material interface (nimble.cc:277-281): the possible final contents `force'` of
`internal_force_d` (and of its host copy, line 1282).  `ws` are the work arrays at the start (their contents
before the call are arbitrary), `ws'` at the end. -/
def InternalForce (val : K) (X u : NodeView K) (bs : List (KBlk K)) (ws ws' : List (Work K))
    (force' : NodeView K) : Prop :=
  ∃ ws1 ws2 : List (Work K),
    List.Forall₂ (fun (bw : KBlk K × Work K) w' => Kinematics val X u bw.1 bw.2 w') (bs.zip ws) ws1 ∧
    List.Forall₂ (fun (bw : KBlk K × Work K) w' => Stress bw.1 bw.2 w') (bs.zip ws1) ws2 ∧
    Divergences val bs ws2 ws' (fun _ => 0) force'

/-- nimble_kokkos_model_data.cc:1127-1133 (`Lumped Mass`): the writes of one element. -/
def massBody (val : K) (b : KBlk K) (gX : ElemView K) (i_elem : ℕ) : List ((ℕ × ℕ) × K) :=
  (List.range 8).map fun i => ((i_elem, i), lumpedMassK val b.density (fun n d => gX (i_elem, n, d)) i)

/-- nimble_kokkos_model_data.cc:1672-1677 (`ScatterScalarNodeData`): the atomic additions of one
element. -/
def scatterMassBody (b : KBlk K) (gathered : NodeView K) (i_elem : ℕ) : List (ℕ × K) :=
  (List.range 8).map fun i_node => (b.conn (8 * i_elem + i_node), gathered (i_elem, i_node))

/-- nimble_kokkos_model_data.cc:1100-1137: gather, element masses and addition to the nodes, for one
block; `gX` and `gM` are the contents of the work arrays before. -/
def BlockMass (val : K) (X : NodeView K) (b : KBlk K) (mass mass' : ℕ → K) : Prop :=
  ∃ (gX gX' : ElemView K) (gM gM' : NodeView K),
    ParallelFor write b.numElem (gatherBody b X) gX gX' ∧
    ParallelFor write b.numElem (massBody val b gX') gM gM' ∧
    ParallelFor atomicAdd b.numElem (scatterMassBody b gM') mass mass'

/-- The loop over the blocks of `ComputeLumpedMass`. -/
inductive BlockMasses (val : K) (X : NodeView K) : List (KBlk K) → (ℕ → K) → (ℕ → K) → Prop
  | nil {m} : BlockMasses val X [] m m
  | cons {b bs m m' m''} : BlockMass val X b m m' → BlockMasses val X bs m' m'' → BlockMasses val X (b :: bs) m m''

/-- nimble_kokkos_model_data.cc:1068-1152 `ModelData::ComputeLumpedMass` without the critical time step and
the parallel reduction: `lumped_mass` before and after.  The field is set to zero first (1088-1092). -/
def LumpedMass (val : K) (X : NodeView K) (bs : List (KBlk K)) (_before after : ℕ → K) : Prop :=
  BlockMasses val X bs (fun _ => 0) after

end NimbleSM.Kokkos
