import Verif.Element.Hex
import Verif.Material.Material

/-!
# Blocks and assembly: `src/nimble_block.cc`, `src/nimble_block_base.cc`, `src/nimble_model_data.cc`

Internal force, lumped mass and critical time step of a mesh of hexahedral blocks, serial part (the
parallel vector reduction that follows is `Verif.Mpi.Reduction`).  Exact arithmetic.  `none` is an abort
(non-positive Jacobian, or a failing constitutive law).  The three nodal arrays are flat arrays
`ℕ → K`; accesses beyond their length (undefined behaviour when the connectivity is not a connectivity of
the mesh) are not distinguished.  The element data written back (deformation gradients and stresses) are
the subject of `Verif.Fields.BlockData`; both material laws ignore the old element data, the velocity and
the times (see `Verif.Material.Material`), so they do not occur here.
-/

namespace NimbleSM.Assembly

open NimbleSM.Hex NimbleSM.Constitutive

variable {K : Type*} [Field K] [LinearOrder K]

/-- A block with its mesh data (nimble_block_base.h `element_`, `material_`; nimble_genesis_mesh.h
`GetConnectivity`, `GetNumElementsInBlock`): the density, the law of the material for one integration
point, the number of elements and the flat connectivity array. -/
structure Blk (K : Type*) where
  density : K
  bulk : K
  law : (Fin 9 → K) → Option (Fin 6 → K)
  numElem : ℕ
  conn : ℕ → ℕ

/-- `elem_conn[elem * num_node_per_elem + node]`. -/
def Blk.nodeId (b : Blk K) (elem node : ℕ) : ℕ := b.conn (elem * 8 + node)

/-- nimble_block.cc:131-136 (and 310-317, nimble_block_base.cc:72-77): the gather loop
`out[node*3 + i] = data[3*node_id + i]`. -/
def gather (b : Blk K) (elem : ℕ) (data : ℕ → K) : ℕ → K :=
  (List.range 8).foldl (fun out node =>
    (List.range 3).foldl (fun out i => put out (node * 3 + i) (data (3 * b.nodeId elem node + i))) out)
    (fun _ => 0)

/-- nimble_block.cc:283-370, 372: the force array of one element: gather, deformation gradients,
stresses at the eight integration points, nodal forces. -/
def elementForce (val : K) (b : Blk K) (reference_coordinates displacement : ℕ → K) (elem : ℕ) :
    Option (ℕ → Fin 3 → K) := do
  let ref_coord := gather b elem reference_coordinates
  let cur_coord := gather b elem (fun k => reference_coordinates k + displacement k)
  let def_grad_np1 ← computeDeformationGradients val ref_coord cur_coord
  let cauchy_stress_np1 ← pointLoop b.law 8 def_grad_np1 (fun _ => 0)
  computeNodalForces val cur_coord cauchy_stress_np1

/-- nimble_block.cc:374-384: the scatter loop `internal_force[3*node_id + i] += force[node*3 + i]`. -/
def scatter (b : Blk K) (elem : ℕ) (force : ℕ → Fin 3 → K) (internal_force : ℕ → K) : ℕ → K :=
  (List.range 8).foldl (fun out node =>
    (List.finRange 3).foldl (fun (out : ℕ → K) (i : Fin 3) =>
      put out (3 * b.nodeId elem node + i) (out (3 * b.nodeId elem node + i) + force node i)) out)
    internal_force

/-- nimble_block.cc:388-437 `Block::ComputeInternalForce`: the loop over elements.  `order` is the order
in which the elements are processed: increasing in the serial build, any order under
`Kokkos::parallel_for` (where the additions are atomic, so that the additions of different elements
interleave without loss; the interleaving within one element's additions is not modelled). -/
def blockInternalForce (val : K) (reference_coordinates displacement : ℕ → K) (b : Blk K)
    (order : List ℕ) (internal_force : ℕ → K) : Option (ℕ → K) :=
  order.foldlM (fun (out : ℕ → K) elem =>
    (elementForce val b reference_coordinates displacement elem).map fun f => scatter b elem f out)
    internal_force

/-- nimble_model_data.cc:621-668 `ModelData::ComputeInternalForce` without the parallel reduction: zero
the array, then every block in turn (with the element order used for it). -/
def computeInternalForce (val : K) (reference_coordinates displacement : ℕ → K)
    (blocks : List (Blk K × List ℕ)) : Option (ℕ → K) :=
  blocks.foldlM (fun (out : ℕ → K) b => blockInternalForce val reference_coordinates displacement b.1 b.2 out)
    (fun _ => 0)

/-- The serial element order of every block. -/
def serial (blocks : List (Blk K)) : List (Blk K × List ℕ) := blocks.map fun b => (b, List.range b.numElem)

/-- nimble_block.cc:141-144: `lumped_mass[node_id] += mass[node]`. -/
def scatterMass (b : Blk K) (elem : ℕ) (mass : ℕ → K) (lumped_mass : ℕ → K) : ℕ → K :=
  (List.range 8).foldl (fun out node =>
    put out (b.nodeId elem node) (out (b.nodeId elem node) + mass node)) lumped_mass

/-- nimble_block.cc:110-146 `Block::ComputeLumpedMassMatrix`. -/
def blockLumpedMass (val : K) (reference_coordinates : ℕ → K) (b : Blk K) (lumped_mass : ℕ → K) :
    Option (ℕ → K) :=
  (List.range b.numElem).foldlM (fun (out : ℕ → K) elem =>
    (computeLumpedMass val b.density (gather b elem reference_coordinates)).map fun mass =>
      scatterMass b elem mass out) lumped_mass

/-- nimble_model_data.cc:495-530 `ModelData::ComputeLumpedMass` without the critical time step and the
parallel reduction: adds to the array as it is (it is not set to zero first). -/
def computeLumpedMassField (val : K) (reference_coordinates : ℕ → K) (blocks : List (Blk K))
    (lumped_mass : ℕ → K) : Option (ℕ → K) :=
  blocks.foldlM (fun (out : ℕ → K) b => blockLumpedMass val reference_coordinates b out) lumped_mass

/-- nimble_block_base.cc:51-84 `ComputeCriticalTimeStep`; `sqrt` is `std::sqrt`, `dmax` the largest
`double`. -/
def blockCriticalTimeStep (sqrt : K → K) (dmax : K) (reference_coordinates displacement : ℕ → K)
    (b : Blk K) : K :=
  let sound_speed := sqrt (b.bulk / b.density)
  (List.range b.numElem).foldl (fun critical elem =>
    let node_coord := gather b elem (fun k => reference_coordinates k + displacement k)
    let elem_critical := computeCharacteristicLength sqrt dmax node_coord / sound_speed
    if elem_critical < critical then elem_critical else critical) dmax

/-- nimble_model_data.cc:511-521: the smallest critical time step of the blocks (of this rank: there is
no reduction over ranks). -/
def criticalTimeStep (sqrt : K → K) (dmax : K) (reference_coordinates displacement : ℕ → K)
    (blocks : List (Blk K)) : K :=
  blocks.foldl (fun critical b =>
    let block_critical := blockCriticalTimeStep sqrt dmax reference_coordinates displacement b
    if block_critical < critical then block_critical else critical) dmax

end NimbleSM.Assembly
