import Verif.Mesh.Genesis

/-!
# Mesh files: `GenesisMesh::ReadFile` (src/nimble_genesis_mesh.cc:62-313) and the mesh part of
`ExodusOutput::InitializeDatabase` (src/nimble_exodus_output.cc:82-232)

The Exodus library is not modelled: `File` is what its query functions return, and every call succeeds.
-/

namespace NimbleSM.Genesis

open NimbleSM.Fields (Str intText)

/-- An element block as stored (`ex_get_block`, `ex_get_name`, `ex_get_conn`): node numbers start at one. -/
structure FileBlock where
  id : ℤ
  name : Str
  numElem : ℕ
  nodesPerElem : ℕ
  conn : List ℤ
  deriving DecidableEq

/-- A node set or side set as stored (`ex_get_set_param`, `ex_get_set`, `ex_get_set_dist_fact`): entries start at one. -/
structure FileSet (K : Type) where
  id : ℤ
  name : Str
  entries : List ℤ
  factors : List K
  deriving DecidableEq

/-- The content of a file.  `nodeMaps`, `elemMaps`: auxiliary maps with their names (`ex_get_map_param`). -/
structure File (K : Type) where
  dim : ℤ
  x : List K
  y : List K
  z : List K
  nodeIdMap : List ℤ
  elemIdMap : List ℤ
  nodeMaps : List (Str × List ℤ)
  elemMaps : List (Str × List ℤ)
  nodeSets : List (FileSet K)
  sideSets : List (FileSet K)
  blocks : List FileBlock
  deriving DecidableEq

variable {K : Type}

/-- The loops `v[i] -= 1` (nimble_genesis_mesh.cc:97-99, 105-107, 133-135, 146-148, 184, 302-304). -/
def zeroBased (v : List ℤ) : List ℤ := v.map (· - 1)

/-- nimble_genesis_mesh.cc:91-150, for nodes or elements: the id map, replaced by the auxiliary map of the right name;
`none`: `NIMBLE_ABORT`.  More than one auxiliary map is refused before (115-119). -/
def globalIds (idMap : List ℤ) (maps : List (Str × List ℤ)) : Option (List ℤ) :=
  match maps with
  | [] => some (zeroBased idMap)
  | (name, ids) :: _ => if name ≠ "original_global_id_map".toList then none else some (zeroBased ids)

/-- The four members that describe sets of one kind. -/
structure Sets (K : Type) where
  names : IMap Str := []
  sets : IMap (List ℤ) := []
  factors : IMap (List K) := []

/-- The body of the loops nimble_genesis_mesh.cc:158-192 (`defaultName = "nodelist_"`) and 200-234 (`"sideset_"`). -/
def readSet (defaultName : Str) (s : Sets K) (f : FileSet K) : Sets K :=
  let name := if f.name.length = 0 then defaultName ++ intText f.id else f.name
  { names := s.names.set f.id name
    sets := s.sets.set f.id
      (if f.entries.length > 0 ∧ f.factors.length = f.entries.length then zeroBased f.entries else [])
    factors := s.factors.set f.id (if f.entries.length > 0 then f.factors else []) }

/-- The loops nimble_genesis_mesh.cc:158-192, 200-234. -/
def readSets (defaultName : Str) (fs : List (FileSet K)) : Sets K := fs.foldl (readSet defaultName) {}

/-- nimble_genesis_mesh.cc:262-272. -/
def blockName (b : FileBlock) : Str := if b.name.length = 0 then "block_".toList ++ intText b.id else b.name

/-- The loop over all blocks (nimble_genesis_mesh.cc:242-275), starting from the members so far. -/
def scanBlock (m : Mesh K) (b : FileBlock) : Mesh K :=
  { m with
    blockIds := if b.numElem > 0 then m.blockIds ++ [b.id] else m.blockIds
    allBlockIds := m.allBlockIds ++ [b.id]
    blockNames := if b.numElem > 0 then m.blockNames.set b.id (blockName b) else m.blockNames
    allBlockNames := m.allBlockNames.set b.id (blockName b) }

/-- `ex_get_block` and the like by block id: the block of the file with that id. -/
def File.block (f : File K) (id : ℤ) : Option FileBlock := f.blocks.find? fun b => b.id == id

/-- The loop over the blocks with elements (nimble_genesis_mesh.cc:281-307), with `elem_local_index`.  `none`: an access
outside `elem_global_id_`, or a block the library does not know.  `ex_get_conn` fills the vector. -/
def loadBlocks (f : File K) : List ℤ → ℕ → Mesh K → Option (Mesh K)
  | [], _, m => some m
  | id :: ids, elemLocalIndex, m =>
    match f.block id with
    | none => none
    | some b =>
      if elemLocalIndex + b.numElem ≤ m.elemGid.length then
        loadBlocks f ids (elemLocalIndex + b.numElem)
          { m with
            nodesPerElem := m.nodesPerElem.set id b.nodesPerElem
            blockElemGids := m.blockElemGids.set id ((m.elemGid.drop elemLocalIndex).take b.numElem)
            conn := m.conn.set id (zeroBased b.conn) }
      else none

/-- `ReadFile` (nimble_genesis_mesh.cc:62-313) on a new mesh; `none`: the program aborts.  For `dim = 2` the z coordinates are not
read (node_z_ stays empty). -/
def readFile (f : File K) : Option (Mesh K) :=
  if f.nodeMaps.length > 1 ∨ f.elemMaps.length > 1 then none
  else
    match globalIds f.nodeIdMap f.nodeMaps, globalIds f.elemIdMap f.elemMaps with
    | some nodeGid, some elemGid =>
      let ns := readSets "nodelist_".toList f.nodeSets
      let ss := readSets "sideset_".toList f.sideSets
      let m : Mesh K :=
        { dim := f.dim
          nodeGid := nodeGid
          x := f.x
          y := f.y
          z := if f.dim = 3 then f.z else []
          elemGid := elemGid
          nodeSetIds := f.nodeSets.map (·.id)
          nodeSetNames := ns.names
          nodeSets := ns.sets
          nodeSetFactors := ns.factors
          sideSetIds := f.sideSets.map (·.id)
          sideSetNames := ss.names
          sideSets := ss.sets
          sideSetFactors := ss.factors }
      let m := f.blocks.foldl scanBlock m
      loadBlocks f m.blockIds 0 m
    | _, _ => none

/-! ## Writing -/

/-- The loops `… + 1` (nimble_exodus_output.cc:161, 171, 180, 213). -/
def oneBased (v : List ℤ) : List ℤ := v.map (· + 1)

/-- One element block in the output (nimble_exodus_output.cc:123-165): parameters, name, connectivity.  `none`: exception.
A block without elements on this processor has no elements and no nodes per element.  The element type is not part of `File`. -/
def writeBlock (m : Mesh K) (id : ℤ) : Option FileBlock := do
  let name ← m.getBlockName id
  if id ∈ m.blockIds then
    let n ← m.getNumElementsInBlock id
    let npe ← m.getNumNodesPerElement id
    let _ ← m.getElementType id
    let c ← m.conn.get id
    if n > 0 then
      if (n * npe).toNat ≤ c.length then
        some ⟨id, name, n.toNat, npe.toNat, oneBased (c.take (n * npe).toNat)⟩
      else none
    else some ⟨id, name, n.toNat, npe.toNat, []⟩
  else some ⟨id, name, 0, 0, []⟩

/-- One node set in the output (nimble_exodus_output.cc:182-231): `ex_put_concat_sets` has no names.  `node_sets[id]` on a copy of
the map: empty if there is none. -/
def writeNodeSet (m : Mesh K) (id : ℤ) : FileSet K :=
  ⟨id, [], oneBased ((m.nodeSets.get id).getD []), (m.nodeSetFactors.get id).getD []⟩

/-- The mesh part of `InitializeDatabase` (nimble_exodus_output.cc:100-232); `none`: exception.  Side sets are not written
(`num_side_sets_` is never set from the mesh).  Titles, QA records and variable names are not part of `File`. -/
def writeFile (m : Mesh K) : Option (File K) := do
  let blocks ← m.allBlockIds.mapM (writeBlock m)
  some
    { dim := m.dim
      x := m.x
      y := m.y
      z := m.z
      nodeIdMap := oneBased m.nodeGid
      elemIdMap := oneBased m.elemGid
      nodeMaps := []
      elemMaps := []
      nodeSets := m.nodeSetIds.map (writeNodeSet m)
      sideSets := []
      blocks := blocks }

end NimbleSM.Genesis
