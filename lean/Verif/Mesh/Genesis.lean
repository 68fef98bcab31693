import Verif.Fields.Labels
import Mathlib.Algebra.Order.Field.Basic

/-!
# The mesh object: `GenesisMesh` (src/nimble_genesis_mesh.h, .cc)

`int` values are integers of any size.  Vector accesses with `operator[]` outside a vector are not part of
the definitions here (they are in the modules that read or write files).
-/

namespace NimbleSM.Genesis

open NimbleSM.Fields (Str)

/-- `std::map<int, T>`: the entries in the order of their keys. -/
abbrev IMap (T : Type) := List (ℤ × T)

/-- `m.at(k)`; `none`: `std::out_of_range`. -/
def IMap.get {T : Type} (m : IMap T) (k : ℤ) : Option T := (m.find? fun p => p.1 == k).map Prod.snd

/-- `m[k] = v`. -/
def IMap.set {T : Type} (k : ℤ) (v : T) : IMap T → IMap T
  | [] => [(k, v)]
  | (k', v') :: m => if k < k' then (k, v) :: (k', v') :: m else if k = k' then (k, v) :: m else (k', v') :: IMap.set k v m

/-- The members of `GenesisMesh` (nimble_genesis_mesh.h:332-355); `K` are the coordinates. -/
structure Mesh (K : Type) where
  dim : ℤ := -1
  nodeGid : List ℤ := []
  x : List K := []
  y : List K := []
  z : List K := []
  elemGid : List ℤ := []
  blockIds : List ℤ := []
  allBlockIds : List ℤ := []
  blockNames : IMap Str := []
  allBlockNames : IMap Str := []
  blockElemGids : IMap (List ℤ) := []
  nodesPerElem : IMap ℤ := []
  conn : IMap (List ℤ) := []
  nodeSetIds : List ℤ := []
  nodeSetNames : IMap Str := []
  nodeSets : IMap (List ℤ) := []
  nodeSetFactors : IMap (List K) := []
  sideSetIds : List ℤ := []
  sideSetNames : IMap Str := []
  sideSets : IMap (List ℤ) := []
  sideSetFactors : IMap (List K) := []
  deriving DecidableEq

variable {K : Type}

/-- `HasBlock` (nimble_genesis_mesh.cc:507-514): the loop over `block_names_`. -/
def Mesh.hasBlock (m : Mesh K) (name : Str) : Bool := m.blockNames.any fun e => e.2 == name

/-- `GetBlockId` (nimble_genesis_mesh.cc:516-523): the first entry with that name; `none`: `std::invalid_argument`. -/
def Mesh.getBlockId (m : Mesh K) (name : Str) : Option ℤ := (m.blockNames.find? fun e => e.2 == name).map Prod.fst

/-- The loop of `BlockNamesToOnProcessorBlockIds` (nimble_genesis_mesh.cc:529-533), appending to `ids`; `none`: exception. -/
def Mesh.blockNamesLoop (m : Mesh K) : List Str → List ℤ → Option (List ℤ)
  | [], ids => some ids
  | name :: names, ids =>
    if m.hasBlock name then
      match m.getBlockId name with
      | none => none
      | some id => m.blockNamesLoop names (ids ++ [id])
    else m.blockNamesLoop names ids

/-- `BlockNamesToOnProcessorBlockIds` (nimble_genesis_mesh.cc:525-534): the list is cleared first. -/
def Mesh.blockNamesToOnProcessorBlockIds (m : Mesh K) (names : List Str) : Option (List ℤ) := m.blockNamesLoop names []

/-- `GetNumElementsInBlock(block_id)` (nimble_genesis_mesh.cc:459-467); `none`: `std::out_of_range` (or division by zero). -/
def Mesh.getNumElementsInBlock (m : Mesh K) (b : ℤ) : Option ℤ := do
  let c ← m.conn.get b
  let n ← m.nodesPerElem.get b
  if c.length > 0 then (if n = 0 then none else some (Int.tdiv c.length n)) else some 0

/-- `GetNumNodesPerElement(block_id)` (nimble_genesis_mesh.h:163-167). -/
def Mesh.getNumNodesPerElement (m : Mesh K) (b : ℤ) : Option ℤ := m.nodesPerElem.get b

/-- `GetBlockName` (nimble_genesis_mesh.h:178-182): looks in `all_block_names_`. -/
def Mesh.getBlockName (m : Mesh K) (b : ℤ) : Option Str := m.allBlockNames.get b

/-- `GetElementType` (nimble_genesis_mesh.cc:479-504); `none`: exception. -/
def Mesh.getElementType (m : Mesh K) (b : ℤ) : Option Str := do
  let n ← m.nodesPerElem.get b
  if m.dim = 2 then
    if n = 3 then some "TRIANGLE:".toList
    else if n = 4 then some "QUAD".toList
    else none
  else if m.dim = 3 then
    if n = 1 then some "SPHERE".toList
    else if n = 3 then some "TRIANGLE".toList
    else if n = 4 then some "TETRA".toList
    else if n = 8 then some "HEX".toList
    else none
  else none

/-- `GetMaxNodeGlobalId` (nimble_genesis_mesh.h:106-113). -/
def Mesh.getMaxNodeGlobalId (m : Mesh K) : ℤ := m.nodeGid.foldl (fun mx id => if id > mx then id else mx) (-1)

/-- `Initialize` (nimble_genesis_mesh.cc:430-457), called on a new mesh. -/
def Mesh.ofData (nodeGid : List ℤ) (x y z : List K) (elemGid blockIds : List ℤ) (blockNames : IMap Str)
    (blockElemGids : IMap (List ℤ)) (nodesPerElem : IMap ℤ) (conn : IMap (List ℤ)) : Mesh K :=
  { dim := 3
    nodeGid := nodeGid
    x := x
    y := y
    z := z
    elemGid := elemGid
    blockIds := blockIds
    allBlockIds := blockIds
    blockNames := blockNames
    allBlockNames := blockNames
    blockElemGids := blockElemGids
    nodesPerElem := nodesPerElem
    conn := conn }

section Box
variable [Field K] [LinearOrder K]

/-- One coordinate in the loop of `BoundingBox` (nimble_genesis_mesh.cc:549-559): `(min, max)`. -/
def boxLoop : List K → K × K → K × K
  | [], b => b
  | x :: xs, b => boxLoop xs (if x < b.1 then x else b.1, if x > b.2 then x else b.2)

/-- `BoundingBox` (nimble_genesis_mesh.cc:536-560): the three coordinates are independent of each other; `big` is
`std::numeric_limits<double>::max()`.  `node_y_` and `node_z_` are as long as `node_x_` in every mesh that is read in 3D. -/
def Mesh.boundingBox (big : K) (m : Mesh K) : (K × K) × (K × K) × (K × K) :=
  let start := (big, -1 * big)
  (boxLoop m.x start, boxLoop m.y start, boxLoop m.z start)

/-- `BoundingBoxCenter` (nimble_genesis_mesh.cc:562-572). -/
def Mesh.boundingBoxCenter (big : K) (m : Mesh K) : K × K × K :=
  let b := m.boundingBox big
  ((b.1.2 + b.1.1) / 2, (b.2.1.2 + b.2.1.1) / 2, (b.2.2.2 + b.2.2.1) / 2)

end Box

end NimbleSM.Genesis
