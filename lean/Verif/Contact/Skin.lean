import Mathlib.Data.List.Sort
import Mathlib.Data.List.Lex
import Mathlib.Order.Basic

/-!
# Skinning of the contact blocks: `ContactManager::SkinBlocks`, `ContactManager::RemoveInternalSkinFaces`
(`src/nimble_contact_manager.cc:787-1041`)

Node ids and element ids are natural numbers (the code uses non-negative `int`s); contact entity ids, which are
computed with shifts of `int`, are 32-bit vectors.
-/

namespace NimbleSM.Contact

/-- What `SkinBlocks` reads of one block of the mesh: `GetNumElementsInBlock`, `GetNumNodesPerElement`,
`GetConnectivity`, `GetElementGlobalIdsInBlock` (nimble_contact_manager.cc:800-803).  Array entries outside the arrays
are not distinguished. -/
structure MeshBlock where
  numElem : ℕ
  numNodePerElem : ℕ
  conn : ℕ → ℕ
  elemGids : ℕ → ℕ

/-- `value` of the map without the count: unsorted node list, exodus element id, face ordinal
(nimble_contact_manager.cc:810-811). -/
structure Face where
  nodes : List ℕ
  elem : ℕ
  ord : ℕ
  deriving DecidableEq

/-- The node ordering of the six faces (nimble_contact_manager.cc:821-907). -/
def faceTable : List (List ℕ) :=
  [[0, 1, 5, 4], [1, 2, 6, 5], [2, 3, 7, 6], [0, 4, 7, 3], [0, 3, 2, 1], [4, 5, 6, 7]]

/-- The six faces of element `i` (nimble_contact_manager.cc:813-911); `conn_index` is `i * num_node_per_elem` and the
element id is switched to 1-based. -/
def elemFaces (b : MeshBlock) (i : ℕ) : List Face :=
  faceTable.zipIdx.map fun p =>
    { nodes := p.1.map fun a => b.conn (i * b.numNodePerElem + a), elem := b.elemGids i + 1, ord := p.2 }

/-- All faces in the order in which they are visited. -/
def allFaces (blocks : List MeshBlock) : List Face :=
  blocks.flatMap fun b => (List.range b.numElem).flatMap (elemFaces b)

/-- `std::sort(key.begin(), key.end())`; the result of sorting `int`s does not depend on the algorithm. -/
def faceKey (f : Face) : List ℕ := f.nodes.insertionSort (· ≤ ·)

/-- An entry of the map: key, count, first face with the key. -/
structure Entry where
  key : List ℕ
  count : ℕ
  face : Face

/-- `face_it = faces.find(key); if (face_it == faces.end()) faces[key] = value; else face_it->second[0] += 1;`
(nimble_contact_manager.cc:829-833).  A `std::map` is the list of its entries in increasing order of the keys
(lexicographic `operator<` of `std::vector<int>`). -/
def addFace (f : Face) : List Entry → List Entry
  | [] => [⟨faceKey f, 1, f⟩]
  | e :: m =>
    if faceKey f = e.key then { e with count := e.count + 1 } :: m
    else if faceKey f < e.key then ⟨faceKey f, 1, f⟩ :: e :: m
    else e :: addFace f m

/-- `(face.second[5] + entity_id_offset) << 5 | face.second[6] << 2 | 0` (nimble_contact_manager.cc:922-926), and the
triangle ordinal set later by `entity_id |= …` (:1116, 1137, 1158, 1179).  `int` is 32 bits wide and shifts drop the
bits that do not fit (formally undefined behaviour before C++20). -/
def entityId (offset elem ord tri : ℕ) : BitVec 32 :=
  (((BitVec.ofNat 32 elem + BitVec.ofNat 32 offset) <<< 5) ||| (BitVec.ofNat 32 ord <<< 2)) ||| BitVec.ofNat 32 tri

/-- The last loop of `SkinBlocks` (nimble_contact_manager.cc:914-932); `none` is `NIMBLE_ABORT`. -/
def collectSkin : List Entry → Option (List Face)
  | [] => some []
  | e :: m =>
    if e.count = 1 then (collectSkin m).map (e.face :: ·)
    else if e.count ≠ 2 then none
    else collectSkin m

/-- `SkinBlocks` (nimble_contact_manager.cc:787-933).  The two output arrays `skin_faces` and `entity_ids` are one list:
element `k` stands for `skin_faces[k] = nodes` and `entity_ids[k] = entityId offset elem ord 0`. -/
def skinBlocks (blocks : List MeshBlock) : Option (List Face) :=
  collectSkin ((allFaces blocks).foldl (fun m f => addFace f m) [])

/-! ## Removal of the faces on partition boundaries -/

/-- The sorted global node ids of a face (nimble_contact_manager.cc:956-958). -/
def globalKey (nodeGid : ℕ → ℕ) (f : Face) : List ℕ := (f.nodes.map nodeGid).insertionSort (· ≤ ·)

/-- `faceList.emplace(fvec, iface)` for all faces, then `faceList.find(key)` (nimble_contact_manager.cc:953-961,
1006-1007): `emplace` keeps the first entry of equal keys. -/
def findFace (nodeGid : ℕ → ℕ) (faces : List Face) (key : List ℕ) : Option ℕ :=
  faces.findIdx? fun f => globalKey nodeGid f = key

/-- `face_global_ids` (nimble_contact_manager.cc:951-960): the buffer sent to the other ranks. -/
def sendBuffer (nodeGid : ℕ → ℕ) (faces : List Face) : List ℕ := faces.flatMap (globalKey nodeGid)

/-- `if (tmpIter != faceList.end()) remove_face_hash[tmpIter->second] = true;` (nimble_contact_manager.cc:1007-1011). -/
def markOne (marks : ℕ → Bool) : Option ℕ → ℕ → Bool
  | some k => Function.update marks k true
  | none => marks

/-- The loop over the received buffer (nimble_contact_manager.cc:1001-1012): four ids at a time; every found face is marked. -/
def markFaces (nodeGid : ℕ → ℕ) (faces : List Face) (buffer : List ℕ) (marks : ℕ → Bool) : ℕ → Bool :=
  (List.range (buffer.length / 4)).foldl (fun marks i =>
    markOne marks (findFace nodeGid faces ((buffer.drop (4 * i)).take 4))) marks

/-- `RemoveInternalSkinFaces` on rank `rank` (nimble_contact_manager.cc:936-1041).  `send r` is the buffer of rank `r`;
the two `MPI_Sendrecv` of shift `s` deliver the buffer of rank `(rank + num_ranks - s) % num_ranks` (messages between
two ranks belong to one shift only and do not overtake each other).  Faces and entity ids are removed alike. -/
def removeInternal (numRanks rank : ℕ) (send : ℕ → List ℕ) (nodeGid : ℕ → ℕ) (faces : List Face) : List Face :=
  let marks := (List.range' 1 (numRanks - 1)).foldl (fun marks shift =>
      markFaces nodeGid faces (send ((rank + numRanks - shift) % numRanks)) marks) (fun _ => false)
  (faces.zipIdx.filter fun p => !marks p.2).map Prod.fst

/-- One rank's part of the mesh: its blocks (all selected ones) and the global ids of its nodes. -/
structure RankMesh where
  blocks : List MeshBlock
  nodeGid : ℕ → ℕ

/-- The buffers of all ranks. -/
def sendOf (ranks : List RankMesh) (skins : List (List Face)) (r : ℕ) : List ℕ :=
  match ranks[r]?, skins[r]? with
  | some m, some f => sendBuffer m.nodeGid f
  | _, _ => []

/-- `SkinBlocks` followed by `RemoveInternalSkinFaces` on all ranks (nimble_contact_manager.cc:221-226); `none` if a
rank aborts. -/
def parallelSkin (ranks : List RankMesh) : Option (List (List Face)) := do
  let skins ← ranks.mapM fun r => skinBlocks r.blocks
  pure ((ranks.zip skins).zipIdx.map fun p => removeInternal ranks.length p.2 (sendOf ranks skins) p.1.1.nodeGid p.1.2)

end NimbleSM.Contact
