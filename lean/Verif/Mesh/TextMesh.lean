import Verif.Mesh.Genesis
import Verif.Contact.Command

/-!
# Text meshes: `GenesisMesh::ReadTextFile` (src/nimble_genesis_mesh.cc:315-427) and
`ExodusOutput::InitializeDatabaseTextFile` (src/nimble_exodus_output.cc:398-494)

These are used by builds without the Exodus library.  Numbers are exact.  Input on which the reader would use an uninitialised variable or
an index outside a vector, or on which an extraction of a number fails, is outside the model (`none`).
-/

namespace NimbleSM.Genesis

open NimbleSM.Fields (Str intText)
open NimbleSM.Parse
open NimbleSM.Contact (Stream extractWord)

/-! ## Streams -/

/-- `ss >> n` for an `int`: white space is skipped, then sign and digits are read.  `none`: nothing could be read. -/
def extractInt (s : Stream) : Option (ℤ × Stream) :=
  if s.good then
    let t := takeSign (s.rest.dropWhile isSpace)
    let d := t.2.takeWhile isDigit
    let r := t.2.dropWhile isDigit
    if d.isEmpty then none
    else some ((if t.1 then -(digitsVal d : ℤ) else digitsVal d), ⟨r, !r.isEmpty⟩)
  else none

/-- `ss >> x` for a `double`. -/
def extractDouble (s : Stream) : Option (ℚ × Stream) :=
  if s.good then
    match scanDouble (s.rest.dropWhile isSpace) with
    | none => none
    | some (v, r) => some (v, ⟨r, !r.isEmpty⟩)
  else none

/-- `for (j < n) ss >> v[j]`. -/
def extractInts : ℕ → Stream → Option (List ℤ × Stream)
  | 0, s => some ([], s)
  | n + 1, s => do
    let (v, s) ← extractInt s
    let (vs, s) ← extractInts n s
    some (v :: vs, s)

/-- `getline(mesh_file, str)`: the next of the remaining lines.  The stream is good as long as lines remain; else the string is left alone. -/
def nextLine (str : Str) : List Str → Str × List Str
  | [] => (str, [])
  | l :: ls => (l, ls)

/-! ## Reading -/

/-- The variables of `ReadTextFile`. -/
structure TextState where
  numNodes : Option ℤ := none
  elemIndex : ℕ := 0
  mesh : Mesh ℚ

/-- A line of node coordinates (nimble_genesis_mesh.cc:366-372). -/
def parseNode (line : Str) : Option (ℤ × ℚ × ℚ × ℚ) := do
  let (g, s) ← extractInt ⟨line, true⟩
  let (x, s) ← extractDouble s
  let (y, s) ← extractDouble s
  let (z, _) ← extractDouble s
  some (g - 1, x, y, z)

/-- The loop over nodes (nimble_genesis_mesh.cc:364-376). -/
def readNodes : ℕ → Str → List Str → Option (List (ℤ × ℚ × ℚ × ℚ) × List Str)
  | 0, _, ls => some ([], ls)
  | n + 1, str, ls => do
    let p ← parseNode (nextLine str ls).1
    let (ps, ls') ← readNodes n (nextLine str ls).1 (nextLine str ls).2
    some (p :: ps, ls')

/-- The loop over the elements of a block (nimble_genesis_mesh.cc:390-405), with `elem_global_id_` and `global_elem_index`.  Result: ids
and connectivity of the block. -/
def readElems (npe : ℕ) : ℕ → Str → List Str → List ℤ → ℕ → Option ((List ℤ × List ℤ) × List Str × List ℤ × ℕ)
  | 0, _, ls, gids, k => some (([], []), ls, gids, k)
  | n + 1, str, ls, gids, k => do
    let (g, s) ← extractInt ⟨(nextLine str ls).1, true⟩
    let (c, _) ← extractInts npe s
    if k < gids.length then
      let r ← readElems npe n (nextLine str ls).1 (nextLine str ls).2 (gids.set k (g - 1)) (k + 1)
      some (((g - 1) :: r.1.1, c.map (· - 1) ++ r.1.2), r.2)
    else none

/-- The loop over the members of a node set (nimble_genesis_mesh.cc:417-423). -/
def readMembers : ℕ → Str → List Str → Option (List ℤ × List Str)
  | 0, _, ls => some ([], ls)
  | n + 1, str, ls => do
    let (v, _) ← extractInt ⟨(nextLine str ls).1, true⟩
    let (vs, ls') ← readMembers n (nextLine str ls).1 (nextLine str ls).2
    some ((v - 1) :: vs, ls')

/-- `v.resize(n)`. -/
def resize (n : ℕ) (v : List ℤ) : List ℤ := (v ++ List.replicate n 0).take n

/-- nimble_genesis_mesh.cc:358-376. -/
def readCoordinates (str : Str) (ls : List Str) (st : TextState) : Option (List Str × TextState) := do
  let n ← st.numNodes
  if n < 0 then none
  else
    let (ps, ls) ← readNodes n.toNat str ls
    some (ls, { st with mesh := { st.mesh with
      nodeGid := ps.map (·.1), x := ps.map (·.2.1), y := ps.map (·.2.2.1), z := ps.map (·.2.2.2) } })

/-- nimble_genesis_mesh.cc:377-406. -/
def readBlock (str : Str) (ls : List Str) (st : TextState) : Option (List Str × TextState) := do
  let (str, ls) := nextLine str ls
  let (id, s) ← extractInt ⟨str, true⟩
  let (name, s) := extractWord s
  let (n, s) ← extractInt s
  let (npe, _) ← extractInt s
  if n < 0 ∨ npe < 0 then none
  else
    let r ← readElems npe.toNat n.toNat str ls st.mesh.elemGid st.elemIndex
    some (r.2.1, { st with
      elemIndex := r.2.2.2
      mesh := { st.mesh with
        elemGid := r.2.2.1
        blockIds := st.mesh.blockIds ++ [id]
        blockNames := st.mesh.blockNames.set id name
        nodesPerElem := st.mesh.nodesPerElem.set id npe
        conn := st.mesh.conn.set id r.1.2
        blockElemGids := st.mesh.blockElemGids.set id r.1.1 } })

/-- nimble_genesis_mesh.cc:407-424. -/
def readNodeSet (str : Str) (ls : List Str) (st : TextState) : Option (List Str × TextState) := do
  let (str, ls) := nextLine str ls
  let (id, s) ← extractInt ⟨str, true⟩
  let (name, s) := extractWord s
  let (n, _) ← extractInt s
  if n < 0 then none
  else
    let (vs, ls) ← readMembers n.toNat str ls
    some (ls, { st with mesh := { st.mesh with
      nodeSetIds := st.mesh.nodeSetIds ++ [id]
      nodeSetNames := st.mesh.nodeSetNames.set id name
      nodeSets := st.mesh.nodeSets.set id vs } })

/-- The body of the loop over lines (nimble_genesis_mesh.cc:337-424).  `num_blocks` and `num_node_sets` are not used afterwards. -/
def readStep (str : Str) (ls : List Str) (st : TextState) : Option (List Str × TextState) :=
  let (key, s) := extractWord ⟨str, true⟩
  if key = "number_of_nodes".toList then
    match extractInt s with
    | none => none
    | some (n, _) => some (ls, { st with numNodes := some n })
  else if key = "number_of_elements".toList then
    match extractInt s with
    | none => none
    | some (n, _) => if n < 0 then none else some (ls, { st with mesh := { st.mesh with elemGid := resize n.toNat st.mesh.elemGid } })
  else if key = "number_of_blocks".toList then some (ls, st)
  else if key = "number_of_node_sets".toList then some (ls, st)
  else if key = "node_coordinates".toList then readCoordinates str ls st
  else if key = "element_block".toList then readBlock str ls st
  else if key = "nodeset".toList then readNodeSet str ls st
  else some (ls, st)

/-- `while (mesh_file.good())` (nimble_genesis_mesh.cc:336-425); every turn takes at least one line, so the number of lines bounds the turns. -/
def readLoop : ℕ → List Str → TextState → Option TextState
  | _, [], st => some st
  | 0, _ :: _, _ => none
  | fuel + 1, str :: ls, st => do
    let (ls, st) ← readStep str ls st
    readLoop fuel ls st

/-- `ReadTextFile` (nimble_genesis_mesh.cc:315-427) on a new mesh, for a file that exists and is not called "none". -/
def readTextFile (text : Str) : Option (Mesh ℚ) := do
  let lines := text.splitOn '\n'
  let st ← readLoop lines.length lines { mesh := { dim := 3 } }
  some st.mesh

/-! ## Writing -/

/-- The line of an element (nimble_exodus_output.cc:438-446). -/
def elemLine (npe : ℕ) (gids conn : List ℤ) (e : ℕ) : Option Str := do
  let g ← gids[e]?
  let ns ← (List.range npe).mapM fun j => conn[e * npe + j]?
  some (intText (g + 1) ++ ns.flatMap fun n => ' ' :: intText (n + 1))

/-- The lines of a block (nimble_exodus_output.cc:428-448); `none`: exception. -/
def blockLines (m : Mesh ℚ) (id : ℤ) : Option (List Str) := do
  let name ← m.getBlockName id
  let n ← m.getNumElementsInBlock id
  let npe ← m.getNumNodesPerElement id
  let gids ← m.blockElemGids.get id
  let conn ← m.conn.get id
  let els ← (List.range n.toNat).mapM (elemLine npe.toNat gids conn)
  some ("element_block".toList :: (intText id ++ ' ' :: name ++ ' ' :: intText n ++ ' ' :: intText npe) :: els)

/-- The lines of a node set (nimble_exodus_output.cc:454-462). -/
def nodeSetLines (m : Mesh ℚ) (id : ℤ) : List Str :=
  let set := (m.nodeSets.get id).getD []
  "nodeset".toList :: (intText id ++ ' ' :: (m.nodeSetNames.get id).getD [] ++ ' ' :: intText set.length) :: set.map fun n => intText (n + 1)

/-- The line of a node (nimble_exodus_output.cc:418-423); `fmt` is the text of a `double` written with `setprecision(16)`. -/
def nodeLine (fmt : ℚ → Str) (m : Mesh ℚ) (i : ℕ) : Option Str := do
  let g ← m.nodeGid[i]?
  let x ← m.x[i]?
  let y ← m.y[i]?
  let z ← m.z[i]?
  some (intText (g + 1) ++ ' ' :: fmt x ++ ' ' :: fmt y ++ ' ' :: fmt z)

/-- The lines with names of data (nimble_exodus_output.cc:465-491); `elemNames` is the sorted list without repetitions. -/
def labelLines (globalNames nodeNames elemNames : List Str) : List Str :=
  ("global_data".toList :: intText globalNames.length :: globalNames) ++ ("node_data".toList :: intText nodeNames.length :: nodeNames) ++
    ("element_data".toList :: intText elemNames.length :: elemNames)

/-- `InitializeDatabaseTextFile` (nimble_exodus_output.cc:398-494), with the sizes taken by `Initialize` (63-79) from the same mesh;
`none`: exception or an access outside a vector. -/
def writeTextLines (fmt : ℚ → Str) (m : Mesh ℚ) (globalNames nodeNames elemNames : List Str) : Option (List Str) := do
  let nodes ← (List.range m.x.length).mapM (nodeLine fmt m)
  let blocks ← m.blockIds.mapM (blockLines m)
  some ((["number_of_nodes ".toList ++ intText m.x.length, "number_of_elements ".toList ++ intText m.elemGid.length,
      "number_of_blocks ".toList ++ intText m.blockIds.length, "number_of_node_sets ".toList ++ intText m.nodeSetIds.length,
      "node_coordinates".toList] ++ nodes ++ blocks.flatten ++ m.nodeSetIds.flatMap (nodeSetLines m)) ++
    labelLines globalNames nodeNames elemNames)

/-- Lines are ended by `std::endl`. -/
def textOf (lines : List Str) : Str := lines.flatMap fun l => l ++ ['\n']

end NimbleSM.Genesis
