import Verif.Mesh.TextMeshLemmas

/-!
# Text meshes (C90)
-/

namespace NimbleSM.Genesis

open NimbleSM.Fields (Str intText)
open NimbleSM.Parse
open NimbleSM.Contact (Stream extractWord Delivers extractWord_cons)
open NimbleSM.Uq (split)

/-- The words that begin a section of a text mesh. -/
def Keys : List Str := ["number_of_nodes".toList, "number_of_elements".toList, "number_of_blocks".toList, "number_of_node_sets".toList,
  "node_coordinates".toList, "element_block".toList, "nodeset".toList]

/-- A line that begins no section. -/
def Plain (line : Str) : Prop := '\n' ∉ line ∧ ∀ w ∈ (split line).head?, w ∉ Keys

/-- A block in memory: its name, nodes per element, ids and nodes of its elements. -/
def HasBlockData (m : Mesh ℚ) (id : ℤ) (name : Str) (npe : ℕ) (gids conn : List ℤ) : Prop :=
  m.getBlockName id = some name ∧ m.nodesPerElem.get id = some (npe : ℤ) ∧ m.blockElemGids.get id = some gids ∧ m.conn.get id = some conn ∧
    conn.length = gids.length * npe

/-- A mesh in memory that the text format can hold: three dimensions, consistent tables, names without white space. -/
structure TextOk (m : Mesh ℚ) : Prop where
  dim : m.dim = 3
  gids : m.nodeGid.length = m.x.length
  y : m.y.length = m.x.length
  z : m.z.length = m.x.length
  ids : m.blockIds.Nodup
  blocks : ∀ id ∈ m.blockIds, ∃ name npe gids conn, HasBlockData m id name npe gids conn ∧ 0 < npe ∧ GoodWord name
  elems : m.elemGid = m.blockIds.flatMap fun id => (m.blockElemGids.get id).getD []
  setIds : m.nodeSetIds.Nodup
  sets : ∀ id ∈ m.nodeSetIds, ∃ name set, m.nodeSetNames.get id = some name ∧ GoodWord name ∧ m.nodeSets.get id = some set

/-- `fmt` writes the coordinates of `m` as decimal literals, and `rd c` is the value of the literal for `c`. -/
def Formats (fmt : ℚ → Str) (rd : ℚ → ℚ) : Prop := ∀ c, ∃ l : Lit, l.Valid ∧ fmt c = l.text ∧ l.value = rd c

/-- The mesh `m'` is `m`, with coordinates as written. -/
structure TextEq (rd : ℚ → ℚ) (m m' : Mesh ℚ) : Prop where
  dim : m'.dim = m.dim
  nodeGid : m'.nodeGid = m.nodeGid
  x : m'.x = m.x.map rd
  y : m'.y = m.y.map rd
  z : m'.z = m.z.map rd
  elemGid : m'.elemGid = m.elemGid
  blockIds : m'.blockIds = m.blockIds
  blockNames : ∀ id ∈ m.blockIds, m'.blockNames.get id = m.getBlockName id
  npe : ∀ id ∈ m.blockIds, m'.nodesPerElem.get id = m.nodesPerElem.get id
  gids : ∀ id ∈ m.blockIds, m'.blockElemGids.get id = m.blockElemGids.get id
  conn : ∀ id ∈ m.blockIds, m'.conn.get id = m.conn.get id
  only : ∀ id, id ∉ m.blockIds → m'.blockNames.get id = none ∧ m'.conn.get id = none
  setIds : m'.nodeSetIds = m.nodeSetIds
  setNames : ∀ id ∈ m.nodeSetIds, m'.nodeSetNames.get id = m.nodeSetNames.get id
  sets : ∀ id ∈ m.nodeSetIds, m'.nodeSets.get id = m.nodeSets.get id

/-! ## The loop -/

/-- From these lines and this state the loop ends with `R`. -/
def Reads (ls : List Str) (st : TextState) (R : TextState) : Prop := ∀ fuel, ls.length ≤ fuel → readLoop fuel ls st = some R

theorem Reads.nil (st : TextState) : Reads [] st st := fun fuel _ => by cases fuel <;> rfl

theorem Reads.step {str : Str} {ls ls' : List Str} {st st' R : TextState} (h : readStep str ls st = some (ls', st'))
    (hl : ls'.length ≤ ls.length) (hr : Reads ls' st' R) : Reads (str :: ls) st R := by
  intro fuel hf
  cases fuel with
  | zero => simp at hf
  | succ fuel =>
    rw [List.length_cons] at hf
    rw [readLoop, h]
    exact hr fuel (by omega)

theorem extractWord_plain {line : Str} (h : Plain line) : (extractWord ⟨line, true⟩).1 ∉ Keys := by
  cases hs : split line with
  | nil =>
    rw [(Contact.extractWord_nil (delivers_line hs)).1]
    decide
  | cons w ws =>
    rw [(extractWord_cons (delivers_line hs)).2.1]
    exact h.2 w (by rw [hs]; rfl)

theorem Reads.plain {str : Str} {ls : List Str} {st R : TextState} (h : Plain str) (hr : Reads ls st R) : Reads (str :: ls) st R := by
  refine Reads.step (ls' := ls) (st' := st) ?_ le_rfl hr
  have hk := extractWord_plain h
  simp only [Keys, List.mem_cons, List.not_mem_nil, or_false, not_or] at hk
  obtain ⟨k1, k2, k3, k4, k5, k6, k7⟩ := hk
  unfold readStep
  simp only [if_neg k1, if_neg k2, if_neg k3, if_neg k4, if_neg k5, if_neg k6, if_neg k7]

theorem Reads.plains {more : List Str} (h : ∀ l ∈ more, Plain l) (st : TextState) : Reads more st st := by
  induction more with
  | nil => exact Reads.nil st
  | cons l more ih => exact Reads.plain (h l (by simp)) (ih fun x hx => h x (by simp [hx]))

/-- A line with a key word and a number. -/
theorem key_number (key : String) (hk : GoodWord key.toList) (n : ℤ) :
    ∃ s', extractInt (extractWord ⟨key.toList ++ ' ' :: intText n, true⟩).2 = some (n, s') ∧
      (extractWord ⟨key.toList ++ ' ' :: intText n, true⟩).1 = key.toList := by
  have hd := delivers_line ((split_space hk (rest := intText n)).trans (by rw [split_word (intText_good n)]))
  obtain ⟨-, h1, h2, -⟩ := extractWord_cons hd
  obtain ⟨s', h3, -⟩ := extractInt_spec h2
  exact ⟨s', h3, h1⟩

theorem key_alone (key : String) (hk : GoodWord key.toList) : (extractWord ⟨key.toList, true⟩).1 = key.toList :=
  (extractWord_cons (delivers_line (split_word hk))).2.1

/-- The first five lines. -/
theorem Reads.header (a b c d : ℕ) {ls ls' : List Str} {st st' R : TextState} (hst : st.mesh.elemGid = [])
    (h : readCoordinates "node_coordinates".toList ls
      { st with numNodes := some (a : ℤ), mesh := { st.mesh with elemGid := List.replicate b 0 } } = some (ls', st'))
    (hl : ls'.length ≤ ls.length) (hr : Reads ls' st' R) :
    Reads (["number_of_nodes ".toList ++ intText a, "number_of_elements ".toList ++ intText b,
      "number_of_blocks ".toList ++ intText c, "number_of_node_sets ".toList ++ intText d, "node_coordinates".toList] ++ ls) st R := by
  have e1 : "number_of_nodes ".toList ++ intText a = "number_of_nodes".toList ++ ' ' :: intText a := by
    rw [show "number_of_nodes ".toList = "number_of_nodes".toList ++ [' '] by decide, List.append_assoc]; rfl
  have e2 : "number_of_elements ".toList ++ intText b = "number_of_elements".toList ++ ' ' :: intText b := by
    rw [show "number_of_elements ".toList = "number_of_elements".toList ++ [' '] by decide, List.append_assoc]; rfl
  have e3 : "number_of_blocks ".toList ++ intText c = "number_of_blocks".toList ++ ' ' :: intText c := by
    rw [show "number_of_blocks ".toList = "number_of_blocks".toList ++ [' '] by decide, List.append_assoc]; rfl
  have e4 : "number_of_node_sets ".toList ++ intText d = "number_of_node_sets".toList ++ ' ' :: intText d := by
    rw [show "number_of_node_sets ".toList = "number_of_node_sets".toList ++ [' '] by decide, List.append_assoc]; rfl
  rw [e1, e2, e3, e4]
  obtain ⟨s1, a1, a2⟩ := key_number "number_of_nodes" (by unfold GoodWord; decide) a
  obtain ⟨s2, b1, b2⟩ := key_number "number_of_elements" (by unfold GoodWord; decide) b
  obtain ⟨s3, c1, c2⟩ := key_number "number_of_blocks" (by unfold GoodWord; decide) c
  obtain ⟨s4, d1, d2⟩ := key_number "number_of_node_sets" (by unfold GoodWord; decide) d
  have f2 := key_alone "node_coordinates" (by unfold GoodWord; decide)
  refine Reads.step (st' := { st with numNodes := some (a : ℤ) }) (ls' := _) ?_ le_rfl ?_
  · unfold readStep
    simp only [a2, a1, if_true]
  refine Reads.step (st' := { st with numNodes := some (a : ℤ), mesh := { st.mesh with elemGid := List.replicate b 0 } }) (ls' := _) ?_ le_rfl ?_
  · unfold readStep
    simp only [b2, b1]
    rw [if_neg (by decide), if_pos trivial, if_neg (by omega), hst]
    simp [resize]
  refine Reads.step (st' := { st with numNodes := some (a : ℤ), mesh := { st.mesh with elemGid := List.replicate b 0 } }) (ls' := _) ?_ le_rfl ?_
  · unfold readStep
    simp only [c2]
    rw [if_neg (by decide), if_neg (by decide), if_pos trivial]
  refine Reads.step (st' := { st with numNodes := some (a : ℤ), mesh := { st.mesh with elemGid := List.replicate b 0 } }) (ls' := _) ?_ le_rfl ?_
  · unfold readStep
    simp only [d2]
    rw [if_neg (by decide), if_neg (by decide), if_neg (by decide), if_pos trivial]
  refine Reads.step (ls' := ls') (st' := st') ?_ hl hr
  unfold readStep
  simp only [f2]
  rw [if_neg (by decide), if_neg (by decide), if_neg (by decide), if_neg (by decide), if_pos trivial]
  exact h

/-! ## Nodes -/

theorem lit_good (l : Lit) (hl : l.Valid) : GoodWord l.text := by
  refine ⟨?_, Contact.lit_no_space l⟩
  intro h
  have := scanDouble_literal l hl [] ⟨by simp, fun _ => ⟨rfl, by simp⟩⟩
  rw [h] at this
  simp [scanDouble, takeSign, takeFraction] at this

theorem parseNode_line {fmt : ℚ → Str} {rd : ℚ → ℚ} (hf : Formats fmt rd) (g : ℤ) (x y z : ℚ) :
    parseNode (intText (g + 1) ++ ' ' :: fmt x ++ ' ' :: fmt y ++ ' ' :: fmt z) = some (g, rd x, rd y, rd z) := by
  obtain ⟨lx, vx, tx, rx⟩ := hf x
  obtain ⟨ly, vy, ty, ry⟩ := hf y
  obtain ⟨lz, vz, tz, rz⟩ := hf z
  have hs : split (intText (g + 1) ++ ' ' :: fmt x ++ ' ' :: fmt y ++ ' ' :: fmt z) =
      [intText (g + 1), lx.text, ly.text, lz.text] := by
    have e : intText (g + 1) ++ ' ' :: fmt x ++ ' ' :: fmt y ++ ' ' :: fmt z =
        intText (g + 1) ++ ' ' :: (lx.text ++ ' ' :: (ly.text ++ ' ' :: lz.text)) := by simp [tx, ty, tz]
    rw [e, split_space (intText_good _), split_space (lit_good lx vx), split_space (lit_good ly vy), split_word (lit_good lz vz)]
  obtain ⟨s1, a1, a2⟩ := extractInt_spec (delivers_line hs)
  obtain ⟨s2, b1, b2⟩ := extractDouble_spec vx a2
  obtain ⟨s3, c1, c2⟩ := extractDouble_spec vy b2
  obtain ⟨s4, d1, d2⟩ := extractDouble_spec vz c2
  unfold parseNode
  simp only [a1, b1, c1, d1, Option.bind_eq_bind, Option.bind_some, rx, ry, rz]
  simp

/-! ## A block -/

/-- The lines of a block. -/
def blockText (id : ℤ) (name : Str) (npe : ℕ) (gids conn : List ℤ) : List Str :=
  "element_block".toList :: (intText id ++ ' ' :: name ++ ' ' :: intText (gids.length : ℤ) ++ ' ' :: intText (npe : ℤ)) ::
    (elements npe gids conn).map elementText

theorem blockLines_eq {m : Mesh ℚ} {id : ℤ} {name : Str} {npe : ℕ} {gids conn : List ℤ} (h : HasBlockData m id name npe gids conn) (hn : 0 < npe) :
    blockLines m id = some (blockText id name npe gids conn) := by
  obtain ⟨h1, h2, h3, h4, h5⟩ := h
  have hnum : m.getNumElementsInBlock id = some (gids.length : ℤ) := by
    unfold Mesh.getNumElementsInBlock
    simp only [h4, h2, Option.bind_eq_bind, Option.bind_some, h5]
    by_cases h0 : gids.length = 0
    · simp [h0]
    · rw [if_pos (Nat.mul_pos (Nat.pos_of_ne_zero h0) hn), if_neg (by omega)]
      congr 1
      push_cast
      exact Int.mul_tdiv_cancel _ (by omega)
  unfold blockLines Mesh.getNumNodesPerElement
  simp only [h1, hnum, h2, h3, h4, Option.bind_eq_bind, Option.bind_some, Int.toNat_natCast, elemLines_eq h5]
  rfl

/-- The state after a block. -/
def TextState.addBlock (st : TextState) (id : ℤ) (name : Str) (npe : ℕ) (gids conn elemGid : List ℤ) : TextState :=
  { st with
    elemIndex := st.elemIndex + gids.length
    mesh := { st.mesh with
      elemGid := elemGid
      blockIds := st.mesh.blockIds ++ [id]
      blockNames := st.mesh.blockNames.set id name
      nodesPerElem := st.mesh.nodesPerElem.set id (npe : ℤ)
      conn := st.mesh.conn.set id conn
      blockElemGids := st.mesh.blockElemGids.set id gids } }

theorem Reads.block {id : ℤ} {name : Str} {npe : ℕ} {gids conn : List ℤ} (hlen : conn.length = gids.length * npe) (hname : GoodWord name)
    {ls : List Str} {st R : TextState} (done : List ℤ) (r : ℕ) (hidx : st.elemIndex = done.length)
    (hg : st.mesh.elemGid = done ++ List.replicate (gids.length + r) 0)
    (hr : Reads ls (st.addBlock id name npe gids conn (done ++ gids ++ List.replicate r 0)) R) :
    Reads (blockText id name npe gids conn ++ ls) st R := by
  have hk := key_alone "element_block" (by unfold GoodWord; decide)
  have hs : split (intText id ++ ' ' :: name ++ ' ' :: intText (gids.length : ℤ) ++ ' ' :: intText (npe : ℤ)) =
      [intText id, name, intText (gids.length : ℤ), intText (npe : ℤ)] := by
    have e : intText id ++ ' ' :: name ++ ' ' :: intText (gids.length : ℤ) ++ ' ' :: intText (npe : ℤ) =
        intText id ++ ' ' :: (name ++ ' ' :: (intText (gids.length : ℤ) ++ ' ' :: intText (npe : ℤ))) := by simp
    rw [e, split_space (intText_good _), split_space hname, split_space (intText_good _), split_word (intText_good _)]
  obtain ⟨s1, a1, a2⟩ := extractInt_spec (delivers_line hs)
  obtain ⟨-, b1, b2, -⟩ := extractWord_cons a2
  obtain ⟨s3, c1, c2⟩ := extractInt_spec b2
  obtain ⟨s4, d1, d2⟩ := extractInt_spec c2
  have hel := readElems_spec npe (elements npe gids conn) (elements_npe hlen) ls
    (intText id ++ ' ' :: name ++ ' ' :: intText (gids.length : ℤ) ++ ' ' :: intText (npe : ℤ)) done r
  rw [elements_length, elements_ids, elements_conn npe gids conn hlen] at hel
  have e : blockText id name npe gids conn ++ ls = "element_block".toList ::
      ((intText id ++ ' ' :: name ++ ' ' :: intText (gids.length : ℤ) ++ ' ' :: intText (npe : ℤ)) ::
        ((elements npe gids conn).map elementText ++ ls)) := rfl
  rw [e]
  refine Reads.step (ls' := ls) ?_ (by simp only [List.length_cons, List.length_append, List.length_map]; omega) hr
  · unfold readStep
    simp only [hk]
    rw [if_neg (by decide), if_neg (by decide), if_neg (by decide), if_neg (by decide), if_neg (by decide), if_pos trivial]
    unfold readBlock
    simp only [nextLine, a1, b1, c1, d1, Option.bind_eq_bind, Option.bind_some]
    rw [if_neg (by omega), Int.toNat_natCast, Int.toNat_natCast, hg, hidx, hel]
    simp only [Option.bind_some, TextState.addBlock, hidx]

/-! ## A node set -/

/-- The lines of a node set. -/
def setText (id : ℤ) (name : Str) (set : List ℤ) : List Str :=
  "nodeset".toList :: (intText id ++ ' ' :: name ++ ' ' :: intText (set.length : ℤ)) :: set.map fun n => intText (n + 1)

def TextState.addSet (st : TextState) (id : ℤ) (name : Str) (set : List ℤ) : TextState :=
  { st with mesh := { st.mesh with
      nodeSetIds := st.mesh.nodeSetIds ++ [id]
      nodeSetNames := st.mesh.nodeSetNames.set id name
      nodeSets := st.mesh.nodeSets.set id set } }

theorem Reads.nodeSet {id : ℤ} {name : Str} {set : List ℤ} (hname : GoodWord name) {ls : List Str} {st R : TextState}
    (hr : Reads ls (st.addSet id name set) R) : Reads (setText id name set ++ ls) st R := by
  have hk := key_alone "nodeset" (by unfold GoodWord; decide)
  have hs : split (intText id ++ ' ' :: name ++ ' ' :: intText (set.length : ℤ)) = [intText id, name, intText (set.length : ℤ)] := by
    have e : intText id ++ ' ' :: name ++ ' ' :: intText (set.length : ℤ) = intText id ++ ' ' :: (name ++ ' ' :: intText (set.length : ℤ)) := by simp
    rw [e, split_space (intText_good _), split_space hname, split_word (intText_good _)]
  obtain ⟨s1, a1, a2⟩ := extractInt_spec (delivers_line hs)
  obtain ⟨-, b1, b2, -⟩ := extractWord_cons a2
  obtain ⟨s3, c1, c2⟩ := extractInt_spec b2
  have e : setText id name set ++ ls = "nodeset".toList ::
      ((intText id ++ ' ' :: name ++ ' ' :: intText (set.length : ℤ)) :: ((set.map fun n => intText (n + 1)) ++ ls)) := rfl
  rw [e]
  refine Reads.step (ls' := ls) ?_ (by simp only [List.length_cons, List.length_append, List.length_map]; omega) hr
  · unfold readStep
    simp only [hk]
    rw [if_neg (by decide), if_neg (by decide), if_neg (by decide), if_neg (by decide), if_neg (by decide), if_neg (by decide), if_pos trivial]
    unfold readNodeSet
    simp only [nextLine, a1, b1, c1, Option.bind_eq_bind, Option.bind_some]
    rw [if_neg (by omega), Int.toNat_natCast, readMembers_spec]
    simp only [Option.bind_some, TextState.addSet]

/-! ## All blocks, all node sets -/

/-- What the blocks leave: `ids` are done, everything else as in `st`. -/
structure BlocksDone (m : Mesh ℚ) (ids : List ℤ) (st st' : TextState) : Prop where
  rest : st'.mesh = { st.mesh with
    elemGid := st'.mesh.elemGid
    blockIds := st'.mesh.blockIds
    blockNames := st'.mesh.blockNames
    nodesPerElem := st'.mesh.nodesPerElem
    conn := st'.mesh.conn
    blockElemGids := st'.mesh.blockElemGids }
  blockIds : st'.mesh.blockIds = st.mesh.blockIds ++ ids
  data : ∀ id ∈ ids, st'.mesh.blockNames.get id = m.getBlockName id ∧ st'.mesh.nodesPerElem.get id = m.nodesPerElem.get id ∧
    st'.mesh.conn.get id = m.conn.get id ∧ st'.mesh.blockElemGids.get id = m.blockElemGids.get id
  other : ∀ id, id ∉ ids → st'.mesh.blockNames.get id = st.mesh.blockNames.get id ∧
    st'.mesh.nodesPerElem.get id = st.mesh.nodesPerElem.get id ∧ st'.mesh.conn.get id = st.mesh.conn.get id ∧
    st'.mesh.blockElemGids.get id = st.mesh.blockElemGids.get id

theorem Reads.blocks {m : Mesh ℚ} (ids : List ℤ) (hn : ids.Nodup)
    (hb : ∀ id ∈ ids, ∃ name npe gids conn, HasBlockData m id name npe gids conn ∧ 0 < npe ∧ GoodWord name) :
    ∃ lines, ids.mapM (blockLines m) = some lines ∧ (∀ l ∈ lines.flatten, '\n' ∉ l) ∧ ∀ (st : TextState) (done : List ℤ),
      st.elemIndex = done.length →
      st.mesh.elemGid = done ++ List.replicate (ids.flatMap fun id => (m.blockElemGids.get id).getD []).length 0 →
      ∃ st', BlocksDone m ids st st' ∧ st'.mesh.elemGid = done ++ ids.flatMap (fun id => (m.blockElemGids.get id).getD []) ∧
        ∀ ls R, Reads ls st' R → Reads (lines.flatten ++ ls) st R := by
  induction ids with
  | nil =>
    refine ⟨[], rfl, by simp, fun st done _ hg => ⟨st, ⟨by cases st; rfl, by simp, by simp, by simp⟩, by simpa using hg, fun ls R h => h⟩⟩
  | cons id ids ih =>
    rw [List.nodup_cons] at hn
    obtain ⟨lines, h1, h2, h3⟩ := ih hn.2 fun i hi => hb i (by simp [hi])
    obtain ⟨name, npe, gids, conn, hd, hp, hw⟩ := hb id (by simp)
    refine ⟨blockText id name npe gids conn :: lines, ?_, ?_, ?_⟩
    · rw [List.mapM_cons, blockLines_eq hd hp, h1]; rfl
    · intro l hl
      rw [List.flatten_cons, List.mem_append] at hl
      rcases hl with hl | hl
      · have hint : ∀ n : ℤ, '\n' ∉ intText n := fun n hc => absurd ((intText_good n).2 _ hc) (by decide)
        rcases List.mem_cons.mp hl with rfl | hl
        · decide
        · rcases List.mem_cons.mp hl with rfl | hl
          · simp only [List.mem_append, List.mem_cons, not_or]
            exact ⟨⟨⟨hint _, by decide, fun hc => absurd (hw.2 _ hc) (by decide)⟩, by decide, hint _⟩, by decide, hint _⟩
          · obtain ⟨p, -, rfl⟩ := List.mem_map.mp hl
            unfold elementText
            simp only [List.mem_append, List.mem_flatMap, List.mem_cons, not_or, not_exists, not_and]
            exact ⟨hint _, fun n _ => ⟨by decide, hint _⟩⟩
      · exact h2 l hl
    · intro st done hidx hg
      obtain ⟨q1, q2, q3, q4, q5⟩ := hd
      have hgd : (m.blockElemGids.get id).getD [] = gids := by rw [q3]; rfl
      rw [List.flatMap_cons, hgd] at hg ⊢
      rw [List.length_append] at hg
      obtain ⟨st', b1, b2, b3⟩ := h3 (st.addBlock id name npe gids conn (done ++ gids ++
          List.replicate (ids.flatMap fun id => (m.blockElemGids.get id).getD []).length 0)) (done ++ gids)
        (by simp [TextState.addBlock, hidx]) (by simp [TextState.addBlock])
      refine ⟨st', ⟨?_, ?_, ?_, ?_⟩, by rw [b2, List.append_assoc], ?_⟩
      · rw [b1.rest]; rfl
      · rw [b1.blockIds]; simp [TextState.addBlock]
      · intro i hi
        rcases List.mem_cons.mp hi with rfl | hi
        · obtain ⟨o1, o2, o3, o4⟩ := b1.other i hn.1
          rw [o1, o2, o3, o4, q1, q2, q3, q4]
          simp [TextState.addBlock, IMap.get_set]
        · exact b1.data i hi
      · intro i hi
        rw [List.mem_cons, not_or] at hi
        obtain ⟨o1, o2, o3, o4⟩ := b1.other i hi.2
        rw [o1, o2, o3, o4]
        simp [TextState.addBlock, IMap.get_set, hi.1]
      · intro ls R hr
        rw [List.flatten_cons, List.append_assoc]
        exact Reads.block q5 hw done _ hidx hg (b3 ls R hr)

/-- What the node sets leave. -/
structure SetsDone (m : Mesh ℚ) (ids : List ℤ) (st st' : TextState) : Prop where
  rest : st'.mesh = { st.mesh with
    nodeSetIds := st'.mesh.nodeSetIds
    nodeSetNames := st'.mesh.nodeSetNames
    nodeSets := st'.mesh.nodeSets }
  setIds : st'.mesh.nodeSetIds = st.mesh.nodeSetIds ++ ids
  data : ∀ id ∈ ids, st'.mesh.nodeSetNames.get id = m.nodeSetNames.get id ∧ st'.mesh.nodeSets.get id = m.nodeSets.get id
  other : ∀ id, id ∉ ids → st'.mesh.nodeSetNames.get id = st.mesh.nodeSetNames.get id ∧ st'.mesh.nodeSets.get id = st.mesh.nodeSets.get id

theorem Reads.nodeSets {m : Mesh ℚ} (ids : List ℤ) (hn : ids.Nodup)
    (hb : ∀ id ∈ ids, ∃ name set, m.nodeSetNames.get id = some name ∧ GoodWord name ∧ m.nodeSets.get id = some set) :
    (∀ l ∈ ids.flatMap (nodeSetLines m), '\n' ∉ l) ∧ ∀ st : TextState, ∃ st', SetsDone m ids st st' ∧
      ∀ ls R, Reads ls st' R → Reads (ids.flatMap (nodeSetLines m) ++ ls) st R := by
  induction ids with
  | nil => exact ⟨by simp, fun st => ⟨st, ⟨by cases st; rfl, by simp, by simp, by simp⟩, fun ls R h => h⟩⟩
  | cons id ids ih =>
    rw [List.nodup_cons] at hn
    obtain ⟨h2, h3⟩ := ih hn.2 fun i hi => hb i (by simp [hi])
    obtain ⟨name, set, q1, hw, q2⟩ := hb id (by simp)
    have hl : nodeSetLines m id = setText id name set := by
      unfold nodeSetLines setText
      rw [q1, q2]; rfl
    rw [List.flatMap_cons, hl]
    constructor
    · intro l hl
      rw [List.mem_append] at hl
      rcases hl with hl | hl
      · have hint : ∀ n : ℤ, '\n' ∉ intText n := fun n hc => absurd ((intText_good n).2 _ hc) (by decide)
        rcases List.mem_cons.mp hl with rfl | hl
        · decide
        · rcases List.mem_cons.mp hl with rfl | hl
          · simp only [List.mem_append, List.mem_cons, not_or]
            exact ⟨⟨hint _, by decide, fun hc => absurd (hw.2 _ hc) (by decide)⟩, by decide, hint _⟩
          · obtain ⟨p, -, rfl⟩ := List.mem_map.mp hl
            exact hint _
      · exact h2 l hl
    · intro st
      obtain ⟨st', b1, b3⟩ := h3 (st.addSet id name set)
      refine ⟨st', ⟨?_, ?_, ?_, ?_⟩, ?_⟩
      · rw [b1.rest]; rfl
      · rw [b1.setIds]; simp [TextState.addSet]
      · intro i hi
        rcases List.mem_cons.mp hi with rfl | hi
        · obtain ⟨o1, o2⟩ := b1.other i hn.1
          rw [o1, o2, q1, q2]
          simp [TextState.addSet, IMap.get_set]
        · exact b1.data i hi
      · intro i hi
        rw [List.mem_cons, not_or] at hi
        obtain ⟨o1, o2⟩ := b1.other i hi.2
        rw [o1, o2]
        simp [TextState.addSet, IMap.get_set, hi.1]
      · intro ls R hr
        rw [List.append_assoc]
        exact Reads.nodeSet hw (b3 ls R hr)

/-! ## C90 -/

/-- **C90 (partial).**  What the text output writes at the start is a text mesh, and reading it (with any time steps that follow) gives the same
mesh: ids, names, element tables and node sets exactly, coordinates up to their sixteen digits.  Missing: the mesh that is read cannot be
written again (`text_mesh_no_output`), and coordinates are not exact (`sixteen_digits`). -/
theorem text_mesh_partial (fmt : ℚ → Str) (rd : ℚ → ℚ) (hf : Formats fmt rd) (m : Mesh ℚ) (h : TextOk m) (globalNames nodeNames elemNames : List Str)
    (hl : ∀ l ∈ globalNames ++ nodeNames ++ elemNames, Plain l) (later : List Str) (hlater : ∀ l ∈ later, Plain l) :
    ∃ lines m', writeTextLines fmt m globalNames nodeNames elemNames = some lines ∧ readTextFile (textOf (lines ++ later)) = some m' ∧ TextEq rd m m' := by
  obtain ⟨blines, w1, w2, w3⟩ := Reads.blocks (m := m) m.blockIds h.ids h.blocks
  obtain ⟨v2, v3⟩ := Reads.nodeSets (m := m) m.nodeSetIds h.setIds h.sets
  have hint : ∀ n : ℤ, '\n' ∉ intText n := fun n hc => absurd ((intText_good n).2 _ hc) (by decide)
  have hintp : ∀ n : ℤ, Plain (intText n) := by
    intro n
    refine ⟨hint n, fun w hw hk => ?_⟩
    rw [split_word (intText_good n)] at hw
    simp only [List.head?_cons, Option.mem_def, Option.some.injEq] at hw
    subst hw
    have hne : ∀ k ∈ Keys, ∃ c r, k = c :: r ∧ isDigit c = false ∧ c ≠ '-' := by
      intro k hk
      simp only [Keys, List.mem_cons, List.not_mem_nil, or_false] at hk
      rcases hk with rfl | rfl | rfl | rfl | rfl | rfl | rfl <;> exact ⟨_, _, rfl, by decide, by decide⟩
    obtain ⟨c, r, h1, h2, h3⟩ := hne _ hk
    cases n with
    | ofNat n =>
      have : isDigit c = true := Fields.decimal_digits n c (by
        have : intText (Int.ofNat n) = Fields.decimal n := rfl
        rw [← this, h1]; simp)
      rw [this] at h2; cases h2
    | negSucc n =>
      have : intText (Int.negSucc n) = '-' :: Fields.decimal (n + 1) := rfl
      rw [this] at h1
      exact h3 (List.cons.inj h1).1.symm
  -- nodes
  let node : ℕ → Str × ℤ × ℚ × ℚ × ℚ := fun i =>
    (intText (m.nodeGid.getD i 0 + 1) ++ ' ' :: fmt (m.x.getD i 0) ++ ' ' :: fmt (m.y.getD i 0) ++ ' ' :: fmt (m.z.getD i 0),
      m.nodeGid.getD i 0, rd (m.x.getD i 0), rd (m.y.getD i 0), rd (m.z.getD i 0))
  let nodes := (List.range m.x.length).map node
  have hnl : (List.range m.x.length).mapM (nodeLine fmt m) = some (nodes.map (·.1)) := by
    rw [List.map_map]
    apply mapM_some'
    intro i hi
    have hi := List.mem_range.mp hi
    have g1 : i < m.nodeGid.length := by rw [h.gids]; exact hi
    have g2 : i < m.y.length := by rw [h.y]; exact hi
    have g3 : i < m.z.length := by rw [h.z]; exact hi
    unfold nodeLine
    simp [node, hi, g1, g2, g3]
  have hparse : ∀ p ∈ nodes, parseNode p.1 = some p.2 := by
    intro p hp
    obtain ⟨i, -, rfl⟩ := List.mem_map.mp hp
    exact parseNode_line hf _ _ _ _
  have hgetD : ∀ {α : Type} (l : List α) (d : α), l.length = m.x.length → (List.range m.x.length).map (fun i => l.getD i d) = l := by
    intro α l d hlen
    apply List.ext_getElem
    · simp [hlen]
    · intro j a b
      simp [b]
  have hn1 : nodes.map (·.2.1) = m.nodeGid := by
    show ((List.range m.x.length).map node).map (·.2.1) = _
    rw [List.map_map]; exact hgetD m.nodeGid 0 h.gids
  have hnc : ∀ l : List ℚ, l.length = m.x.length → (List.range m.x.length).map (fun i => rd (l.getD i 0)) = l.map rd := by
    intro l hlen
    have h1 : (List.range m.x.length).map (fun i => rd (l.getD i 0)) = ((List.range m.x.length).map fun i => l.getD i 0).map rd := by
      rw [List.map_map]; rfl
    rw [h1, hgetD l 0 hlen]
  have hn2 : nodes.map (·.2.2.1) = m.x.map rd := by
    show ((List.range m.x.length).map node).map (·.2.2.1) = _
    rw [List.map_map]; exact hnc m.x rfl
  have hn3 : nodes.map (·.2.2.2.1) = m.y.map rd := by
    show ((List.range m.x.length).map node).map (·.2.2.2.1) = _
    rw [List.map_map]; exact hnc m.y h.y
  have hn4 : nodes.map (·.2.2.2.2) = m.z.map rd := by
    show ((List.range m.x.length).map node).map (·.2.2.2.2) = _
    rw [List.map_map]; exact hnc m.z h.z
  -- the text
  let tail := labelLines globalNames nodeNames elemNames ++ later ++ [[]]
  have htail : ∀ l ∈ labelLines globalNames nodeNames elemNames ++ later, Plain l := by
    intro l hm
    simp only [labelLines, List.mem_append, List.mem_cons] at hm hl
    have hp : ∀ s : String, '\n' ∉ s.toList → split s.toList = [s.toList] → s.toList ∉ Keys → Plain s.toList := by
      intro s a b c
      refine ⟨a, fun w hw => ?_⟩
      rw [b] at hw
      simp only [List.head?_cons, Option.mem_def, Option.some.injEq] at hw
      subst hw; exact c
    rcases hm with ((((rfl | rfl | hm) | rfl | rfl | hm) | rfl | rfl | hm)) | hm
    · exact hp "global_data" (by decide) (split_word (by unfold GoodWord; decide)) (by decide)
    · exact hintp _
    · exact hl l (Or.inl (Or.inl hm))
    · exact hp "node_data" (by decide) (split_word (by unfold GoodWord; decide)) (by decide)
    · exact hintp _
    · exact hl l (Or.inl (Or.inr hm))
    · exact hp "element_data" (by decide) (split_word (by unfold GoodWord; decide)) (by decide)
    · exact hintp _
    · exact hl l (Or.inr hm)
    · exact hlater l hm
  have hempty : Plain [] := ⟨by simp, by simp [Uq.split_nil_of_blank (g := []) (by intro c hc; cases hc)]⟩
  -- the final state
  let st0 : TextState := { mesh := { dim := 3 } }
  let st1 : TextState :=
    { st0 with
      numNodes := some (m.x.length : ℤ)
      mesh := { dim := 3, elemGid := List.replicate m.elemGid.length 0, nodeGid := m.nodeGid, x := m.x.map rd, y := m.y.map rd, z := m.z.map rd } }
  obtain ⟨st2, x1, x2, x3⟩ := w3 st1 [] rfl (by
    show List.replicate m.elemGid.length 0 = _
    rw [h.elems]; rfl)
  obtain ⟨st3, y1, y3⟩ := v3 st2
  have hloop : Reads ((["number_of_nodes ".toList ++ intText (m.x.length : ℤ), "number_of_elements ".toList ++ intText (m.elemGid.length : ℤ),
      "number_of_blocks ".toList ++ intText (m.blockIds.length : ℤ), "number_of_node_sets ".toList ++ intText (m.nodeSetIds.length : ℤ),
      "node_coordinates".toList] ++ (nodes.map (·.1) ++ (blines.flatten ++ (m.nodeSetIds.flatMap (nodeSetLines m) ++ tail))))) st0 st3 := by
    refine Reads.header _ _ _ _ (st' := st1) (ls' := blines.flatten ++ (m.nodeSetIds.flatMap (nodeSetLines m) ++ tail)) rfl ?_ (by simp) ?_
    · unfold readCoordinates
      have hlen : nodes.length = m.x.length := by simp [nodes]
      have hrd := readNodes_spec nodes hparse (blines.flatten ++ (m.nodeSetIds.flatMap (nodeSetLines m) ++ tail)) "node_coordinates".toList
      rw [hlen] at hrd
      simp only [Option.bind_eq_bind, Option.bind_some]
      rw [if_neg (by omega), Int.toNat_natCast, hrd]
      simp only [Option.bind_some, List.map_map, Function.comp_def, Option.some.injEq, Prod.mk.injEq, true_and]
      rw [hn1, hn2, hn3, hn4]
    · apply x3
      apply y3
      exact Reads.plains (by
        intro l hm
        rcases List.mem_append.mp hm with hm | hm
        · exact htail l hm
        · simp only [List.mem_singleton] at hm; subst hm; exact hempty) st3
  refine ⟨((["number_of_nodes ".toList ++ intText (m.x.length : ℤ), "number_of_elements ".toList ++ intText (m.elemGid.length : ℤ),
      "number_of_blocks ".toList ++ intText (m.blockIds.length : ℤ), "number_of_node_sets ".toList ++ intText (m.nodeSetIds.length : ℤ),
      "node_coordinates".toList] ++ nodes.map (·.1) ++ blines.flatten ++ m.nodeSetIds.flatMap (nodeSetLines m)) ++
        labelLines globalNames nodeNames elemNames), st3.mesh, ?_, ?_, ?_⟩
  · unfold writeTextLines
    rw [hnl, w1]
    rfl
  · unfold readTextFile
    rw [splitOn_textOf]
    · have := hloop _ le_rfl
      simp only [tail, ← List.append_assoc] at this ⊢
      simp only [Option.bind_eq_bind]
      rw [this]
      rfl
    · intro l hm
      simp only [List.append_assoc, List.mem_append] at hm
      rcases hm with hm | hm | hm | hm | hm | hm
      · have hs : ∀ (s : String) (n : ℤ), '\n' ∉ s.toList → '\n' ∉ s.toList ++ intText n := by
          intro s n a b
          rcases List.mem_append.mp b with b | b
          · exact a b
          · exact hint n b
        simp only [List.mem_cons, List.not_mem_nil, or_false] at hm
        rcases hm with rfl | rfl | rfl | rfl | rfl
        · exact hs "number_of_nodes " _ (by decide)
        · exact hs "number_of_elements " _ (by decide)
        · exact hs "number_of_blocks " _ (by decide)
        · exact hs "number_of_node_sets " _ (by decide)
        · decide
      · obtain ⟨p, hp, rfl⟩ := List.mem_map.mp hm
        obtain ⟨i, -, rfl⟩ := List.mem_map.mp hp
        have hfm : ∀ c, '\n' ∉ fmt c := by
          intro c hc
          obtain ⟨l, a, b, -⟩ := hf c
          rw [b] at hc
          exact absurd (Contact.lit_no_space l _ hc) (by decide)
        simp only [node, List.mem_append, List.mem_cons, not_or]
        exact ⟨⟨⟨hint _, by decide, hfm _⟩, by decide, hfm _⟩, by decide, hfm _⟩
      · exact w2 l hm
      · exact v2 l hm
      · exact (htail l (List.mem_append.mpr (Or.inl hm))).1
      · exact (htail l (List.mem_append.mpr (Or.inr hm))).1
  · have r3 := y1.rest
    have r2 := x1.rest
    constructor
    · rw [r3]; show st2.mesh.dim = _; rw [r2, h.dim]
    · rw [r3]; show st2.mesh.nodeGid = _; rw [r2]
    · rw [r3]; show st2.mesh.x = _; rw [r2]
    · rw [r3]; show st2.mesh.y = _; rw [r2]
    · rw [r3]; show st2.mesh.z = _; rw [r2]
    · rw [r3]; show st2.mesh.elemGid = _; rw [x2, h.elems]; rfl
    · rw [r3]; show st2.mesh.blockIds = _; rw [x1.blockIds]; rfl
    · intro id hid; rw [r3]; exact (x1.data id hid).1
    · intro id hid; rw [r3]; exact (x1.data id hid).2.1
    · intro id hid; rw [r3]; exact (x1.data id hid).2.2.2
    · intro id hid; rw [r3]; exact (x1.data id hid).2.2.1
    · intro id hid; rw [r3]; exact ⟨(x1.other id hid).1, (x1.other id hid).2.2.1⟩
    · rw [y1.setIds, r2]; rfl
    · intro id hid; exact (y1.data id hid).1
    · intro id hid; exact (y1.data id hid).2

end NimbleSM.Genesis
