import Verif.Mesh.ExodusProps

/-!
# The output file holds the mesh (C89)
-/

namespace NimbleSM.Genesis

open NimbleSM.Fields (Str intText)

variable {K : Type}

/-- The mesh with other names for its node sets and without side sets. -/
def Mesh.withoutNames (names : IMap Str) (m : Mesh K) : Mesh K :=
  { m with
    nodeSetNames := names
    sideSetIds := []
    sideSetNames := []
    sideSets := []
    sideSetFactors := [] }

theorem scan_withoutNames (a : IMap Str) (bs : List FileBlock) : ∀ m : Mesh K,
    bs.foldl scanBlock (m.withoutNames a) = (bs.foldl scanBlock m).withoutNames a := by
  induction bs with
  | nil => intro m; rfl
  | cons b bs ih => intro m; rw [List.foldl_cons, List.foldl_cons, ← ih]; rfl

theorem load_withoutNames (a : IMap Str) (f : File K) (ids : List ℤ) : ∀ (k : ℕ) (m : Mesh K),
    loadBlocks f ids k (m.withoutNames a) = (loadBlocks f ids k m).map (Mesh.withoutNames a) := by
  induction ids with
  | nil => intro k m; rfl
  | cons id ids ih =>
    intro k m
    rw [loadBlocks, loadBlocks]
    cases f.block id with
    | none => rfl
    | some b =>
      simp only
      by_cases hk : k + b.numElem ≤ m.elemGid.length
      · rw [if_pos hk, if_pos (show k + b.numElem ≤ (m.withoutNames a).elemGid.length from hk), ← ih]; rfl
      · rw [if_neg hk, if_neg (show ¬k + b.numElem ≤ (m.withoutNames a).elemGid.length from hk)]; rfl

/-- Only sizes and connectivity of the blocks matter to the second loop. -/
theorem load_congr (f f' : File K) (ids : List ℤ)
    (h : ∀ id ∈ ids, ∃ b b', f.block id = some b ∧ f'.block id = some b' ∧ b.numElem = b'.numElem ∧ b.nodesPerElem = b'.nodesPerElem ∧ b.conn = b'.conn) :
    ∀ (k : ℕ) (m : Mesh K), loadBlocks f ids k m = loadBlocks f' ids k m := by
  induction ids with
  | nil => intro k m; rfl
  | cons id ids ih =>
    intro k m
    obtain ⟨b, b', h1, h2, h3, h4, h5⟩ := h id (by simp)
    rw [loadBlocks, loadBlocks, h1, h2]
    simp only [h3, h4, h5, ih (fun i hi => h i (by simp [hi]))]

/-- The block as it is written. -/
def outBlock (b : FileBlock) : FileBlock :=
  if b.numElem > 0 then { b with name := blockName b } else ⟨b.id, blockName b, 0, 0, []⟩

theorem outBlock_id (b : FileBlock) : (outBlock b).id = b.id := by unfold outBlock; split_ifs <;> rfl

theorem outBlock_numElem (b : FileBlock) : (outBlock b).numElem = b.numElem := by
  unfold outBlock
  split_ifs with h
  · rfl
  · show 0 = b.numElem; omega

theorem blockName_nonempty (b : FileBlock) : (blockName b).length ≠ 0 := by
  unfold blockName
  split_ifs with h
  · rw [List.length_append]
    have : "block_".toList.length = 6 := by decide
    omega
  · exact h

theorem blockName_of_name {b : FileBlock} (h : b.name.length ≠ 0) : blockName b = b.name := by
  unfold blockName; rw [if_neg h]

theorem outBlock_name (b : FileBlock) : blockName (outBlock b) = blockName b := by
  have h := blockName_nonempty b
  have h1 : (outBlock b).name = blockName b := by unfold outBlock; split_ifs <;> rfl
  rw [blockName_of_name (by rw [h1]; exact h), h1]

theorem scan_outBlock (bs : List FileBlock) : ∀ m : Mesh K, (bs.map outBlock).foldl scanBlock m = bs.foldl scanBlock m := by
  induction bs with
  | nil => intro m; rfl
  | cons b bs ih =>
    intro m
    rw [List.map_cons, List.foldl_cons, List.foldl_cons, ih]
    congr 1
    simp only [scanBlock, outBlock_id, outBlock_numElem, outBlock_name]

theorem mapM_some {α β γ : Type} (g : α → β) (F : β → Option γ) (G : α → γ) (l : List α) (h : ∀ a ∈ l, F (g a) = some (G a)) :
    (l.map g).mapM F = some (l.map G) := by
  induction l with
  | nil => rfl
  | cons a l ih =>
    rw [List.map_cons, List.mapM_cons, h a (by simp), ih (fun b hb => h b (by simp [hb]))]
    rfl

theorem one_zero (l : List ℤ) : oneBased (zeroBased l) = l := by
  simp [oneBased, zeroBased, Function.comp_def]

theorem zero_one (l : List ℤ) : (oneBased l).map (· - 1) = l := by
  simp [oneBased, Function.comp_def]

/-- Names do not matter to members and factors. -/
theorem readSets_names (d : Str) (fs : List (FileSet K)) : ∀ s s' : Sets K, s.sets = s'.sets → s.factors = s'.factors →
    ((fs.map fun x => { x with name := [] }).foldl (readSet d) s').sets = (fs.foldl (readSet d) s).sets ∧
    ((fs.map fun x => { x with name := [] }).foldl (readSet d) s').factors = (fs.foldl (readSet d) s).factors := by
  induction fs with
  | nil => intro s s' h1 h2; exact ⟨h1.symm, h2.symm⟩
  | cons x fs ih =>
    intro s s' h1 h2
    rw [List.map_cons, List.foldl_cons, List.foldl_cons]
    exact ih _ _ (by simp [readSet, h1]) (by simp [readSet, h2])

/-- The element types the writer knows. -/
def KnownElement (dim : ℤ) (nodes : ℕ) : Prop :=
  (dim = 2 ∧ (nodes = 3 ∨ nodes = 4)) ∨ (dim = 3 ∧ (nodes = 1 ∨ nodes = 3 ∨ nodes = 4 ∨ nodes = 8))

theorem KnownElement.pos {dim : ℤ} {nodes : ℕ} (h : KnownElement dim nodes) : nodes > 0 := by
  rcases h with ⟨-, h | h⟩ | ⟨-, h | h | h | h⟩ <;> omega

theorem elementType_known {m : Mesh K} {b : ℤ} {n : ℕ} (h : KnownElement m.dim n) (hn : m.nodesPerElem.get b = some (n : ℤ)) :
    ∃ t, m.getElementType b = some t := by
  unfold Mesh.getElementType
  rw [hn, Option.bind_eq_bind, Option.bind_some]
  rcases h with ⟨hd, h | h⟩ | ⟨hd, h | h | h | h⟩ <;> subst h <;> rw [hd]
  · exact ⟨_, rfl⟩
  · exact ⟨_, rfl⟩
  · exact ⟨_, rfl⟩
  · exact ⟨_, rfl⟩
  · exact ⟨_, rfl⟩
  · exact ⟨_, rfl⟩

/-- **C89 (partial).**  The mesh in the output file is the mesh that was read: reading the output gives the same nodes, ids, blocks with
their names and elements, and node sets, on every processor.  Missing: the names of node sets are not written
(`node_set_names_lost`), and side sets are not written at all. -/
theorem output_mesh_partial (f : File K) (h : f.Ok) (hk : ∀ b ∈ f.blocks, b.numElem > 0 → KnownElement f.dim b.nodesPerElem)
    (hs : ∀ s ∈ f.nodeSets, s.factors.length = s.entries.length) :
    ∃ m f' names, readFile f = some m ∧ writeFile m = some f' ∧ readFile f' = some (m.withoutNames names) := by
  obtain ⟨npe, gids, conn, h1, h2, h3⟩ := readFile_eq h
  obtain ⟨m, hm, hr⟩ := mesh_read f h
  -- the sets, as they are written
  have hsets : f.nodeSets.map (fun s => writeNodeSet m s.id) = f.nodeSets.map fun s => { s with name := [] } := by
    apply List.map_congr_left
    intro s hsm
    obtain ⟨m2, hm2, -, -, hn, -⟩ := sets_read_partial f h
    rw [hm] at hm2
    cases hm2
    obtain ⟨a, b⟩ := (hn s hsm).2 (hs s hsm)
    rw [writeNodeSet, a, b]
    show FileSet.mk s.id [] (oneBased (zeroBased s.entries)) s.factors = _
    rw [one_zero]
  have hblocks : ∀ b ∈ f.blocks, writeBlock m b.id = some (outBlock b) := by
    intro b hb
    have hbn := hr.names b hb
    unfold writeBlock
    rw [hbn]
    simp only [Option.bind_eq_bind, Option.bind_some]
    by_cases hp : b.numElem > 0
    · have hid : b.id ∈ m.blockIds := by
        rw [hr.ids]
        exact List.mem_map.mpr ⟨b, List.mem_filter.mpr ⟨hb, by simpa using hp⟩, rfl⟩
      obtain ⟨c1, c2⟩ := hr.counts b hb hp
      have hkn := hk b hb hp
      have c2 := c2 hkn.pos
      obtain ⟨t, ht⟩ := elementType_known (m := m) (b := b.id) (by rw [hr.dim]; exact hkn) c1
      rw [if_pos hid, c2, c1, ht, hr.conn b hb hp]
      simp only [Option.bind_some]
      rw [if_pos (by exact_mod_cast hp)]
      have hlen : ((b.numElem : ℤ) * (b.nodesPerElem : ℤ)).toNat = b.conn.length := by
        rw [h.conn b hb]; norm_cast
      rw [hlen, if_pos (by simp), List.take_of_length_le (by simp)]
      have : oneBased (b.conn.map (· - 1)) = b.conn := one_zero b.conn
      rw [this, outBlock, if_pos hp, blockName_eq]
      simp
    · have hid : b.id ∉ m.blockIds := by
        rw [hr.ids]
        intro hc
        obtain ⟨c, hc, hcid⟩ := List.mem_map.mp hc
        obtain ⟨hc1, hc2⟩ := List.mem_filter.mp hc
        have e1 := file_block h.blockIds hc1
        rw [hcid, file_block h.blockIds hb] at e1
        cases e1
        exact hp (by simpa using hc2)
      rw [if_neg hid, outBlock, if_neg hp, blockName_eq]
  -- the file that is written
  let f' : File K :=
    { dim := m.dim
      x := m.x
      y := m.y
      z := m.z
      nodeIdMap := oneBased m.nodeGid
      elemIdMap := oneBased m.elemGid
      nodeMaps := []
      elemMaps := []
      nodeSets := f.nodeSets.map fun s => { s with name := [] }
      sideSets := []
      blocks := f.blocks.map outBlock }
  have hw : writeFile m = some f' := by
    unfold writeFile
    rw [hr.allIds, mapM_some _ _ _ _ hblocks]
    simp only [Option.bind_eq_bind, Option.bind_some]
    have : m.nodeSetIds.map (writeNodeSet m) = f.nodeSets.map fun s => { s with name := [] } := by
      rw [← hsets]
      have : m.nodeSetIds = f.nodeSets.map (·.id) := by
        rw [hm] at h1; cases h1; rfl
      rw [this, List.map_map]; rfl
    rw [this]
  have hids' : f'.blocks.map (·.id) = f.blocks.map (·.id) := by
    show (f.blocks.map outBlock).map (·.id) = _
    rw [List.map_map]; exact List.map_congr_left fun b _ => outBlock_id b
  have hnum' : f'.blocks.map (·.numElem) = f.blocks.map (·.numElem) := by
    show (f.blocks.map outBlock).map (·.numElem) = _
    rw [List.map_map]; exact List.map_congr_left fun b _ => outBlock_numElem b
  have hok : f'.Ok := by
    refine ⟨by rw [hids']; exact h.blockIds, ?_, by simp [f'], ?_, ?_, Or.inl rfl, Or.inl rfl⟩
    · show ((f.nodeSets.map fun s => { s with name := [] }).map (·.id)).Nodup
      rw [List.map_map]; exact h.setIds
    · show (oneBased m.elemGid).length = _
      rw [hnum', oneBased, List.length_map, hr.elems]
      exact elemIds_length h
    · intro b hb
      obtain ⟨c, hc, rfl⟩ := List.mem_map.mp (show b ∈ f.blocks.map outBlock from hb)
      unfold outBlock
      split_ifs with hp
      · exact h.conn c hc
      · rfl
  -- the mesh before the blocks
  have hstart : startMesh f' = (startMesh f).withoutNames (readSets "nodelist_".toList f'.nodeSets).names := by
    obtain ⟨q1, q2⟩ := readSets_names "nodelist_".toList f.nodeSets {} {} rfl rfl
    have hz : (if m.dim = 3 then m.z else []) = if f.dim = 3 then f.z else [] := by
      rw [hr.dim]
      by_cases hd : f.dim = 3
      · rw [if_pos hd, if_pos hd, hr.z hd]
      · rw [if_neg hd, if_neg hd]
    have e1 : (effectiveIds (oneBased m.nodeGid) []).map (· - 1) = (startMesh f).nodeGid := by
      show (oneBased m.nodeGid).map (· - 1) = _
      rw [zero_one, hr.nodes]; rfl
    have e2 : (effectiveIds (oneBased m.elemGid) []).map (· - 1) = (startMesh f).elemGid := by
      show (oneBased m.elemGid).map (· - 1) = _
      rw [zero_one, hr.elems]; rfl
    have e3 : (f.nodeSets.map fun s => ({ s with name := [] } : FileSet K)).map (·.id) = (startMesh f).nodeSetIds := by
      rw [List.map_map]; rfl
    have e4 : (readSets "nodelist_".toList (f.nodeSets.map fun s => ({ s with name := [] } : FileSet K))).sets = (startMesh f).nodeSets := q1
    have e5 : (readSets "nodelist_".toList (f.nodeSets.map fun s => ({ s with name := [] } : FileSet K))).factors = (startMesh f).nodeSetFactors := q2
    unfold startMesh Mesh.withoutNames
    simp only [f', hr.dim, hr.x, hr.y, e1, e2, e3, e4, e5]
    rw [hr.dim] at hz
    rw [hz]
    rfl
  refine ⟨m, f', (readSets "nodelist_".toList f'.nodeSets).names, hm, hw, ?_⟩
  rw [readFile_start hok, hstart]
  have hb' : f'.blocks = f.blocks.map outBlock := rfl
  rw [hb', scan_outBlock, scan_withoutNames]
  have hbi : ((f.blocks.foldl scanBlock (startMesh f)).withoutNames (readSets "nodelist_".toList f'.nodeSets).names).blockIds =
      (f.blocks.foldl scanBlock (startMesh f)).blockIds := rfl
  rw [hbi, load_withoutNames, ← load_congr f f']
  · rw [← readFile_start h, hm]; rfl
  · intro id hid
    rw [(scan_ids f.blocks (startMesh f)).1] at hid
    simp only [startMesh, List.nil_append] at hid
    obtain ⟨b, hb, rfl⟩ := List.mem_map.mp hid
    obtain ⟨hb1, hb2⟩ := List.mem_filter.mp hb
    have hp : b.numElem > 0 := by simpa using hb2
    have hb3 : outBlock b ∈ f'.blocks := List.mem_map_of_mem hb1
    refine ⟨b, outBlock b, file_block h.blockIds hb1, ?_, ?_⟩
    · have := file_block hok.blockIds hb3
      rwa [outBlock_id] at this
    · unfold outBlock; rw [if_pos hp]; exact ⟨rfl, rfl, rfl⟩

/-- **C89 fails for the names of node sets**: every node set in every output file has an empty name. -/
theorem node_set_names_lost (m : Mesh K) (f' : File K) (hw : writeFile m = some f') : ∀ s ∈ f'.nodeSets, s.name = [] := by
  intro s hs
  have : f'.nodeSets = m.nodeSetIds.map (writeNodeSet m) := by
    unfold writeFile at hw
    simp only [Option.bind_eq_bind, Option.bind_eq_some_iff] at hw
    obtain ⟨bs, -, hw⟩ := hw
    cases hw
    rfl
  rw [this] at hs
  obtain ⟨id, -, rfl⟩ := List.mem_map.mp hs
  rfl

/-! ## A file -/

/-- Two hexahedral blocks on this processor, a third elsewhere, as written by a decomposition tool. -/
def demoFile : File ℚ :=
  { dim := 3
    x := [0, 1, 1, 0, 0, 1, 1, 0, 2, 2, 2, 2]
    y := [0, 0, 1, 1, 0, 0, 1, 1, 0, 1, 0, 1]
    z := [0, 0, 0, 0, 1, 1, 1, 1, 0, 0, 1, 1]
    nodeIdMap := [1, 2, 3, 4, 5, 6, 7, 8, 9, 10, 11, 12]
    elemIdMap := [1, 2]
    nodeMaps := [("original_global_id_map".toList, [11, 12, 13, 14, 15, 16, 17, 18, 21, 22, 23, 24])]
    elemMaps := [("original_global_id_map".toList, [40, 7])]
    nodeSets := [⟨4, "wall".toList, [1, 4, 5, 8], [1, 1, 1, 1]⟩, ⟨2, [], [9, 10], [1, 1]⟩]
    sideSets := []
    blocks := [⟨3, "soft".toList, 1, 8, [1, 2, 3, 4, 5, 6, 7, 8]⟩, ⟨9, [], 0, 0, []⟩, ⟨1, [], 1, 8, [2, 9, 10, 3, 6, 11, 12, 7]⟩] }

theorem demoFile_ok : demoFile.Ok := by
  refine ⟨by decide, by decide, by decide, by decide, by decide, Or.inr ⟨_, rfl⟩, Or.inr ⟨_, rfl, by decide⟩⟩

example : ∀ b ∈ demoFile.blocks, b.numElem > 0 → KnownElement demoFile.dim b.nodesPerElem := by
  intro b hb hp
  simp only [demoFile, List.mem_cons, List.not_mem_nil, or_false] at hb
  rcases hb with rfl | rfl | rfl
  · exact Or.inr ⟨rfl, by simp⟩
  · simp at hp
  · exact Or.inr ⟨rfl, by simp⟩

example : ∀ s ∈ demoFile.nodeSets, s.factors.length = s.entries.length := by decide +kernel

/-- What is read. -/
example : ∃ m, readFile demoFile = some m ∧ m.blockIds = [3, 1] ∧ m.allBlockIds = [3, 9, 1] ∧
    m.nodeGid = [10, 11, 12, 13, 14, 15, 16, 17, 20, 21, 22, 23] ∧ m.blockElemGids = [(1, [6]), (3, [39])] ∧
    m.conn = [(1, [1, 8, 9, 2, 5, 10, 11, 6]), (3, [0, 1, 2, 3, 4, 5, 6, 7])] ∧
    m.allBlockNames = [(1, "block_1".toList), (3, "soft".toList), (9, "block_9".toList)] ∧
    m.nodeSetNames = [(2, "nodelist_2".toList), (4, "wall".toList)] ∧ m.nodeSets = [(2, [8, 9]), (4, [0, 3, 4, 7])] := by
  refine ⟨(readFile demoFile).get (by decide +kernel), by simp, ?_, ?_, ?_, ?_, ?_, ?_, ?_, ?_⟩ <;> decide +kernel

/-- The same file without distribution factors. -/
def demoNoFactors : File ℚ := { demoFile with nodeSets := [⟨4, "wall".toList, [1, 4, 5, 8], []⟩] }

example : demoNoFactors.Ok ∧ (readFile demoNoFactors).map (fun m : Mesh ℚ => m.nodeSets) = some [(4, [])] := by
  refine ⟨⟨by decide, by decide, by decide, by decide, by decide, Or.inr ⟨_, rfl⟩, Or.inr ⟨_, rfl, by decide⟩⟩, by decide +kernel⟩

end NimbleSM.Genesis
