import Verif.Mesh.Exodus
import Verif.Mesh.GenesisProps
import Mathlib.Algebra.BigOperators.Group.List.Basic

/-!
# Reading and writing mesh files (C88, C89)
-/

namespace NimbleSM.Genesis

open NimbleSM.Fields (Str intText)

variable {K : Type}

/-! ## What a file must be -/

/-- A file as the Exodus library delivers it: ids are distinct, the tables have the sizes the file announces, and at most one auxiliary
map, of the name used by the decomposition tools, per kind. -/
structure File.Ok (f : File K) : Prop where
  blockIds : (f.blocks.map (·.id)).Nodup
  setIds : (f.nodeSets.map (·.id)).Nodup
  sideIds : (f.sideSets.map (·.id)).Nodup
  elems : f.elemIdMap.length = (f.blocks.map (·.numElem)).sum
  conn : ∀ b ∈ f.blocks, b.conn.length = b.numElem * b.nodesPerElem
  nodeMaps : f.nodeMaps = [] ∨ ∃ ids, f.nodeMaps = [("original_global_id_map".toList, ids)]
  elemMaps : f.elemMaps = [] ∨ ∃ ids, f.elemMaps = [("original_global_id_map".toList, ids)] ∧ ids.length = f.elemIdMap.length

/-- The ids of the nodes or elements, as numbered in the file (from one). -/
def effectiveIds (idMap : List ℤ) (maps : List (Str × List ℤ)) : List ℤ :=
  match maps with
  | [] => idMap
  | (_, ids) :: _ => ids

theorem globalIds_ok {idMap : List ℤ} {maps : List (Str × List ℤ)}
    (h : maps = [] ∨ ∃ ids, maps = [("original_global_id_map".toList, ids)]) :
    globalIds idMap maps = some ((effectiveIds idMap maps).map (· - 1)) ∧ ¬maps.length > 1 := by
  rcases h with rfl | ⟨ids, rfl⟩
  · simp [globalIds, effectiveIds, zeroBased]
  · simp [globalIds, effectiveIds, zeroBased]

/-! ## The first loop over blocks -/

theorem scan_ids (bs : List FileBlock) : ∀ m : Mesh K,
    (bs.foldl scanBlock m).blockIds = m.blockIds ++ (bs.filter fun b => b.numElem > 0).map (·.id) ∧
    (bs.foldl scanBlock m).allBlockIds = m.allBlockIds ++ bs.map (·.id) := by
  induction bs with
  | nil => intro m; simp
  | cons b bs ih =>
    intro m
    obtain ⟨h1, h2⟩ := ih (scanBlock m b)
    rw [List.foldl_cons, h1, h2]
    by_cases hb : b.numElem > 0
    · simp [scanBlock, hb]
    · simp [scanBlock, hb]

theorem scan_names (bs : List FileBlock) : ∀ m : Mesh K, (bs.map (·.id)).Nodup →
    (∀ id, id ∉ bs.map (·.id) → (bs.foldl scanBlock m).allBlockNames.get id = m.allBlockNames.get id ∧
      (bs.foldl scanBlock m).blockNames.get id = m.blockNames.get id) ∧
    ∀ b ∈ bs, (bs.foldl scanBlock m).allBlockNames.get b.id = some (blockName b) ∧
      (bs.foldl scanBlock m).blockNames.get b.id = if b.numElem > 0 then some (blockName b) else m.blockNames.get b.id := by
  induction bs with
  | nil => intro m _; simp
  | cons b bs ih =>
    intro m hn
    rw [List.map_cons, List.nodup_cons] at hn
    obtain ⟨i1, i2⟩ := ih (scanBlock m b) hn.2
    have hset : ∀ id, (scanBlock m b).allBlockNames.get id = (if id = b.id then some (blockName b) else m.allBlockNames.get id) ∧
        (scanBlock m b).blockNames.get id = (if id = b.id ∧ b.numElem > 0 then some (blockName b) else m.blockNames.get id) := by
      intro id
      refine ⟨by simp only [scanBlock]; rw [IMap.get_set], ?_⟩
      simp only [scanBlock]
      by_cases hb : b.numElem > 0
      · rw [if_pos hb, IMap.get_set]; simp [hb]
      · rw [if_neg hb]; simp [hb]
    rw [List.foldl_cons]
    constructor
    · intro id hid
      rw [List.map_cons, List.mem_cons, not_or] at hid
      obtain ⟨j1, j2⟩ := i1 id hid.2
      rw [j1, j2, (hset id).1, (hset id).2, if_neg hid.1, if_neg (fun h => hid.1 h.1)]
      exact ⟨rfl, rfl⟩
    · intro c hc
      rcases List.mem_cons.mp hc with rfl | hc
      · obtain ⟨j1, j2⟩ := i1 c.id hn.1
        rw [j1, j2, (hset c.id).1, (hset c.id).2]
        simp
      · obtain ⟨j1, j2⟩ := i2 c hc
        have hne : c.id ≠ b.id := by
          intro h; exact hn.1 (h ▸ List.mem_map_of_mem hc)
        have h3 := (hset c.id).2
        rw [if_neg (fun h => hne h.1)] at h3
        rw [j1, j2, h3]
        exact ⟨rfl, rfl⟩

/-- What the first loop leaves alone. -/
theorem scan_rest (bs : List FileBlock) : ∀ m : Mesh K,
    bs.foldl scanBlock m =
      { m with
        blockIds := (bs.foldl scanBlock m).blockIds
        allBlockIds := (bs.foldl scanBlock m).allBlockIds
        blockNames := (bs.foldl scanBlock m).blockNames
        allBlockNames := (bs.foldl scanBlock m).allBlockNames } := by
  induction bs with
  | nil => intro m; rfl
  | cons b bs ih =>
    intro m
    rw [List.foldl_cons, ih (scanBlock m b)]
    rfl

/-! ## The second loop -/

theorem file_block {f : File K} (h : (f.blocks.map (·.id)).Nodup) {b : FileBlock} (hb : b ∈ f.blocks) : f.block b.id = some b := by
  unfold File.block
  have key : ∀ l : List FileBlock, (l.map (·.id)).Nodup → b ∈ l → (l.find? fun c => c.id == b.id) = some b := by
    intro l
    induction l with
    | nil => intro _ h; cases h
    | cons c l ih =>
      intro hn hm
      rw [List.map_cons, List.nodup_cons] at hn
      rw [List.find?_cons]
      rcases List.mem_cons.mp hm with rfl | hm
      · simp
      · have : (c.id == b.id) = false := by
          rw [beq_eq_false_iff_ne]; intro h; exact hn.1 (h ▸ List.mem_map_of_mem hm)
        rw [this]; exact ih hn.2 hm
  exact key f.blocks h hb

/-- The second loop over a list of blocks of the file. -/
theorem load_spec {f : File K} (hids : (f.blocks.map (·.id)).Nodup) (bs : List FileBlock) : ∀ (k : ℕ) (m : Mesh K),
    (∀ b ∈ bs, b ∈ f.blocks) → (bs.map (·.id)).Nodup → k + (bs.map (·.numElem)).sum ≤ m.elemGid.length →
    ∃ npe gids conn, loadBlocks f (bs.map (·.id)) k m = some { m with nodesPerElem := npe, blockElemGids := gids, conn := conn } ∧
      (∀ id, id ∉ bs.map (·.id) → npe.get id = m.nodesPerElem.get id ∧ gids.get id = m.blockElemGids.get id ∧ conn.get id = m.conn.get id) ∧
      (∀ b ∈ bs, npe.get b.id = some (b.nodesPerElem : ℤ) ∧ conn.get b.id = some (b.conn.map (· - 1))) ∧
      ∀ pre b post, bs = pre ++ b :: post →
        gids.get b.id = some ((m.elemGid.drop (k + (pre.map (·.numElem)).sum)).take b.numElem) := by
  induction bs with
  | nil =>
    intro k m _ _ _
    exact ⟨m.nodesPerElem, m.blockElemGids, m.conn, by simp [loadBlocks], by simp, by simp, by simp⟩
  | cons b bs ih =>
    intro k m hb hn hk
    rw [List.map_cons, List.nodup_cons] at hn
    rw [List.map_cons, List.sum_cons] at hk
    rw [List.map_cons, loadBlocks, file_block hids (hb b (by simp))]
    simp only
    rw [if_pos (by omega)]
    obtain ⟨npe, gids, conn, h1, h2, h3, h4⟩ := ih (k + b.numElem)
      { m with
        nodesPerElem := m.nodesPerElem.set b.id b.nodesPerElem
        blockElemGids := m.blockElemGids.set b.id ((m.elemGid.drop k).take b.numElem)
        conn := m.conn.set b.id (zeroBased b.conn) } (fun c hc => hb c (by simp [hc])) hn.2 (by simp only; omega)
    refine ⟨npe, gids, conn, h1, ?_, ?_, ?_⟩
    · intro id hid
      rw [List.mem_cons, not_or] at hid
      obtain ⟨a1, a2, a3⟩ := h2 id hid.2
      rw [a1, a2, a3]
      simp only [IMap.get_set, if_neg hid.1]
      exact ⟨trivial, trivial, trivial⟩
    · intro c hc
      rcases List.mem_cons.mp hc with rfl | hc
      · obtain ⟨a1, a2, a3⟩ := h2 c.id hn.1
        rw [a1, a3]
        simp [IMap.get_set, zeroBased]
      · exact h3 c hc
    · intro pre c post heq
      cases pre with
      | nil =>
        simp only [List.nil_append, List.cons.injEq] at heq
        obtain ⟨rfl, rfl⟩ := heq
        rw [(h2 b.id hn.1).2.1]
        simp [IMap.get_set]
      | cons p pre =>
        simp only [List.cons_append, List.cons.injEq] at heq
        obtain ⟨rfl, heq⟩ := heq
        rw [h4 pre c post heq]
        simp only [List.map_cons, List.sum_cons, Nat.add_assoc]

/-! ## Sets -/

/-- The name of a set or block as the user sees it: the stored name, or a default with its number. -/
def shownName (default : String) (name : Str) (id : ℤ) : Str := if name = [] then default.toList ++ intText id else name

theorem readSets_spec (d : String) (fs : List (FileSet K)) : ∀ s : Sets K, (fs.map (·.id)).Nodup →
    (∀ id, id ∉ fs.map (·.id) → (fs.foldl (readSet d.toList) s).names.get id = s.names.get id ∧
      (fs.foldl (readSet d.toList) s).sets.get id = s.sets.get id ∧ (fs.foldl (readSet d.toList) s).factors.get id = s.factors.get id) ∧
    ∀ x ∈ fs, (fs.foldl (readSet d.toList) s).names.get x.id = some (shownName d x.name x.id) ∧
      (fs.foldl (readSet d.toList) s).sets.get x.id =
        some (if x.entries ≠ [] ∧ x.factors.length = x.entries.length then x.entries.map (· - 1) else []) ∧
      (fs.foldl (readSet d.toList) s).factors.get x.id = some (if x.entries ≠ [] then x.factors else []) := by
  induction fs with
  | nil => intro s _; simp
  | cons x fs ih =>
    intro s hn
    rw [List.map_cons, List.nodup_cons] at hn
    obtain ⟨i1, i2⟩ := ih (readSet d.toList s x) hn.2
    rw [List.foldl_cons]
    constructor
    · intro id hid
      rw [List.map_cons, List.mem_cons, not_or] at hid
      obtain ⟨j1, j2, j3⟩ := i1 id hid.2
      rw [j1, j2, j3]
      simp only [readSet, IMap.get_set, if_neg hid.1]
      exact ⟨trivial, trivial, trivial⟩
    · intro y hy
      rcases List.mem_cons.mp hy with rfl | hy
      · obtain ⟨j1, j2, j3⟩ := i1 y.id hn.1
        rw [j1, j2, j3]
        simp only [readSet, IMap.get_set, if_true, shownName, List.length_eq_zero_iff, List.length_pos_iff, zeroBased, gt_iff_lt]
        exact ⟨trivial, trivial, trivial⟩
      · exact i2 y hy

/-! ## C88 -/

/-- The element number `j` of block `b` is element number `offset + j` of the file, where `offset` counts the elements of all
blocks before `b`. -/
def FileOffset (f : File K) (b : FileBlock) (offset : ℕ) : Prop :=
  ∃ pre post, f.blocks = pre ++ b :: post ∧ offset = (pre.map (·.numElem)).sum

/-- The mesh in memory has what the file says about nodes and blocks, numbered from zero. -/
structure ReadsAs (f : File K) (m : Mesh K) : Prop where
  dim : m.dim = f.dim
  x : m.x = f.x
  y : m.y = f.y
  z : f.dim = 3 → m.z = f.z
  /-- global node ids -/
  nodes : m.nodeGid = (effectiveIds f.nodeIdMap f.nodeMaps).map (· - 1)
  /-- global element ids -/
  elems : m.elemGid = (effectiveIds f.elemIdMap f.elemMaps).map (· - 1)
  /-- all blocks -/
  allIds : m.allBlockIds = f.blocks.map (·.id)
  names : ∀ b ∈ f.blocks, m.getBlockName b.id = some (shownName "block_" b.name b.id)
  /-- the blocks that have elements on this processor -/
  ids : m.blockIds = (f.blocks.filter fun b => b.numElem > 0).map (·.id)
  present : ∀ id name, m.Named id name ↔ ∃ b ∈ f.blocks, b.id = id ∧ b.numElem > 0 ∧ shownName "block_" b.name b.id = name
  counts : ∀ b ∈ f.blocks, b.numElem > 0 → m.getNumNodesPerElement b.id = some (b.nodesPerElem : ℤ) ∧
    (b.nodesPerElem > 0 → m.getNumElementsInBlock b.id = some (b.numElem : ℤ))
  conn : ∀ b ∈ f.blocks, b.numElem > 0 → m.conn.get b.id = some (b.conn.map (· - 1))
  /-- the ids of the elements of a block are those the file gives to these elements -/
  elemIds : ∀ b ∈ f.blocks, b.numElem > 0 → ∀ offset, FileOffset f b offset → ∃ ids, m.blockElemGids.get b.id = some ids ∧
    ids.length = b.numElem ∧ ∀ j < b.numElem, ids[j]? = m.elemGid[offset + j]?

theorem blockName_eq (b : FileBlock) : blockName b = shownName "block_" b.name b.id := by
  simp [blockName, shownName, List.length_eq_zero_iff]

/-- Elements of blocks before `b`: blocks without elements do not count. -/
theorem sum_filter (l : List FileBlock) : ((l.filter fun b => b.numElem > 0).map (·.numElem)).sum = (l.map (·.numElem)).sum := by
  induction l with
  | nil => rfl
  | cons b l ih =>
    by_cases hb : b.numElem > 0
    · simp [hb, ih]
    · have : b.numElem = 0 := by omega
      simp [hb, ih, this]

/-- The mesh before blocks are processed. -/
def startMesh (f : File K) : Mesh K :=
  { dim := f.dim
    nodeGid := (effectiveIds f.nodeIdMap f.nodeMaps).map (· - 1)
    x := f.x
    y := f.y
    z := if f.dim = 3 then f.z else []
    elemGid := (effectiveIds f.elemIdMap f.elemMaps).map (· - 1)
    nodeSetIds := f.nodeSets.map (·.id)
    nodeSetNames := (readSets "nodelist_".toList f.nodeSets).names
    nodeSets := (readSets "nodelist_".toList f.nodeSets).sets
    nodeSetFactors := (readSets "nodelist_".toList f.nodeSets).factors
    sideSetIds := f.sideSets.map (·.id)
    sideSetNames := (readSets "sideset_".toList f.sideSets).names
    sideSets := (readSets "sideset_".toList f.sideSets).sets
    sideSetFactors := (readSets "sideset_".toList f.sideSets).factors }

theorem File.Ok.elemMaps' {f : File K} (h : f.Ok) : f.elemMaps = [] ∨ ∃ ids, f.elemMaps = [("original_global_id_map".toList, ids)] := by
  rcases h.elemMaps with h | ⟨ids, h, -⟩
  · exact Or.inl h
  · exact Or.inr ⟨ids, h⟩

theorem readFile_start {f : File K} (h : f.Ok) :
    readFile f = loadBlocks f ((f.blocks.foldl scanBlock (startMesh f)).blockIds) 0 (f.blocks.foldl scanBlock (startMesh f)) := by
  obtain ⟨a1, a2⟩ := globalIds_ok (idMap := f.nodeIdMap) h.nodeMaps
  obtain ⟨b1, b2⟩ := globalIds_ok (idMap := f.elemIdMap) h.elemMaps'
  unfold readFile
  rw [if_neg (by rintro (h | h) <;> contradiction), a1, b1]
  rfl

theorem elemIds_length {f : File K} (h : f.Ok) :
    ((effectiveIds f.elemIdMap f.elemMaps).map (· - 1)).length = (f.blocks.map (·.numElem)).sum := by
  rw [List.length_map, ← h.elems]
  rcases h.elemMaps with h | ⟨ids, h, hl⟩
  · rw [h]; rfl
  · rw [h]; exact hl

/-- The mesh that is read, in terms of the two loops. -/
theorem readFile_eq {f : File K} (h : f.Ok) : ∃ npe gids conn,
    readFile f = some
      { startMesh f with
        blockIds := (f.blocks.foldl scanBlock (startMesh f)).blockIds
        allBlockIds := (f.blocks.foldl scanBlock (startMesh f)).allBlockIds
        blockNames := (f.blocks.foldl scanBlock (startMesh f)).blockNames
        allBlockNames := (f.blocks.foldl scanBlock (startMesh f)).allBlockNames
        nodesPerElem := npe
        blockElemGids := gids
        conn := conn } ∧
    (∀ b ∈ f.blocks, b.numElem > 0 → npe.get b.id = some (b.nodesPerElem : ℤ) ∧ conn.get b.id = some (b.conn.map (· - 1))) ∧
    ∀ pre b post, f.blocks = pre ++ b :: post → b.numElem > 0 →
      gids.get b.id = some (((startMesh f).elemGid.drop (pre.map (·.numElem)).sum).take b.numElem) := by
  have hids := (scan_ids f.blocks (startMesh f)).1
  have hrest := scan_rest f.blocks (startMesh f)
  have hel : (f.blocks.foldl scanBlock (startMesh f)).elemGid = (startMesh f).elemGid := by rw [hrest]
  obtain ⟨npe, gids, conn, h1, h2, h3, h4⟩ := load_spec (f := f) h.blockIds (f.blocks.filter fun b => b.numElem > 0) 0
    (f.blocks.foldl scanBlock (startMesh f)) (fun b hb => (List.mem_filter.mp hb).1)
    (h.blockIds.sublist ((List.filter_sublist (l := f.blocks)).map _)) (by
      rw [hel, sum_filter]
      exact (by rw [Nat.zero_add]; exact (elemIds_length h).ge))
  refine ⟨npe, gids, conn, ?_, ?_, ?_⟩
  · rw [readFile_start h]
    have : (f.blocks.foldl scanBlock (startMesh f)).blockIds = (f.blocks.filter fun b => b.numElem > 0).map (·.id) := by
      rw [hids]; rfl
    rw [this, h1]
    congr 1
    rw [hrest]
    simp only [this]
  · intro b hb hp
    exact h3 b (List.mem_filter.mpr ⟨hb, by simpa using hp⟩)
  · intro pre b post heq hp
    have := h4 (pre.filter fun b => b.numElem > 0) b (post.filter fun b => b.numElem > 0) (by
      rw [heq, List.filter_append, List.filter_cons_of_pos (by simpa using hp)])
    rw [this, sum_filter, hel, Nat.zero_add]

/-- **C88.**  Every file the library delivers is read, and the mesh in memory is the one in the file: coordinates, global ids, names,
element counts, connectivity and element ids per block, with numbers counted from zero and blocks without elements on this processor
listed only among all blocks. -/
theorem mesh_read (f : File K) (h : f.Ok) : ∃ m, readFile f = some m ∧ ReadsAs f m := by
  obtain ⟨npe, gids, conn, h1, h2, h3⟩ := readFile_eq h
  obtain ⟨s1, s2⟩ := scan_ids f.blocks (startMesh f)
  obtain ⟨n1, n2⟩ := scan_names f.blocks (startMesh f) h.blockIds
  refine ⟨_, h1, ⟨rfl, rfl, rfl, ?_, rfl, rfl, ?_, ?_, ?_, ?_, ?_, ?_, ?_⟩⟩
  · intro hd
    simp [startMesh, hd]
  · rw [s2]; rfl
  · intro b hb
    rw [← blockName_eq]; exact (n2 b hb).1
  · rw [s1]; rfl
  · intro id name
    unfold Mesh.Named
    simp only
    constructor
    · intro hn
      by_cases hid : id ∈ f.blocks.map (·.id)
      · obtain ⟨b, hb, rfl⟩ := List.mem_map.mp hid
        rw [(n2 b hb).2] at hn
        split_ifs at hn with hp
        · exact ⟨b, hb, rfl, hp, by rw [← blockName_eq]; simpa using hn⟩
        · cases hn
      · rw [(n1 id hid).2] at hn
        cases hn
    · rintro ⟨b, hb, rfl, hp, rfl⟩
      rw [(n2 b hb).2, if_pos hp, blockName_eq]
  · intro b hb hp
    refine ⟨(h2 b hb hp).1, fun hq => ?_⟩
    unfold Mesh.getNumElementsInBlock
    simp only [(h2 b hb hp).1, (h2 b hb hp).2, Option.bind_eq_bind, Option.bind_some, List.length_map, h.conn b hb]
    rw [if_pos (Nat.mul_pos hp hq), if_neg (by omega)]
    congr 1
    push_cast
    exact Int.mul_tdiv_cancel _ (by omega)
  · intro b hb hp
    exact (h2 b hb hp).2
  · rintro b hb hp offset ⟨pre, post, heq, rfl⟩
    refine ⟨_, h3 pre b post heq hp, ?_, ?_⟩
    · rw [List.length_take, List.length_drop, show (startMesh f).elemGid.length = _ from elemIds_length h, heq]
      simp only [List.map_append, List.map_cons, List.sum_append, List.sum_cons]
      omega
    · intro j hj
      rw [List.getElem?_take, if_pos hj, List.getElem?_drop]

/-- **C88, sets (partial).**  Every node set and side set is listed with its name and its distribution factors, and with its members if it has
as many factors as members.  Missing: sets without factors (`node_set_without_factors`). -/
theorem sets_read_partial (f : File K) (h : f.Ok) : ∃ m, readFile f = some m ∧
    m.nodeSetIds = f.nodeSets.map (·.id) ∧ m.sideSetIds = f.sideSets.map (·.id) ∧
    (∀ s ∈ f.nodeSets, m.nodeSetNames.get s.id = some (shownName "nodelist_" s.name s.id) ∧
      (s.factors.length = s.entries.length → m.nodeSets.get s.id = some (s.entries.map (· - 1)) ∧ m.nodeSetFactors.get s.id = some s.factors)) ∧
    ∀ s ∈ f.sideSets, m.sideSetNames.get s.id = some (shownName "sideset_" s.name s.id) ∧
      (s.factors.length = s.entries.length → m.sideSets.get s.id = some (s.entries.map (· - 1)) ∧ m.sideSetFactors.get s.id = some s.factors) := by
  obtain ⟨npe, gids, conn, h1, -, -⟩ := readFile_eq h
  refine ⟨_, h1, rfl, rfl, ?_, ?_⟩
  · intro s hs
    obtain ⟨a, b, c⟩ := (readSets_spec "nodelist_" f.nodeSets {} h.setIds).2 s hs
    refine ⟨a, fun hl => ⟨b.trans ?_, c.trans ?_⟩⟩
    · by_cases he : s.entries = []
      · simp [he]
      · rw [if_pos ⟨he, hl⟩]
    · by_cases he : s.entries = []
      · have : s.factors = [] := List.eq_nil_of_length_eq_zero (by rw [hl, he]; rfl)
        simp [he, this]
      · rw [if_pos he]
  · intro s hs
    obtain ⟨a, b, c⟩ := (readSets_spec "sideset_" f.sideSets {} h.sideIds).2 s hs
    refine ⟨a, fun hl => ⟨b.trans ?_, c.trans ?_⟩⟩
    · by_cases he : s.entries = []
      · simp [he]
      · rw [if_pos ⟨he, hl⟩]
    · by_cases he : s.entries = []
      · have : s.factors = [] := List.eq_nil_of_length_eq_zero (by rw [hl, he]; rfl)
        simp [he, this]
      · rw [if_pos he]

/-- **C88 fails for node sets without distribution factors**: the set is listed but has no members, so that boundary conditions on it
do nothing.  (Factors are optional in the file format.) -/
theorem node_set_without_factors (f : File K) (h : f.Ok) (s : FileSet K) (hs : s ∈ f.nodeSets) (hf : s.factors.length ≠ s.entries.length) :
    ∃ m, readFile f = some m ∧ s.id ∈ m.nodeSetIds ∧ m.nodeSets.get s.id = some [] := by
  obtain ⟨npe, gids, conn, h1, -, -⟩ := readFile_eq h
  refine ⟨_, h1, List.mem_map_of_mem hs, ?_⟩
  obtain ⟨a, b, c⟩ := (readSets_spec "nodelist_" f.nodeSets {} h.setIds).2 s hs
  exact b.trans (by rw [if_neg (fun h => hf h.2)])

end NimbleSM.Genesis
