import Verif.Contact.SkinProps
import Mathlib.Algebra.BigOperators.Fin
import Mathlib.Algebra.Order.BigOperators.Group.Finset
import Mathlib.Data.List.Range
import Mathlib.Tactic.Ring
import Mathlib.Tactic.NormNum

/-! # C84: the skin computed by several ranks is the skin of the whole mesh -/

namespace NimbleSM.Contact

/-! ## Specification -/

/-- A face of one rank in global node numbers. -/
def toGlobal (r : RankMesh) (f : Face) : Face := { f with nodes := f.nodes.map r.nodeGid }

/-- The faces of the whole mesh: those of all ranks, in global node numbers. -/
def globalFaces (ranks : List RankMesh) : List Face := ranks.flatMap fun r => (allFaces r.blocks).map (toGlobal r)

/-- The faces of all ranks, in global node numbers. -/
def unionOfSkins (ranks : List RankMesh) (skins : List (List Face)) : List Face :=
  (ranks.zip skins).flatMap fun p => p.2.map (toGlobal p.1)

/-! ## One rank -/

theorem globalKey_toGlobal (r : RankMesh) (f : Face) : globalKey r.nodeGid f = faceKey (toGlobal r f) := rfl

theorem globalKey_eq_iff {gid : ℕ → ℕ} (hi : Function.Injective gid) (f g : Face) :
    globalKey gid g = globalKey gid f ↔ faceKey g = faceKey f := by
  unfold globalKey faceKey
  rw [sort_eq_iff, sort_eq_iff]
  exact ⟨fun h => (List.map_perm_map_iff hi).mp h, fun h => h.map _⟩

theorem sendBuffer_chunk (gid : ℕ → ℕ) (faces : List Face) (h4 : ∀ f ∈ faces, f.nodes.length = 4) :
    (sendBuffer gid faces).length = 4 * faces.length ∧
    ∀ i (hi : i < faces.length), ((sendBuffer gid faces).drop (4 * i)).take 4 = globalKey gid faces[i] := by
  induction faces with
  | nil => exact ⟨rfl, fun i hi => absurd hi (Nat.not_lt_zero i)⟩
  | cons f faces ih =>
    have hl : (globalKey gid f).length = 4 := by
      simp [globalKey, h4 f List.mem_cons_self]
    obtain ⟨ih1, ih2⟩ := ih fun g hg => h4 g (List.mem_cons_of_mem _ hg)
    have hs : sendBuffer gid (f :: faces) = globalKey gid f ++ sendBuffer gid faces := rfl
    rw [hs]
    refine ⟨by rw [List.length_append, hl, ih1, List.length_cons]; ring, ?_⟩
    intro i hi
    cases i with
    | zero =>
      rw [mul_zero, List.drop_zero, List.take_append_of_le_length (by omega), List.take_of_length_le (by omega)]
      rfl
    | succ i =>
      rw [mul_add, mul_one, add_comm, ← List.drop_drop, List.drop_left' hl]
      exact ih2 i (by simpa using hi)

theorem fold_marks {ι : Type*} (l : List ι) (pick : ι → Option ℕ) (marks : ℕ → Bool) (k : ℕ) :
    l.foldl (fun marks i => markOne marks (pick i)) marks k = true ↔ marks k = true ∨ ∃ i ∈ l, pick i = some k := by
  induction l generalizing marks with
  | nil => simp
  | cons a l ih =>
    rw [List.foldl_cons, ih]
    cases h : pick a with
    | none => simp [h, markOne]
    | some j =>
      by_cases hj : k = j
      · subst hj; simp [h, markOne]
      · have hj' : ¬ j = k := fun h => hj h.symm
        simp [h, markOne, Function.update_of_ne hj, hj']

theorem markFaces_spec (gid : ℕ → ℕ) (faces : List Face) (gid' : ℕ → ℕ) (others : List Face)
    (h4 : ∀ f ∈ others, f.nodes.length = 4) (marks : ℕ → Bool) (k : ℕ) :
    markFaces gid faces (sendBuffer gid' others) marks k = true ↔
      marks k = true ∨ ∃ g ∈ others, findFace gid faces (globalKey gid' g) = some k := by
  obtain ⟨hl, hc⟩ := sendBuffer_chunk gid' others h4
  unfold markFaces
  rw [fold_marks _ (fun i => findFace gid faces (((sendBuffer gid' others).drop (4 * i)).take 4)), hl, Nat.mul_div_cancel_left _ (by norm_num : 0 < 4)]
  simp only [List.mem_range]
  apply or_congr_right
  constructor
  · rintro ⟨i, hi, h⟩
    rw [hc i hi] at h
    exact ⟨others[i], List.getElem_mem hi, h⟩
  · rintro ⟨g, hg, h⟩
    obtain ⟨i, hi, rfl⟩ := List.getElem_of_mem hg
    exact ⟨i, hi, by rw [hc i hi]; exact h⟩

/-- With distinct keys the search finds the face with the key. -/
theorem findFace_iff {gid : ℕ → ℕ} {faces : List Face} (hd : faces.Pairwise fun f g => globalKey gid f ≠ globalKey gid g)
    (key : List ℕ) (k : ℕ) (hk : k < faces.length) : findFace gid faces key = some k ↔ globalKey gid faces[k] = key := by
  unfold findFace
  rw [List.findIdx?_eq_some_iff_getElem]
  constructor
  · rintro ⟨h, h1, -⟩
    simpa using h1
  · intro h
    refine ⟨hk, by simpa using h, ?_⟩
    intro j hj
    have := List.pairwise_iff_getElem.mp hd j k (by omega) hk hj
    simp only [decide_eq_true_eq]
    intro he
    exact this (he.trans h.symm)

theorem filter_zipIdx (l : List Face) (P : Face → Bool) (marks : ℕ → Bool) (n : ℕ)
    (h : ∀ k (hk : k < l.length), marks (n + k) = P l[k]) :
    ((l.zipIdx n).filter fun p => !marks p.2).map Prod.fst = l.filter fun f => !P f := by
  induction l generalizing n with
  | nil => rfl
  | cons a l ih =>
    have h0 := h 0 (by simp)
    have ih' := ih (n + 1) fun k hk => by
      have := h (k + 1) (by simpa using hk)
      rw [← List.getElem_cons_succ a l k (by simpa using hk), ← this]
      congr 1
      omega
    rw [List.zipIdx_cons, List.filter_cons, List.filter_cons]
    simp only [add_zero, List.getElem_cons_zero] at h0
    rw [h0]
    split
    · rw [List.map_cons, ih']
    · exact ih'

theorem mem_sources (numRanks rank r : ℕ) (hr : rank < numRanks) :
    (∃ shift ∈ List.range' 1 (numRanks - 1), (rank + numRanks - shift) % numRanks = r) ↔ r < numRanks ∧ r ≠ rank := by
  simp only [List.mem_range'_1]
  constructor
  · rintro ⟨s, ⟨h1, h2⟩, rfl⟩
    refine ⟨Nat.mod_lt _ (by omega), ?_⟩
    by_cases h : s ≤ rank
    · rw [show rank + numRanks - s = (rank - s) + numRanks by omega, Nat.add_mod_right, Nat.mod_eq_of_lt (by omega)]
      omega
    · rw [Nat.mod_eq_of_lt (by omega)]
      omega
  · rintro ⟨h1, h2⟩
    by_cases h : r < rank
    · refine ⟨rank - r, ⟨by omega, by omega⟩, ?_⟩
      rw [show rank + numRanks - (rank - r) = r + numRanks by omega, Nat.add_mod_right, Nat.mod_eq_of_lt h1]
    · refine ⟨rank + numRanks - r, ⟨by omega, by omega⟩, ?_⟩
      rw [show rank + numRanks - (rank + numRanks - r) = r by omega, Nat.mod_eq_of_lt h1]

/-- A rank keeps exactly the faces that no other rank has in its skin. -/
theorem removeInternal_spec (numRanks rank : ℕ) (hr : rank < numRanks) (gids : ℕ → ℕ → ℕ) (skins : ℕ → List Face)
    (h4 : ∀ r, ∀ f ∈ skins r, f.nodes.length = 4)
    (hd : (skins rank).Pairwise fun f g => globalKey (gids rank) f ≠ globalKey (gids rank) g) :
    removeInternal numRanks rank (fun r => sendBuffer (gids r) (skins r)) (gids rank) (skins rank) =
      (skins rank).filter fun f => !decide (∃ r, r < numRanks ∧ r ≠ rank ∧ ∃ g ∈ skins r,
        globalKey (gids r) g = globalKey (gids rank) f) := by
  unfold removeInternal
  simp only []
  apply filter_zipIdx
  intro k hk
  rw [Nat.zero_add, Bool.eq_iff_iff, decide_eq_true_eq]
  have hfold : ∀ (l : List ℕ) (marks : ℕ → Bool),
      (l.foldl (fun marks shift => markFaces (gids rank) (skins rank)
        (sendBuffer (gids ((rank + numRanks - shift) % numRanks)) (skins ((rank + numRanks - shift) % numRanks))) marks) marks) k = true ↔
      marks k = true ∨ ∃ s ∈ l, ∃ g ∈ skins ((rank + numRanks - s) % numRanks),
        findFace (gids rank) (skins rank) (globalKey (gids ((rank + numRanks - s) % numRanks)) g) = some k := by
    intro l
    induction l with
    | nil => intro marks; simp
    | cons a l ih =>
      intro marks
      rw [List.foldl_cons, ih, markFaces_spec _ _ _ _ (h4 _)]
      simp only [List.mem_cons, exists_eq_or_imp, or_assoc]
  rw [hfold]
  simp only [Bool.false_eq_true, false_or]
  constructor
  · rintro ⟨s, hs, g, hg, hf⟩
    obtain ⟨h1, h2⟩ := (mem_sources numRanks rank _ hr).mp ⟨s, hs, rfl⟩
    exact ⟨_, h1, h2, g, hg, ((findFace_iff hd _ k hk).mp hf).symm⟩
  · rintro ⟨r, h1, h2, g, hg, he⟩
    obtain ⟨s, hs, rfl⟩ := (mem_sources numRanks rank r hr).mpr ⟨h1, h2⟩
    exact ⟨s, hs, g, hg, (findFace_iff hd _ k hk).mpr he.symm⟩

/-! ## All ranks -/

theorem union_perm (ranks : List RankMesh) (skins : List (List Face)) (g : RankMesh → List Face) (hl : skins.length = ranks.length)
    (h : ∀ i (h1 : i < ranks.length) (h2 : i < skins.length), skins[i].Perm (g ranks[i])) :
    (unionOfSkins ranks skins).Perm (ranks.flatMap fun r => (g r).map (toGlobal r)) := by
  unfold unionOfSkins
  induction ranks generalizing skins with
  | nil => simp
  | cons r ranks ih =>
    cases skins with
    | nil => simp at hl
    | cons s skins =>
      rw [List.zip_cons_cons, List.flatMap_cons, List.flatMap_cons]
      refine List.Perm.append ?_ (ih skins (by simpa using hl) ?_)
      · exact (h 0 (by simp) (by simp)).map _
      · intro i h1 h2
        exact h (i + 1) (by simpa using h1) (by simpa using h2)

/-- How often a key occurs on one rank. -/
def rankCount (key : List ℕ) (r : RankMesh) : ℕ := (allFaces r.blocks).countP fun g => decide (globalKey r.nodeGid g = key)

theorem occurrences_global (ranks : List RankMesh) (x : Face) :
    occurrences (globalFaces ranks) x = ∑ i : Fin ranks.length, rankCount (faceKey x) ranks[i] := by
  have : ∀ l : List RankMesh, occurrences (globalFaces l) x = (l.map (rankCount (faceKey x))).sum := by
    intro l
    induction l with
    | nil => rfl
    | cons r l ih =>
      have e : globalFaces (r :: l) = (allFaces r.blocks).map (toGlobal r) ++ globalFaces l := rfl
      rw [List.map_cons, List.sum_cons, ← ih, e]
      unfold occurrences
      rw [List.countP_append, List.countP_map]
      congr 1
      unfold rankCount
      apply List.countP_congr
      intro g _
      simp only [Function.comp, decide_eq_true_eq]
      rw [← faceKey_eq_iff, globalKey_toGlobal]
  rw [this, ← Fin.sum_univ_fun_getElem]
  rfl

theorem occurrences_local {r : RankMesh} (hi : Function.Injective r.nodeGid) (f : Face) :
    occurrences (allFaces r.blocks) f = rankCount (globalKey r.nodeGid f) r := by
  rw [occurrences_eq, ← List.countP_eq_length_filter]
  unfold rankCount
  apply List.countP_congr
  intro g _
  simp only [decide_eq_true_eq]
  exact (globalKey_eq_iff hi f g).symm

/-- The skin of a rank contains a face with a given key exactly if the key occurs once on the rank. -/
theorem skin_has_key {r : RankMesh} (hi : Function.Injective r.nodeGid) {skin : List Face} (h : skinBlocks r.blocks = some skin)
    (key : List ℕ) : (∃ g ∈ skin, globalKey r.nodeGid g = key) ↔ rankCount key r = 1 := by
  constructor
  · rintro ⟨g, hg, rfl⟩
    rw [← occurrences_local hi]
    exact ((mem_skin h g).mp hg).2
  · intro h1
    have hpos : 0 < (allFaces r.blocks).countP fun g => decide (globalKey r.nodeGid g = key) := by
      unfold rankCount at h1; omega
    obtain ⟨g, hg, hk⟩ := List.countP_pos_iff.mp hpos
    simp only [decide_eq_true_eq] at hk
    refine ⟨g, (mem_skin h g).mpr ⟨hg, ?_⟩, hk⟩
    rw [occurrences_local hi, hk]
    exact h1

theorem sum_split {n : ℕ} (c : Fin n → ℕ) (i : Fin n) (h2 : ∑ j, c j ≤ 2) :
    (c i = 1 ∧ ∀ j, j ≠ i → c j ≠ 1) ↔ (0 < c i ∧ ∑ j, c j = 1) := by
  have hs : c i + ∑ j ∈ Finset.univ.erase i, c j = ∑ j, c j := Finset.add_sum_erase _ _ (Finset.mem_univ i)
  have hle : ∀ j, j ≠ i → c j ≤ ∑ j ∈ Finset.univ.erase i, c j := fun j hj =>
    Finset.single_le_sum (f := c) (fun _ _ => Nat.zero_le _) (Finset.mem_erase.mpr ⟨hj, Finset.mem_univ j⟩)
  constructor
  · rintro ⟨h1, h⟩
    refine ⟨by omega, ?_⟩
    have : ∑ j ∈ Finset.univ.erase i, c j = 0 := by
      apply Finset.sum_eq_zero
      intro j hj
      have hj' := (Finset.mem_erase.mp hj).1
      have := hle j hj'
      have := h j hj'
      omega
    omega
  · rintro ⟨h1, h⟩
    refine ⟨by omega, fun j hj => ?_⟩
    have := hle j hj
    omega

/-- **C84.**  If no face of the whole mesh belongs to more than two elements, then every rank's skinning succeeds, and the
faces kept by all ranks together are, in global node numbers, exactly the faces that belong to one element of the whole
mesh, each once: faces on partition boundaries are removed on both sides and no others. -/
theorem parallel_skin (ranks : List RankMesh) (hi : ∀ r ∈ ranks, Function.Injective r.nodeGid)
    (h2 : ∀ f ∈ globalFaces ranks, occurrences (globalFaces ranks) f ≤ 2) :
    ∃ skins, parallelSkin ranks = some skins ∧ skins.length = ranks.length ∧
      (unionOfSkins ranks skins).Perm (onceOnly (globalFaces ranks)) := by
  set skin : RankMesh → List Face := fun r => (skinBlocks r.blocks).getD [] with hskin
  have hmemG : ∀ i (h : i < ranks.length), ∀ f ∈ allFaces ranks[i].blocks, toGlobal ranks[i] f ∈ globalFaces ranks := by
    intro i h f hf
    exact List.mem_flatMap.mpr ⟨ranks[i], List.getElem_mem h, List.mem_map_of_mem hf⟩
  have hcount : ∀ i (h : i < ranks.length), ∀ f ∈ allFaces ranks[i].blocks,
      occurrences (globalFaces ranks) (toGlobal ranks[i] f) = ∑ j : Fin ranks.length, rankCount (globalKey ranks[i].nodeGid f) ranks[j] := by
    intro i h f hf
    rw [occurrences_global, globalKey_toGlobal]
  have hsome : ∀ r ∈ ranks, skinBlocks r.blocks = some (skin r) := by
    intro r hr
    obtain ⟨i, h, rfl⟩ := List.getElem_of_mem hr
    cases hc : skinBlocks ranks[i].blocks with
    | some s => simp [hskin, hc]
    | none =>
      obtain ⟨f, hf, h3⟩ := (skinBlocks_spec _).1.mp hc
      rw [occurrences_local (hi _ hr)] at h3
      have h4 := h2 _ (hmemG i h f hf)
      rw [hcount i h f hf] at h4
      have : rankCount (globalKey ranks[i].nodeGid f) ranks[i] ≤ ∑ j : Fin ranks.length, rankCount (globalKey ranks[i].nodeGid f) ranks[j] :=
        Finset.single_le_sum (f := fun j : Fin ranks.length => rankCount (globalKey ranks[i].nodeGid f) ranks[j])
          (fun _ _ => Nat.zero_le _) (Finset.mem_univ (⟨i, h⟩ : Fin ranks.length))
      omega
  have hM : ranks.mapM (fun r => skinBlocks r.blocks) = some (ranks.map skin) := mapM_some ranks hsome
  -- every rank's skin and ids as total functions of the rank
  set skinAt : ℕ → List Face := fun r => match ranks[r]? with | some m => skin m | none => [] with hsa
  set gidAt : ℕ → ℕ → ℕ := fun r => match ranks[r]? with | some m => m.nodeGid | none => id with hga
  have hsend : sendOf ranks (ranks.map skin) = fun r => sendBuffer (gidAt r) (skinAt r) := by
    funext r
    simp only [sendOf, List.getElem?_map, hsa, hga]
    cases ranks[r]? <;> rfl
  refine ⟨_, by unfold parallelSkin; rw [hM]; rfl, ?_, ?_⟩
  · simp
  · have hskinAt : ∀ i (h : i < ranks.length), skinAt i = skin ranks[i] := by
      intro i h; simp only [hsa, List.getElem?_eq_getElem h]
    have hgidAt : ∀ i (h : i < ranks.length), gidAt i = ranks[i].nodeGid := by
      intro i h; simp only [hga, List.getElem?_eq_getElem h]
    have h4 : ∀ r, ∀ f ∈ skinAt r, f.nodes.length = 4 := by
      intro r f hf
      by_cases h : r < ranks.length
      · rw [hskinAt r h] at hf
        exact (face_length ((mem_skin (hsome _ (List.getElem_mem h)) f).mp hf).1).1
      · simp only [hsa, List.getElem?_eq_none (not_lt.mp h)] at hf
        exact absurd hf List.not_mem_nil
    refine (union_perm ranks _ (fun r => (allFaces r.blocks).filter fun f =>
      decide (occurrences (globalFaces ranks) (toGlobal r f) = 1)) (by simp) ?_).trans ?_
    · intro i h1 h2'
      simp only [List.getElem_map, List.getElem_zipIdx, List.getElem_zip, Nat.zero_add]
      refine (List.Perm.of_eq (congrArg (fun s => removeInternal ranks.length i s ranks[i].nodeGid (skin ranks[i])) hsend)).trans ?_
      have hr := List.getElem_mem h1
      have hinj := hi _ hr
      have hs := hsome _ hr
      obtain ⟨hp, -, hpw⟩ := (skinBlocks_spec _).2 _ hs
      have hrem := removeInternal_spec ranks.length i h1 gidAt skinAt h4 (by
        rw [hskinAt i h1, hgidAt i h1]
        refine hpw.imp ?_
        intro f g hfg he
        rw [globalKey_eq_iff hinj] at he
        exact absurd hfg (by rw [he]; exact lt_irrefl _))
      rw [hskinAt i h1, hgidAt i h1] at hrem
      rw [hrem]
      refine (hp.filter _).trans ?_
      unfold onceOnly
      rw [List.filter_filter]
      apply List.Perm.of_eq
      apply List.filter_congr
      intro f hf
      rw [Bool.eq_iff_iff]
      simp only [Bool.and_eq_true, Bool.not_eq_true', decide_eq_false_iff_not, decide_eq_true_eq]
      rw [hcount i h1 f hf, occurrences_local hinj]
      have hpos : 0 < rankCount (globalKey ranks[i].nodeGid f) ranks[i] :=
        List.countP_pos_iff.mpr ⟨f, hf, by simp⟩
      have hsp := sum_split (fun j : Fin ranks.length => rankCount (globalKey ranks[i].nodeGid f) ranks[j]) ⟨i, h1⟩ (by
        rw [← hcount i h1 f hf]; exact h2 _ (hmemG i h1 f hf))
      have hoth : (¬ ∃ r, r < ranks.length ∧ r ≠ i ∧ ∃ g ∈ skinAt r, globalKey (gidAt r) g = globalKey ranks[i].nodeGid f) ↔
          ∀ j : Fin ranks.length, j ≠ ⟨i, h1⟩ → rankCount (globalKey ranks[i].nodeGid f) ranks[j] ≠ 1 := by
        constructor
        · intro hn j hj h1'
          apply hn
          refine ⟨j, j.isLt, fun h => hj (Fin.ext h), ?_⟩
          rw [hskinAt j j.isLt, hgidAt j j.isLt]
          exact (skin_has_key (hi _ (List.getElem_mem j.isLt)) (hsome _ (List.getElem_mem j.isLt)) _).mpr h1'
        · rintro hn ⟨r, hr1, hr2, hex⟩
          rw [hskinAt r hr1, hgidAt r hr1] at hex
          exact hn ⟨r, hr1⟩ (fun h => hr2 (congrArg Fin.val h))
            ((skin_has_key (hi _ (List.getElem_mem hr1)) (hsome _ (List.getElem_mem hr1)) _).mp hex)
      rw [hoth]
      constructor
      · rintro ⟨ha, hb⟩
        exact (hsp.mp ⟨hb, ha⟩).2
      · intro hsum
        obtain ⟨ha, hb⟩ := hsp.mpr ⟨hpos, hsum⟩
        exact ⟨hb, ha⟩
    · apply List.Perm.of_eq
      conv_rhs => rw [onceOnly, globalFaces, List.filter_flatMap]
      congr 1
      funext r
      rw [List.filter_map]
      rfl

/-- **C84.**  Independence of the partition: if `whole` is any mesh whose faces (in global node numbers) are those of all
ranks, for instance the unpartitioned mesh, the ranks together keep exactly its skin. -/
theorem parallel_skin_eq_serial (ranks : List RankMesh) (hi : ∀ r ∈ ranks, Function.Injective r.nodeGid) (whole : List MeshBlock)
    (hw : (allFaces whole).Perm (globalFaces ranks)) (skin : List Face) (hs : skinBlocks whole = some skin) :
    ∃ skins, parallelSkin ranks = some skins ∧ (unionOfSkins ranks skins).Perm skin := by
  have hocc : ∀ f, occurrences (allFaces whole) f = occurrences (globalFaces ranks) f := fun f => hw.countP_eq _
  have h2 : ∀ f ∈ globalFaces ranks, occurrences (globalFaces ranks) f ≤ 2 := by
    intro f hf
    by_contra h
    have := (skinBlocks_spec whole).1.mpr ⟨f, hw.mem_iff.mpr hf, by rw [hocc]; omega⟩
    rw [this] at hs
    exact absurd hs (by simp)
  obtain ⟨skins, h1, -, h3⟩ := parallel_skin ranks hi h2
  refine ⟨skins, h1, h3.trans ?_⟩
  refine List.Perm.trans ?_ ((skinBlocks_spec whole).2 skin hs).1.symm
  unfold onceOnly
  simp_rw [hocc]
  exact (hw.filter _).symm

/-- Two ranks, one hexahedron each (the two of `twoHexes`), local nodes 0..7. -/
def twoRanks : List RankMesh :=
  [{ blocks := [{ numElem := 1, numNodePerElem := 8, conn := fun a => a, elemGids := fun _ => 40 }], nodeGid := fun a => a },
   { blocks := [{ numElem := 1, numNodePerElem := 8, conn := fun a => a, elemGids := fun _ => 30 }], nodeGid := fun a => a + 4 }]

/-- The hypotheses of `parallel_skin_eq_serial` are met, and five faces are kept on each rank. -/
example : (∀ r ∈ twoRanks, Function.Injective r.nodeGid) ∧ (allFaces [twoHexes]).Perm (globalFaces twoRanks) ∧
    (parallelSkin twoRanks).map (fun s => s.map List.length) = some [5, 5] := by
  refine ⟨?_, List.Perm.of_eq (by decide +kernel), by decide +kernel⟩
  intro r hr
  simp only [twoRanks, List.mem_cons, List.not_mem_nil, or_false] at hr
  rcases hr with rfl | rfl
  · intro a b h; exact h
  · intro a b h
    have : a + 4 = b + 4 := h
    omega

/-- Two of three elements that share the face 4 5 6 7. -/
def threeA : MeshBlock where
  numElem := 2
  numNodePerElem := 8
  conn := fun a => [0, 1, 2, 3, 4, 5, 6, 7, 4, 5, 6, 7, 8, 9, 10, 11].getD a 0
  elemGids := fun i => i

/-- The third element; its local nodes 0..3 are the global nodes 4..7. -/
def threeB : MeshBlock where
  numElem := 1
  numNodePerElem := 8
  conn := fun a => a
  elemGids := fun _ => 2

/-- Three elements on a common face, two of them on rank 0: the serial code aborts, the ranks do not notice, and rank 1 keeps
the internal face. -/
def threeOnAFace : List RankMesh :=
  [⟨[threeA], fun a => a⟩, ⟨[threeB], fun a => if a < 4 then a + 4 else a + 8⟩]

/-- Without the hypothesis the ranks disagree with the serial code. -/
theorem parallel_abort_missed : (∃ f ∈ globalFaces threeOnAFace, 2 < occurrences (globalFaces threeOnAFace) f) ∧
    (parallelSkin threeOnAFace).map (fun s => s.map List.length) = some [10, 6] := by
  decide +kernel

end NimbleSM.Contact
