import Verif.Contact.Skin
import Mathlib.Data.List.Perm.Basic
import Mathlib.Data.List.Nodup
import Mathlib.Data.List.Count
import Mathlib.Data.List.Induction

/-! # C11: the skin of the contact blocks consists of the faces that occur once -/

namespace NimbleSM.Contact

/-! ## Specification -/

/-- The same face, whichever element and whichever starting node and orientation it is listed with. -/
def SameFace (f g : Face) : Prop := g.nodes.Perm f.nodes

instance (f g : Face) : Decidable (SameFace f g) := by unfold SameFace; infer_instance

/-- How often a face occurs in a list of faces. -/
def occurrences (F : List Face) (f : Face) : ℕ := F.countP fun g => decide (SameFace f g)

/-- The faces that occur exactly once. -/
def onceOnly (F : List Face) : List Face := F.filter fun f => decide (occurrences F f = 1)

theorem mapM_some {α β : Type*} {f : α → Option β} {g : α → β} (l : List α) (h : ∀ x ∈ l, f x = some (g x)) :
    l.mapM f = some (l.map g) := by
  induction l with
  | nil => rfl
  | cons a l ih =>
    rw [List.mapM_cons, h a List.mem_cons_self, ih fun x hx => h x (List.mem_cons_of_mem _ hx)]
    rfl

/-! ## Keys -/

theorem sort_eq_iff (a b : List ℕ) : a.insertionSort (· ≤ ·) = b.insertionSort (· ≤ ·) ↔ a.Perm b := by
  constructor
  · intro h
    exact (List.perm_insertionSort _ a).symm.trans (h ▸ List.perm_insertionSort _ b)
  · intro h
    exact ((List.perm_insertionSort _ a).trans (h.trans (List.perm_insertionSort _ b).symm)).eq_of_pairwise'
      (List.pairwise_insertionSort _ a) (List.pairwise_insertionSort _ b)

theorem faceKey_eq_iff (f g : Face) : faceKey g = faceKey f ↔ SameFace f g := sort_eq_iff _ _

theorem occurrences_eq (F : List Face) (f : Face) : occurrences F f = (F.filter fun g => decide (faceKey g = faceKey f)).length := by
  unfold occurrences
  rw [List.countP_eq_length_filter]
  congr 1
  apply List.filter_congr
  intro g _
  simp only [faceKey_eq_iff]

/-! ## The map -/

/-- The map is in increasing order of the keys. -/
def Ordered (m : List Entry) : Prop := m.Pairwise fun a b => a.key < b.key

/-- The entry with a key. -/
def lookup (m : List Entry) (k : List ℕ) : Option Entry := m.find? fun e => decide (e.key = k)

theorem lookup_none_of_lt {m : List Entry} {k : List ℕ} (h : ∀ e ∈ m, k < e.key) : lookup m k = none := by
  unfold lookup
  rw [List.find?_eq_none]
  intro e he
  simp only [decide_eq_true_eq]
  exact fun hk => absurd (h e he) (by rw [hk]; exact lt_irrefl _)

theorem addFace_key (f : Face) (m : List Entry) (e : Entry) (he : e ∈ addFace f m) :
    e.key = faceKey f ∨ ∃ e' ∈ m, e'.key = e.key := by
  induction m with
  | nil =>
    simp only [addFace, List.mem_singleton] at he
    left; rw [he]
  | cons a m ih =>
    simp only [addFace] at he
    split_ifs at he with h1 h2
    · rcases List.mem_cons.mp he with h | h
      · left; rw [h, h1]
      · exact Or.inr ⟨e, List.mem_cons_of_mem _ h, rfl⟩
    · rcases List.mem_cons.mp he with h | h
      · left; rw [h]
      · exact Or.inr ⟨e, h, rfl⟩
    · rcases List.mem_cons.mp he with h | h
      · exact Or.inr ⟨a, List.mem_cons_self, by rw [h]⟩
      · rcases ih h with h' | ⟨e', he', hk⟩
        · exact Or.inl h'
        · exact Or.inr ⟨e', List.mem_cons_of_mem _ he', hk⟩

theorem addFace_ordered (f : Face) (m : List Entry) (hm : Ordered m) : Ordered (addFace f m) := by
  induction m with
  | nil => simp [addFace, Ordered]
  | cons a m ih =>
    obtain ⟨ha, hm'⟩ := List.pairwise_cons.mp hm
    simp only [addFace]
    split_ifs with h1 h2
    · exact List.pairwise_cons.mpr ⟨fun b hb => ha b hb, hm'⟩
    · refine List.pairwise_cons.mpr ⟨fun b hb => ?_, hm⟩
      rcases List.mem_cons.mp hb with h | h
      · rw [h]; exact h2
      · exact lt_trans h2 (ha b h)
    · refine List.pairwise_cons.mpr ⟨fun b hb => ?_, ih hm'⟩
      rcases addFace_key f m b hb with h | ⟨e', he', hk⟩
      · rw [h]
        exact lt_of_le_of_ne (not_lt.mp h2) (fun hh => h1 hh.symm)
      · rw [← hk]; exact ha e' he'

theorem lookup_addFace (f : Face) (m : List Entry) (hm : Ordered m) (k : List ℕ) :
    lookup (addFace f m) k = if faceKey f = k then
      some (match lookup m k with
        | none => ⟨k, 1, f⟩
        | some e => { e with count := e.count + 1 }) else lookup m k := by
  induction m with
  | nil =>
    simp only [addFace, lookup, List.find?_cons, List.find?_nil]
    by_cases h : faceKey f = k
    · simp [h]
    · simp [h]
  | cons a m ih =>
    obtain ⟨ha, hm'⟩ := List.pairwise_cons.mp hm
    simp only [addFace]
    split_ifs with h1 h2 h3 h4 h5
    · subst h2
      simp [lookup, h1]
    · have : ¬ a.key = k := fun h => h2 (h1.trans h)
      simp [lookup, this]
    · subst h4
      have hn : lookup (a :: m) (faceKey f) = none := by
        apply lookup_none_of_lt
        intro e he
        rcases List.mem_cons.mp he with h | h
        · rw [h]; exact h3
        · exact lt_trans h3 (ha e h)
      rw [hn]
      simp [lookup]
    · simp [lookup, h4]
    · have hak : ¬ a.key = k := fun h => h1 (h5.trans h.symm)
      have := ih hm'
      rw [if_pos h5] at this
      simp only [lookup, List.find?_cons, hak, decide_false] at this ⊢
      exact this
    · have := ih hm'
      rw [if_neg h5] at this
      simp only [lookup, List.find?_cons] at this ⊢
      split <;> [rfl; exact this]

/-- What the map holds for a key after the faces `F` have been visited. -/
def summary (k : List ℕ) : List Face → Option Entry
  | [] => none
  | g :: gs => some ⟨k, gs.length + 1, g⟩

theorem build_spec (F : List Face) :
    let m := F.foldl (fun m f => addFace f m) []
    Ordered m ∧ ∀ k, lookup m k = summary k (F.filter fun g => decide (faceKey g = k)) := by
  induction F using List.reverseRecOn with
  | nil => exact ⟨List.Pairwise.nil, fun k => rfl⟩
  | append_singleton F f ih =>
    obtain ⟨ho, hl⟩ := ih
    simp only [List.foldl_append, List.foldl_cons, List.foldl_nil]
    refine ⟨addFace_ordered f _ ho, fun k => ?_⟩
    rw [lookup_addFace f _ ho, hl k, List.filter_append]
    by_cases h : faceKey f = k
    · rw [if_pos h]
      simp only [List.filter_cons, h, decide_true, if_true, List.filter_nil]
      cases F.filter fun g => decide (faceKey g = k) with
      | nil => rfl
      | cons g gs => simp [summary]
    · rw [if_neg h]
      simp [h]

theorem mem_iff_lookup {m : List Entry} (hm : Ordered m) (e : Entry) : e ∈ m ↔ lookup m e.key = some e := by
  induction m with
  | nil => simp [lookup]
  | cons a m ih =>
    obtain ⟨ha, hm'⟩ := List.pairwise_cons.mp hm
    constructor
    · intro h
      rcases List.mem_cons.mp h with h | h
      · subst h; simp [lookup]
      · have hne : ¬ a.key = e.key := fun hk => absurd (ha e h) (by rw [hk]; exact lt_irrefl _)
        have := (ih hm').mp h
        simp only [lookup, List.find?_cons, hne, decide_false] at this ⊢
        exact this
    · intro h
      unfold lookup at h
      exact List.mem_of_find?_eq_some h

/-! ## The collection -/

theorem collectSkin_spec (m : List Entry) :
    collectSkin m = if ∀ e ∈ m, e.count = 1 ∨ e.count = 2 then
      some ((m.filter fun e => decide (e.count = 1)).map Entry.face) else none := by
  induction m with
  | nil => simp [collectSkin]
  | cons a m ih =>
    simp only [collectSkin]
    by_cases h1 : a.count = 1
    · rw [if_pos h1, ih]
      by_cases h : ∀ e ∈ m, e.count = 1 ∨ e.count = 2
      · rw [if_pos h, if_pos (by simp [h1]; exact h)]
        simp [h1]
      · rw [if_neg h, if_neg (by simp only [List.forall_mem_cons, not_and]; exact fun _ => h)]
        rfl
    · rw [if_neg h1]
      by_cases h2 : a.count = 2
      · rw [if_neg (by simpa using h2), ih]
        by_cases h : ∀ e ∈ m, e.count = 1 ∨ e.count = 2
        · rw [if_pos h, if_pos (by simp [h2]; exact h)]
          simp [h1]
        · rw [if_neg h, if_neg (by simp only [List.forall_mem_cons, not_and]; exact fun _ => h)]
      · rw [if_pos h2, if_neg]
        simp only [List.forall_mem_cons, not_and]
        intro h
        exact absurd h (by simp [h1, h2])

theorem summary_some {k : List ℕ} {l : List Face} {e : Entry} (h : summary k l = some e) :
    e.key = k ∧ e.count = l.length ∧ e.face ∈ l := by
  cases l with
  | nil => simp [summary] at h
  | cons g gs =>
    simp only [summary, Option.some.injEq] at h
    subst h
    simp

theorem skin_core (F : List Face) :
    let m := F.foldl (fun m f => addFace f m) []
    (∀ e ∈ m, e.key = faceKey e.face ∧ e.count = occurrences F e.face ∧ e.face ∈ F) ∧
    (∀ f ∈ F, ∃ e ∈ m, e.key = faceKey f ∧ e.count = occurrences F f) := by
  obtain ⟨ho, hl⟩ := build_spec F
  constructor
  · intro e he
    have h := (mem_iff_lookup ho e).mp he
    rw [hl] at h
    obtain ⟨-, h2, h3⟩ := summary_some h
    have hk := (List.mem_filter.mp h3).2
    simp only [decide_eq_true_eq] at hk
    refine ⟨hk.symm, ?_, (List.mem_filter.mp h3).1⟩
    rw [h2, occurrences_eq, hk]
  · intro f hf
    have h := hl (faceKey f)
    have hmem : f ∈ F.filter fun g => decide (faceKey g = faceKey f) := List.mem_filter.mpr ⟨hf, by simp⟩
    cases hc : F.filter fun g => decide (faceKey g = faceKey f) with
    | nil => rw [hc] at hmem; exact absurd hmem List.not_mem_nil
    | cons g gs =>
      rw [hc] at h
      simp only [summary] at h
      unfold lookup at h
      refine ⟨_, List.mem_of_find?_eq_some h, rfl, ?_⟩
      rw [occurrences_eq, hc]
      rfl

theorem onceOnly_nodup (F : List Face) : (onceOnly F).Nodup := by
  rw [List.nodup_iff_count_le_one]
  intro f
  by_cases h : f ∈ onceOnly F
  · have h1 := (List.mem_filter.mp h).2
    simp only [decide_eq_true_eq] at h1
    have h2 : (onceOnly F).count f ≤ F.count f := List.Sublist.count_le f List.filter_sublist
    have h3 : F.count f ≤ occurrences F f := by
      unfold occurrences List.count
      apply List.countP_mono_left
      intro g _ hg
      have : g = f := by simpa using hg
      subst this
      simp [SameFace]
    omega
  · rw [List.count_eq_zero_of_not_mem h]; omega

theorem once_unique {F : List Face} {f g : Face} (hf : f ∈ F) (hg : g ∈ F) (hk : faceKey g = faceKey f)
    (h : occurrences F f = 1) : g = f := by
  rw [occurrences_eq] at h
  obtain ⟨a, ha⟩ := List.length_eq_one_iff.mp h
  have h1 : f ∈ F.filter fun x => decide (faceKey x = faceKey f) := List.mem_filter.mpr ⟨hf, by simp⟩
  have h2 : g ∈ F.filter fun x => decide (faceKey x = faceKey f) := List.mem_filter.mpr ⟨hg, by simp [hk]⟩
  rw [ha, List.mem_singleton] at h1 h2
  rw [h1, h2]

/-- **C11.**  `SkinBlocks` aborts exactly if some face occurs more than twice among the faces of the selected blocks;
otherwise it returns exactly the faces that occur once, each once, as listed by their element (node order, element id and
ordinal), in increasing order of the sorted node ids. -/
theorem skinBlocks_spec (blocks : List MeshBlock) :
    (skinBlocks blocks = none ↔ ∃ f ∈ allFaces blocks, 2 < occurrences (allFaces blocks) f) ∧
    ∀ skin, skinBlocks blocks = some skin →
      skin.Perm (onceOnly (allFaces blocks)) ∧ skin.Nodup ∧ skin.Pairwise fun f g => faceKey f < faceKey g := by
  set F := allFaces blocks with hF
  obtain ⟨ho, -⟩ := build_spec F
  obtain ⟨c1, c2⟩ := skin_core F
  set m := F.foldl (fun m f => addFace f m) [] with hm
  have hs : skinBlocks blocks = collectSkin m := rfl
  rw [hs, collectSkin_spec]
  constructor
  · constructor
    · intro h
      have hn : ¬ ∀ e ∈ m, e.count = 1 ∨ e.count = 2 := by
        intro hall; rw [if_pos hall] at h; exact absurd h (by simp)
      push Not at hn
      obtain ⟨e, he, h1, h2⟩ := hn
      obtain ⟨hk, hc, hmem⟩ := c1 e he
      refine ⟨e.face, hmem, ?_⟩
      have hpos : 0 < occurrences F e.face := List.countP_pos_iff.mpr ⟨e.face, hmem, by simp [SameFace]⟩
      omega
    · rintro ⟨f, hf, h⟩
      obtain ⟨e, he, -, hc⟩ := c2 f hf
      rw [if_neg]
      intro hall
      have := hall e he
      omega
  · intro skin hskin
    split_ifs at hskin with hall
    rw [Option.some.injEq] at hskin
    subst hskin
    have hpw : ((m.filter fun e => decide (e.count = 1)).map Entry.face).Pairwise fun f g => faceKey f < faceKey g := by
      rw [List.pairwise_map]
      refine List.Pairwise.imp_of_mem ?_ (List.Pairwise.filter _ ho)
      intro a b ha hb hab
      rw [← (c1 a (List.mem_of_mem_filter ha)).1, ← (c1 b (List.mem_of_mem_filter hb)).1]
      exact hab
    have hnd : ((m.filter fun e => decide (e.count = 1)).map Entry.face).Nodup :=
      hpw.imp fun h he => absurd h (by rw [he]; exact lt_irrefl _)
    refine ⟨?_, hnd, hpw⟩
    rw [List.perm_ext_iff_of_nodup hnd (onceOnly_nodup F)]
    intro f
    simp only [List.mem_map, List.mem_filter, onceOnly, decide_eq_true_eq]
    constructor
    · rintro ⟨e, ⟨he, hc⟩, rfl⟩
      obtain ⟨-, hc', hmem⟩ := c1 e he
      exact ⟨hmem, by omega⟩
    · rintro ⟨hf, hocc⟩
      obtain ⟨e, he, hk, hc⟩ := c2 f hf
      obtain ⟨hk', -, hmem⟩ := c1 e he
      exact ⟨e, ⟨he, by omega⟩, once_unique hf hmem (hk'.symm.trans hk) hocc⟩

/-- Membership form of C11. -/
theorem mem_skin {blocks : List MeshBlock} {skin : List Face} (h : skinBlocks blocks = some skin) (f : Face) :
    f ∈ skin ↔ f ∈ allFaces blocks ∧ occurrences (allFaces blocks) f = 1 := by
  rw [((skinBlocks_spec blocks).2 skin h).1.mem_iff]
  simp [onceOnly]

/-- **C11.**  The faces looked at: face `o` of element `i` of a selected block is the quadrilateral with the element's nodes
in the order of the Exodus convention, the element's 1-based id and the ordinal `o`. -/
theorem mem_allFaces (blocks : List MeshBlock) (f : Face) :
    f ∈ allFaces blocks ↔ ∃ b ∈ blocks, ∃ i < b.numElem,
      let n := fun a => b.conn (i * b.numNodePerElem + a)
      f = ⟨[n 0, n 1, n 5, n 4], b.elemGids i + 1, 0⟩ ∨ f = ⟨[n 1, n 2, n 6, n 5], b.elemGids i + 1, 1⟩ ∨
      f = ⟨[n 2, n 3, n 7, n 6], b.elemGids i + 1, 2⟩ ∨ f = ⟨[n 0, n 4, n 7, n 3], b.elemGids i + 1, 3⟩ ∨
      f = ⟨[n 0, n 3, n 2, n 1], b.elemGids i + 1, 4⟩ ∨ f = ⟨[n 4, n 5, n 6, n 7], b.elemGids i + 1, 5⟩ := by
  simp only [allFaces, List.mem_flatMap, List.mem_range]
  constructor
  · rintro ⟨b, hb, i, hi, hf⟩
    refine ⟨b, hb, i, hi, ?_⟩
    simpa [elemFaces, faceTable, List.zipIdx] using hf
  · rintro ⟨b, hb, i, hi, hf⟩
    refine ⟨b, hb, i, hi, ?_⟩
    simpa [elemFaces, faceTable, List.zipIdx] using hf

theorem face_length {blocks : List MeshBlock} {f : Face} (h : f ∈ allFaces blocks) : f.nodes.length = 4 ∧ f.ord < 6 := by
  obtain ⟨b, -, i, -, h⟩ := (mem_allFaces blocks f).mp h
  rcases h with h | h | h | h | h | h <;> subst h <;> simp

/-- Listing the blocks in another order gives the same skin. -/
theorem skinBlocks_order {blocks blocks' : List MeshBlock} (h : blocks.Perm blocks') : skinBlocks blocks = skinBlocks blocks' := by
  have hp : (allFaces blocks).Perm (allFaces blocks') := h.flatMap_right _
  have hocc : ∀ f, occurrences (allFaces blocks) f = occurrences (allFaces blocks') f := fun f => hp.countP_eq _
  cases h1 : skinBlocks blocks with
  | none =>
    obtain ⟨f, hf, ho⟩ := (skinBlocks_spec blocks).1.mp h1
    exact ((skinBlocks_spec blocks').1.mpr ⟨f, hp.mem_iff.mp hf, by rw [← hocc]; exact ho⟩).symm
  | some s =>
    cases h2 : skinBlocks blocks' with
    | none =>
      obtain ⟨f, hf, ho⟩ := (skinBlocks_spec blocks').1.mp h2
      rw [(skinBlocks_spec blocks).1.mpr ⟨f, hp.mem_iff.mpr hf, by rw [hocc]; exact ho⟩] at h1
      exact absurd h1 (by simp)
    | some s' =>
      obtain ⟨p1, -, w1⟩ := (skinBlocks_spec blocks).2 s h1
      obtain ⟨p2, -, w2⟩ := (skinBlocks_spec blocks').2 s' h2
      have hss : s.Perm s' := by
        refine p1.trans (List.Perm.trans ?_ p2.symm)
        unfold onceOnly
        simp_rw [hocc]
        exact hp.filter _
      rw [Option.some.injEq]
      apply hss.eq_of_pairwise ?_ w1 w2
      intro a b _ _ hab hba
      exact absurd (lt_trans hab hba) (lt_irrefl _)

/-- A block listed twice has no skin: every face is found twice, or the routine aborts. -/
theorem skin_of_repeated_block (b : MeshBlock) : skinBlocks [b, b] = none ∨ skinBlocks [b, b] = some [] := by
  cases h : skinBlocks [b, b] with
  | none => exact Or.inl rfl
  | some s =>
    right
    rw [Option.some.injEq, List.eq_nil_iff_forall_not_mem]
    intro f hf
    obtain ⟨hm, ho⟩ := (mem_skin h f).mp hf
    have e : allFaces [b, b] = allFaces [b] ++ allFaces [b] := by simp [allFaces]
    have hm' : f ∈ allFaces [b] := by rw [e] at hm; simpa using hm
    have : occurrences (allFaces [b, b]) f = occurrences (allFaces [b]) f + occurrences (allFaces [b]) f := by
      rw [e]; exact List.countP_append
    have hpos : 0 < occurrences (allFaces [b]) f := List.countP_pos_iff.mpr ⟨f, hm', by simp [SameFace]⟩
    omega

/-- Two hexahedra that share a face: nodes 0..7 and 4..11. -/
def twoHexes : MeshBlock where
  numElem := 2
  numNodePerElem := 8
  conn := fun a => [0, 1, 2, 3, 4, 5, 6, 7, 4, 5, 6, 7, 8, 9, 10, 11].getD a 0
  elemGids := fun i => [40, 30].getD i 0

/-- The skin of two hexahedra: ten faces; the shared face 4 5 6 7 is missing. -/
theorem demo_skin : (skinBlocks [twoHexes]).map (fun s => s.map fun f => (f.nodes, f.elem, f.ord)) = some
    [([0, 3, 2, 1], 41, 4), ([0, 1, 5, 4], 41, 0), ([0, 4, 7, 3], 41, 3), ([1, 2, 6, 5], 41, 1), ([2, 3, 7, 6], 41, 2),
     ([4, 5, 9, 8], 31, 0), ([4, 8, 11, 7], 31, 3), ([5, 6, 10, 9], 31, 1), ([6, 7, 11, 10], 31, 2), ([8, 9, 10, 11], 31, 5)] := by
  decide +kernel

/-- The same two elements listed twice: the shared face is found four times, abort. -/
example : skinBlocks [twoHexes, twoHexes] = none := by decide +kernel

end NimbleSM.Contact
