import Verif.Contact.SkinProps
import Mathlib.Tactic.Linarith
import Mathlib.Tactic.Ring

/-! # C12: contact entity ids -/

namespace NimbleSM.Contact

/-- The bits of an id. -/
theorem entityId_toNat {offset elem ord tri : ℕ} (h : elem + offset < 2 ^ 26) (ho : ord < 8) (ht : tri < 4) :
    (entityId offset elem ord tri).toNat = 32 * (elem + offset) + 4 * ord + tri := by
  have h1 : ((BitVec.ofNat 32 elem + BitVec.ofNat 32 offset) <<< 5).toNat = (elem + offset) * 2 ^ 5 := by
    rw [BitVec.toNat_shiftLeft, ← BitVec.ofNat_add, BitVec.toNat_ofNat, Nat.shiftLeft_eq,
      Nat.mod_eq_of_lt (a := elem + offset) (by omega), Nat.mod_eq_of_lt (by omega)]
  have h2 : (BitVec.ofNat 32 ord <<< 2).toNat = ord * 2 ^ 2 := by
    rw [BitVec.toNat_shiftLeft, BitVec.toNat_ofNat, Nat.shiftLeft_eq, Nat.mod_eq_of_lt (a := ord) (by omega),
      Nat.mod_eq_of_lt (by omega)]
  have h3 : (BitVec.ofNat 32 tri).toNat = tri := by
    rw [BitVec.toNat_ofNat, Nat.mod_eq_of_lt (by omega)]
  unfold entityId
  rw [BitVec.toNat_or, BitVec.toNat_or, h1, h2, h3]
  have e1 : (elem + offset) * 2 ^ 5 ||| ord * 2 ^ 2 = 2 ^ 5 * (elem + offset) + ord * 2 ^ 2 := by
    rw [mul_comm, Nat.two_pow_add_eq_or_of_lt (by omega)]
  have e2 : 2 ^ 5 * (elem + offset) + ord * 2 ^ 2 ||| tri = 2 ^ 5 * (elem + offset) + ord * 2 ^ 2 + tri := by
    have : 2 ^ 5 * (elem + offset) + ord * 2 ^ 2 = 2 ^ 2 * (8 * (elem + offset) + ord) := by ring
    rw [this, Nat.two_pow_add_eq_or_of_lt (by omega)]
  rw [e1, e2]
  omega

/-- The value of the `int`. -/
theorem entityId_toInt {offset elem ord tri : ℕ} (h : elem + offset < 2 ^ 26) (ho : ord < 8) (ht : tri < 4) :
    (entityId offset elem ord tri).toInt = 32 * (elem + offset) + 4 * ord + tri := by
  have hn := entityId_toNat h ho ht
  rw [BitVec.toInt_eq_toNat_of_lt (by rw [hn]; omega), hn]
  push_cast
  ring

/-- **C12.**  As long as `elem + offset < 2^26` (the id does not overflow), the element id, the face ordinal and the
triangle ordinal can be read off the id. -/
theorem entityId_decode {offset elem ord tri : ℕ} (h : elem + offset < 2 ^ 26) (ho : ord < 6) (ht : tri < 4) :
    let id := (entityId offset elem ord tri).toInt
    0 ≤ id ∧ id / 32 - offset = elem ∧ id / 4 % 8 = ord ∧ id % 4 = tri := by
  simp only []
  rw [entityId_toInt h (by omega) ht]
  refine ⟨by positivity, by omega, by omega, by omega⟩

/-- **C12.**  Ids are equal exactly for the same element, face and triangle. -/
theorem entityId_injective {offset elem ord tri elem' ord' tri' : ℕ} (h : elem + offset < 2 ^ 26) (h' : elem' + offset < 2 ^ 26)
    (ho : ord < 6) (ho' : ord' < 6) (ht : tri < 4) (ht' : tri' < 4) :
    entityId offset elem ord tri = entityId offset elem' ord' tri' ↔ elem = elem' ∧ ord = ord' ∧ tri = tri' := by
  constructor
  · intro he
    have := congrArg BitVec.toNat he
    rw [entityId_toNat h (by omega) ht, entityId_toNat h' (by omega) ht'] at this
    refine ⟨by omega, by omega, by omega⟩
  · rintro ⟨rfl, rfl, rfl⟩; rfl

/-- **C12.**  Ids of contact faces differ from the ids of contact nodes, which are `global node id + 1`
(nimble_contact_manager.cc:321), because the offset is the largest global node id. -/
theorem entityId_ne_node {offset elem ord tri node : ℕ} (h : elem + offset < 2 ^ 26) (he : 0 < elem) (ho : ord < 6) (ht : tri < 4)
    (hn : node ≤ offset) : (entityId offset elem ord tri).toInt ≠ (node : ℤ) + 1 := by
  rw [entityId_toInt h (by omega) ht]
  omega

/-- The ids of the four triangles of every face of a skin. -/
def triangleIds (offset : ℕ) (skin : List Face) : List (BitVec 32) :=
  skin.flatMap fun f => [0, 1, 2, 3].map fun t => entityId offset f.elem f.ord t

/-- Distinct elements of the selected blocks have distinct global ids. -/
def DistinctElements (blocks : List MeshBlock) : Prop :=
  (blocks.flatMap fun b => (List.range b.numElem).map b.elemGids).Nodup

theorem elemFaces_nodup (b : MeshBlock) (i : ℕ) : ((elemFaces b i).map fun f => (f.elem, f.ord)).Nodup := by
  simp [elemFaces, faceTable, List.zipIdx]

theorem elemFaces_elem {b : MeshBlock} {i : ℕ} {f : Face} (h : f ∈ elemFaces b i) : f.elem = b.elemGids i + 1 := by
  simp only [elemFaces, List.mem_map] at h
  obtain ⟨p, -, rfl⟩ := h
  rfl

theorem faces_distinct {blocks : List MeshBlock} (hd : DistinctElements blocks) :
    ((allFaces blocks).map fun f => (f.elem, f.ord)).Nodup := by
  obtain ⟨L, hL⟩ : ∃ L, L = blocks.flatMap fun b => (List.range b.numElem).map fun i => (b, i) := ⟨_, rfl⟩
  have e1 : allFaces blocks = L.flatMap fun p => elemFaces p.1 p.2 := by
    rw [hL, List.flatMap_assoc]
    unfold allFaces
    congr 1
    funext b
    rw [List.flatMap_map]
  have e2 : (blocks.flatMap fun b => (List.range b.numElem).map b.elemGids) = L.map fun p => p.1.elemGids p.2 := by
    rw [hL, List.map_flatMap]
    congr 1
    funext b
    rw [List.map_map]
    rfl
  unfold DistinctElements at hd
  rw [e2] at hd
  rw [e1]
  clear e1 e2 hL
  induction L with
  | nil => simp
  | cons p L ih =>
    rw [List.map_cons, List.nodup_cons] at hd
    rw [List.flatMap_cons, List.map_append, List.nodup_append]
    refine ⟨elemFaces_nodup _ _, ih hd.2, ?_⟩
    intro x hx y hy hxy
    subst hxy
    obtain ⟨f, hf, rfl⟩ := List.mem_map.mp hx
    obtain ⟨g, hg, hgf⟩ := List.mem_map.mp hy
    obtain ⟨q, hq, hg'⟩ := List.mem_flatMap.mp hg
    have h1 := elemFaces_elem hf
    have h2 := elemFaces_elem hg'
    have h3 : g.elem = f.elem := congrArg Prod.fst hgf
    apply hd.1
    exact List.mem_map.mpr ⟨q, hq, by omega⟩

/-- **C12.**  All contact triangles made from the skin of a mesh whose elements have distinct global ids have different ids. -/
theorem triangle_ids_distinct {blocks : List MeshBlock} {skin : List Face} (h : skinBlocks blocks = some skin)
    (hd : DistinctElements blocks) (offset : ℕ)
    (hr : ∀ b ∈ blocks, ∀ i < b.numElem, b.elemGids i + 1 + offset < 2 ^ 26) : (triangleIds offset skin).Nodup := by
  have hfd := faces_distinct hd
  have hmem : ∀ f ∈ skin, f ∈ allFaces blocks := fun f hf => ((mem_skin h f).mp hf).1
  have hlt : ∀ f ∈ allFaces blocks, f.elem + offset < 2 ^ 26 ∧ f.ord < 6 := by
    intro f hf
    refine ⟨?_, (face_length hf).2⟩
    obtain ⟨b, hb, i, hi, hf⟩ := (mem_allFaces blocks f).mp hf
    have := hr b hb i hi
    rcases hf with h | h | h | h | h | h <;> subst h <;> exact this
  have hsn : skin.Nodup := ((skinBlocks_spec blocks).2 skin h).2.1
  have hinj : ∀ f ∈ skin, ∀ g ∈ skin, f.elem = g.elem → f.ord = g.ord → f = g := by
    intro f hf g hg he ho
    exact List.inj_on_of_nodup_map hfd (hmem f hf) (hmem g hg) (by simp [he, ho])
  unfold triangleIds
  clear h hfd
  induction skin with
  | nil => simp
  | cons f skin ih =>
    rw [List.flatMap_cons, List.nodup_append]
    have hf := hlt f (hmem f List.mem_cons_self)
    obtain ⟨hfs, hsn'⟩ := List.nodup_cons.mp hsn
    refine ⟨?_, ih (fun g hg => hmem g (List.mem_cons_of_mem _ hg)) hsn'
      (fun a ha b hb => hinj a (List.mem_cons_of_mem _ ha) b (List.mem_cons_of_mem _ hb)), ?_⟩
    · refine List.Nodup.map_on ?_ (by decide)
      intro x hx y hy hxy
      have hx' : x < 4 := by simp at hx; omega
      have hy' : y < 4 := by simp at hy; omega
      exact ((entityId_injective hf.1 hf.1 hf.2 hf.2 hx' hy').mp hxy).2.2
    · intro x hx y hy hxy
      subst hxy
      obtain ⟨t, ht, rfl⟩ := List.mem_map.mp hx
      obtain ⟨g, hg, hy'⟩ := List.mem_flatMap.mp hy
      obtain ⟨t', ht', he⟩ := List.mem_map.mp hy'
      have htt : t < 4 := by simp at ht; omega
      have htt' : t' < 4 := by simp at ht'; omega
      have hg' := hlt g (hmem g (List.mem_cons_of_mem _ hg))
      obtain ⟨a1, a2, -⟩ := (entityId_injective hg'.1 hf.1 hg'.2 hf.2 htt' htt).mp he
      exact hfs (hinj g (List.mem_cons_of_mem _ hg) f List.mem_cons_self a1 a2 ▸ hg)

/-- The limit is sharp: with `elem + offset = 2^26` the id is negative. -/
theorem entityId_negative {offset elem : ℕ} (h : elem + offset = 2 ^ 26) : (entityId offset elem 0 0).toInt < 0 := by
  unfold entityId
  rw [← BitVec.ofNat_add, h]
  decide +kernel

/-- Beyond the limit different elements have the same id. -/
theorem entityId_collision (offset elem ord tri : ℕ) : entityId offset (elem + 2 ^ 27) ord tri = entityId offset elem ord tri := by
  have key : (BitVec.ofNat 32 (elem + 2 ^ 27) + BitVec.ofNat 32 offset) <<< 5 = (BitVec.ofNat 32 elem + BitVec.ofNat 32 offset) <<< 5 := by
    apply BitVec.eq_of_toNat_eq
    rw [← BitVec.ofNat_add, ← BitVec.ofNat_add, BitVec.toNat_shiftLeft, BitVec.toNat_shiftLeft, BitVec.toNat_ofNat,
      BitVec.toNat_ofNat, Nat.shiftLeft_eq, Nat.shiftLeft_eq]
    omega
  unfold entityId
  rw [key]

/-- The demo mesh meets the hypotheses of `triangle_ids_distinct`; its first id. -/
example : DistinctElements [twoHexes] ∧ (∀ b ∈ [twoHexes], ∀ i < b.numElem, b.elemGids i + 1 + 11 < 2 ^ 26) ∧
    (entityId 11 41 4 2).toInt = 1682 := by
  refine ⟨by unfold DistinctElements; decide, ?_, by decide⟩
  intro b hb i hi
  rw [List.mem_singleton] at hb
  subst hb
  have : i = 0 ∨ i = 1 := by have : i < 2 := hi; omega
  rcases this with rfl | rfl <;> decide

end NimbleSM.Contact
