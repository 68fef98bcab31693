import Verif.Mpi.TpetraMatrix

/-!
# C126: the Tpetra tangent stiffness matrix
-/

open scoped BigOperators

namespace NimbleSM.Tpetra

/-! ## Specification -/

/-- Degrees of freedom `a` and `b` are coupled: they are of nodes of one element. -/
def Coupled (dim : ℕ) (ids : ℕ → ℤ) (blocks : List BlockConn) (a b : ℤ) : Prop :=
  ∃ block ∈ blocks, ∃ element ∈ block, ∃ i ∈ element, ∃ j ∈ element, ∃ k l : ℕ, k < dim ∧ l < dim ∧ a = ids i * dim + k ∧ b = ids j * dim + l

/-! ## Which entries are allocated -/

theorem mem_foldl_insert {α β : Type*} [DecidableEq β] (l : List α) (f : Finset β → α → Finset β) (P : α → β → Prop)
    (hf : ∀ s a x, x ∈ f s a ↔ x ∈ s ∨ P a x) (s : Finset β) (x : β) : x ∈ l.foldl f s ↔ x ∈ s ∨ ∃ a ∈ l, P a x := by
  induction l generalizing s with
  | nil => simp
  | cons a l ih => rw [List.foldl_cons, ih, hf]; simp only [List.mem_cons, exists_eq_or_imp]; tauto

theorem mem_matrixNonzeros (dim : ℕ) (ids : ℕ → ℤ) (blocks : List BlockConn) (a b : ℤ) :
    (a, b) ∈ matrixNonzeros dim ids blocks ↔ Coupled dim ids blocks a b := by
  have hd : ∀ (gi gj : ℤ) (s : Finset (ℤ × ℤ)) (x : ℤ × ℤ), x ∈ insertDofs dim gi gj s ↔
      x ∈ s ∨ ∃ k ∈ List.range dim, ∃ l ∈ List.range dim, x = (gi * dim + (k : ℕ), gj * dim + (l : ℕ)) := by
    intro gi gj s x
    unfold insertDofs
    refine mem_foldl_insert _ _ (fun k x => ∃ l ∈ List.range dim, x = (gi * dim + (k : ℕ), gj * dim + (l : ℕ))) (fun s k x => ?_) s x
    exact mem_foldl_insert _ _ (fun l x => x = (gi * dim + (k : ℕ), gj * dim + (l : ℕ))) (fun s l x => by rw [Finset.mem_insert, or_comm]) s x
  have he : ∀ (element : List ℕ) (s : Finset (ℤ × ℤ)) (x : ℤ × ℤ), x ∈ insertElement dim ids element s ↔
      x ∈ s ∨ ∃ i ∈ element, ∃ j ∈ element, ∃ k ∈ List.range dim, ∃ l ∈ List.range dim, x = (ids i * dim + (k : ℕ), ids j * dim + (l : ℕ)) := by
    intro element s x
    unfold insertElement
    refine mem_foldl_insert _ _ (fun i x => ∃ j ∈ element, ∃ k ∈ List.range dim, ∃ l ∈ List.range dim,
      x = (ids i * dim + (k : ℕ), ids j * dim + (l : ℕ))) (fun s i x => ?_) s x
    exact mem_foldl_insert _ _ (fun j x => ∃ k ∈ List.range dim, ∃ l ∈ List.range dim,
      x = (ids i * dim + (k : ℕ), ids j * dim + (l : ℕ))) (fun s j x => hd _ _ s x) s x
  have hall : ∀ x : ℤ × ℤ, x ∈ matrixNonzeros dim ids blocks ↔ x ∈ (∅ : Finset (ℤ × ℤ)) ∨ ∃ block ∈ blocks, ∃ element ∈ block, ∃ i ∈ element,
      ∃ j ∈ element, ∃ k ∈ List.range dim, ∃ l ∈ List.range dim, x = (ids i * dim + (k : ℕ), ids j * dim + (l : ℕ)) := by
    intro x
    unfold matrixNonzeros
    refine mem_foldl_insert _ _ (fun (block : BlockConn) x => ∃ element ∈ block, ∃ i ∈ element, ∃ j ∈ element, ∃ k ∈ List.range dim,
      ∃ l ∈ List.range dim, x = (ids i * dim + (k : ℕ), ids j * dim + (l : ℕ))) (fun s block x => ?_) ∅ x
    exact mem_foldl_insert _ _ (fun (element : List ℕ) x => ∃ i ∈ element, ∃ j ∈ element, ∃ k ∈ List.range dim,
      ∃ l ∈ List.range dim, x = (ids i * dim + (k : ℕ), ids j * dim + (l : ℕ))) (fun s element x => he _ s x) s x
  rw [hall]
  simp only [Finset.notMem_empty, false_or, Coupled, Prod.mk.injEq, List.mem_range]
  constructor
  · rintro ⟨bl, hbl, el, hel, i, hi, j, hj, k, hk, l, hl, h1, h2⟩
    exact ⟨bl, hbl, el, hel, i, hi, j, hj, k, l, hk, hl, h1, h2⟩
  · rintro ⟨bl, hbl, el, hel, i, hi, j, hj, k, l, hk, hl, h1, h2⟩
    exact ⟨bl, hbl, el, hel, i, hi, j, hj, k, hk, l, hl, h1, h2⟩

/-- **C126, the part that holds.**  The matrix of a rank has an entry for two degrees of freedom if and only if an element of the rank
couples them; its rows are the degrees of freedom of the rank, each once; and the announced numbers of entries per row add up to the number
of entries. -/
theorem tangent_pattern_partial (dim : ℕ) (ids : ℕ → ℤ) (blocks : List BlockConn) :
    (∀ a b, (a, b) ∈ matrixNonzeros dim ids blocks ↔ Coupled dim ids blocks a b) ∧
      (myEntries (matrixNonzeros dim ids blocks)).Nodup ∧
      (∀ a, a ∈ myEntries (matrixNonzeros dim ids blocks) ↔ Coupled dim ids blocks a a) ∧
      (nonzerosPerRow (matrixNonzeros dim ids blocks)).sum = (matrixNonzeros dim ids blocks).card := by
  refine ⟨mem_matrixNonzeros dim ids blocks, Finset.sort_nodup _ _, ?_, ?_⟩
  · intro a
    unfold myEntries
    rw [Finset.mem_sort, Finset.mem_image]
    constructor
    · rintro ⟨⟨a', b⟩, h, rfl⟩
      obtain ⟨bl, hbl, el, hel, i, hi, j, hj, k, l, hk, hl, h1, h2⟩ := (mem_matrixNonzeros dim ids blocks a' b).mp h
      exact ⟨bl, hbl, el, hel, i, hi, i, hi, k, k, hk, hk, h1, h1⟩
    · intro h
      exact ⟨(a, a), (mem_matrixNonzeros dim ids blocks a a).mpr h, rfl⟩
  · generalize matrixNonzeros dim ids blocks = s
    unfold nonzerosPerRow myEntries
    have h1 : (((s.image Prod.fst).sort (· ≤ ·)).map fun row => (s.filter fun e => e.1 = row).card).sum
        = ∑ row ∈ s.image Prod.fst, (s.filter fun e => e.1 = row).card := by
      rw [← List.sum_toFinset _ (Finset.sort_nodup _ _), Finset.sort_toFinset]
    rw [h1]
    exact (Finset.card_eq_sum_card_image Prod.fst s).symm

/-- **C126, refuted.**  No call enters a value: whatever the matrix, the position and the value, the run is aborted. -/
theorem replace_value_aborts (s : Finset (ℤ × ℤ)) (values : ℤ × ℤ → ℝ) (row col : ℤ) (value : ℝ) :
    replaceValue s values row col value = none := by
  unfold replaceValue sumIntoLocalValues
  by_cases h : row ∈ s.image Prod.fst
  · simp [h]
  · simp [h]

/-- The number of coupled pairs of degrees of freedom of the whole mesh. -/
def globalPairs {R : ℕ} (s : Fin R → Finset (ℤ × ℤ)) : Finset (ℤ × ℤ) := Finset.univ.biUnion s

/-- The reported number of entries is at least the number of coupled pairs of degrees of freedom, and equal to it if and only if no pair
is coupled on two ranks. -/
theorem num_nonzeros_iff {R : ℕ} (s : Fin R → Finset (ℤ × ℤ)) :
    (globalPairs s).card ≤ numNonzeros s ∧
      (numNonzeros s = (globalPairs s).card ↔ ∀ r r', r ≠ r' → Disjoint (s r) (s r')) := by
  unfold numNonzeros globalPairs
  refine ⟨Finset.card_biUnion_le, ?_, ?_⟩
  · intro h r r' hne
    by_contra hd
    obtain ⟨x, hx, hx'⟩ := Finset.not_disjoint_iff.mp hd
    -- the pairs counted with their rank map onto the union, not injectively
    have hcard : (Finset.univ.sigma fun r => s r).card = ∑ r, (s r).card := Finset.card_sigma _ _
    have himg : (Finset.univ.biUnion s) = (Finset.univ.sigma fun r => s r).image fun p => p.2 := by
      ext y
      simp only [Finset.mem_biUnion, Finset.mem_image, Finset.mem_sigma, Finset.mem_univ, true_and]
      constructor
      · rintro ⟨q, hq⟩; exact ⟨⟨q, y⟩, hq, rfl⟩
      · rintro ⟨⟨q, z⟩, hq, rfl⟩; exact ⟨q, hq⟩
    rw [himg, ← hcard] at h
    have hinj := Finset.card_image_iff.mp h.symm
    have := hinj (x₁ := ⟨r, x⟩) (x₂ := ⟨r', x⟩) (by simpa using hx) (by simpa using hx') rfl
    exact hne (congrArg Sigma.fst this)
  · intro h
    exact (Finset.card_biUnion (fun r _ r' _ hne => h r r' hne)).symm

/-- A bar of two elements in one dimension, nodes 0, 1 on rank 0 and 1, 2 on rank 1: eight entries are reported, seven pairs are coupled. -/
theorem num_nonzeros_refuted : ¬ ∀ (R dim : ℕ) (ids : Fin R → ℕ → ℤ) (blocks : Fin R → List BlockConn),
    numNonzeros (fun r => matrixNonzeros dim (ids r) (blocks r)) = (globalPairs fun r => matrixNonzeros dim (ids r) (blocks r)).card := by
  intro h
  have := h 2 1 ![fun i => i, fun i => i + 1] ![[[[0, 1]]], [[[0, 1]]]]
  revert this
  decide +kernel

/-- Not vacuous: the couplings of two triangles with a common edge. -/
example : (0, 2) ∈ matrixNonzeros 1 (fun i => i) [[[0, 1, 2], [1, 2, 3]]] ∧ (0, 3) ∉ matrixNonzeros 1 (fun i => i) [[[0, 1, 2], [1, 2, 3]]] ∧
    (matrixNonzeros 1 (fun i => i) [[[0, 1, 2], [1, 2, 3]]]).card = 14 := by decide +kernel

end NimbleSM.Tpetra
