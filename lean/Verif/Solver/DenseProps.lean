import Verif.Solver.TangentProps

/-!
# C142: the dense matrix container holds what is written to it

Specification: a matrix is a function of row and column; `Dense.at?` is the value that `A(i,j)` gives, `none` outside the storage.
-/

namespace NimbleSM.Solver

variable {K : Type*} [Field K]

/-- nimble_linear_solver.h:76-80, `MatrixContainer::SetAllValues`. -/
def Dense.setAllValues (A : Dense K) (v : K) : Dense K := { A with data := A.data.map fun _ => v }

/-- nimble_linear_solver.h:94-98, `MatrixContainer::NumNonzeros`. -/
def Dense.numNonzeros (A : Dense K) : ℕ := A.data.length

/-- Non-empty pattern, indices of the rows and columns of a square matrix: the largest row number bounds the columns as well. -/
def SquarePattern (pairs : List (ℕ × ℕ)) : Prop := ∀ p ∈ pairs, ∃ q ∈ pairs, p.2 ≤ q.1

/-- **C142, allocation.**  Every entry of the pattern can be read and written afterwards. -/
theorem dense_allocated (old : Dense K) (pairs : List (ℕ × ℕ)) (h : SquarePattern pairs) :
    (old.allocateNonzeros (pairs.map Prod.fst)).WF ∧
    (∀ p ∈ pairs, p.1 < (old.allocateNonzeros (pairs.map Prod.fst)).numRows ∧
      p.2 < (old.allocateNonzeros (pairs.map Prod.fst)).numRows) ∧
    (pairs ≠ [] → ∃ p ∈ pairs, (old.allocateNonzeros (pairs.map Prod.fst)).numRows = p.1 + 1) ∧
    (old.allocateNonzeros (pairs.map Prod.fst)).numNonzeros =
      (old.allocateNonzeros (pairs.map Prod.fst)).numRows * (old.allocateNonzeros (pairs.map Prod.fst)).numRows := by
  have hw : (old.allocateNonzeros (pairs.map Prod.fst)).WF := by
    unfold Dense.WF Dense.allocateNonzeros
    simp only [resize_length]
  refine ⟨hw, ?_, ?_, hw⟩
  · intro p hp
    obtain ⟨q, hq, hpq⟩ := h p hp
    have h1 : p.1 ≤ maxRow (pairs.map Prod.fst) := le_maxRow (List.mem_map_of_mem hp)
    have h2 : q.1 ≤ maxRow (pairs.map Prod.fst) := le_maxRow (List.mem_map_of_mem hq)
    simp only [Dense.allocateNonzeros]
    omega
  · intro hne
    have hm : maxRow (pairs.map Prod.fst) ∈ pairs.map Prod.fst := maxRow_mem (by simpa using hne)
    obtain ⟨p, hp, he⟩ := List.mem_map.mp hm
    exact ⟨p, hp, by simp [Dense.allocateNonzeros, he]⟩

/-- **C142, a new container is the zero matrix.** -/
theorem dense_new_zero (pairs : List (ℕ × ℕ)) (i j : ℕ)
    (hi : i < ((⟨0, []⟩ : Dense K).allocateNonzeros (pairs.map Prod.fst)).numRows)
    (hj : j < ((⟨0, []⟩ : Dense K).allocateNonzeros (pairs.map Prod.fst)).numRows) :
    ((⟨0, []⟩ : Dense K).allocateNonzeros (pairs.map Prod.fst)).at? i j = some 0 := by
  have := dense_slot_lt hi hj
  simp only [Dense.allocateNonzeros] at this ⊢
  simp only [Dense.at?, resize, List.take_nil, List.nil_append, List.length_nil, Nat.sub_zero]
  rw [List.getElem?_replicate, if_pos this]

/-- **C142, one entry.**  A write inside the square succeeds, is read back, and changes no other entry. -/
theorem dense_set_get (A : Dense K) (hA : A.WF) (i j : ℕ) (hi : i < A.numRows) (hj : j < A.numRows) (v : K) :
    ∃ B, A.setEntry i j v = some B ∧ B.WF ∧ B.numRows = A.numRows ∧ B.at? i j = some v ∧
      ∀ i' j', j' < A.numRows → (i', j') ≠ (i, j) → B.at? i' j' = A.at? i' j' := by
  have hl : A.numRows * i + j < A.data.length := by rw [hA]; exact dense_slot_lt hi hj
  refine ⟨{ A with data := A.data.set (A.numRows * i + j) v }, by rw [Dense.setEntry, if_pos hl], by simpa [Dense.WF] using hA, rfl,
    by simp [Dense.at?, hl], ?_⟩
  intro i' j' hj' hne
  simp only [Dense.at?]
  rw [List.getElem?_set_ne]
  intro he
  obtain ⟨e1, e2⟩ := dense_slot_inj hj hj' he
  exact hne (by rw [e1, e2])

/-- **C142, all entries.** -/
theorem dense_setAll (A : Dense K) (hA : A.WF) (v : K) :
    (A.setAllValues v).WF ∧ (A.setAllValues v).numRows = A.numRows ∧
    ∀ i < A.numRows, ∀ j < A.numRows, (A.setAllValues v).at? i j = some v := by
  refine ⟨by simpa [Dense.WF, Dense.setAllValues] using hA, rfl, ?_⟩
  intro i hi j hj
  have hl : A.numRows * i + j < A.data.length := by rw [hA]; exact dense_slot_lt hi hj
  simp [Dense.at?, Dense.setAllValues, hl]

/-- **C142, a row.** -/
theorem dense_setRow (A : Dense K) (hA : A.WF) (row : ℕ) (hr : row < A.numRows) (v : K) :
    (A.setRowValues row v).WF ∧ (A.setRowValues row v).numRows = A.numRows ∧
    ∀ i j, j < A.numRows → i < A.numRows → (A.setRowValues row v).at? i j = if i = row then some v else A.at? i j := by
  have hlen : (A.setRowValues row v).data.length = A.data.length := by
    simp only [Dense.setRowValues]
    rw [foldl_set_image (fun i => A.numRows * row + i), foldl_set_length]
  refine ⟨by unfold Dense.WF; rw [hlen]; exact hA, rfl, ?_⟩
  intro i j hj hi
  have key : ∀ (m : ℕ), m ≤ A.numRows → ∀ s,
      ((List.range m).foldl (fun (l : List K) i => l.set (A.numRows * row + i) v) A.data)[s]? =
        if (∃ k < m, s = A.numRows * row + k) ∧ s < A.data.length then some v else A.data[s]? := by
    intro m
    induction m with
    | zero => intro _ s; simp
    | succ m ih =>
      intro hm s
      rw [List.range_succ, List.foldl_append, List.foldl_cons, List.foldl_nil, List.getElem?_set]
      have hl : ((List.range m).foldl (fun (l : List K) i => l.set (A.numRows * row + i) v) A.data).length = A.data.length := by
        rw [foldl_set_image (fun i => A.numRows * row + i), foldl_set_length]
      by_cases h1 : A.numRows * row + m = s
      · rw [if_pos h1, hl, h1]
        by_cases h2 : s < A.data.length
        · rw [if_pos h2, if_pos ⟨⟨m, by omega, h1.symm⟩, h2⟩]
        · rw [if_neg h2, if_neg (by tauto)]
          exact (List.getElem?_eq_none (by omega)).symm
      · rw [if_neg h1, ih (by omega) s]
        have : (∃ k < m, s = A.numRows * row + k) ↔ ∃ k < m + 1, s = A.numRows * row + k := by
          constructor
          · rintro ⟨k, hk, e⟩; exact ⟨k, by omega, e⟩
          · rintro ⟨k, hk, e⟩
            refine ⟨k, ?_, e⟩
            by_contra hc
            exact h1 (by rw [e]; congr 1; omega)
        rw [if_congr (and_congr_left' this) rfl rfl]
  have hl : A.numRows * i + j < A.data.length := by rw [hA]; exact dense_slot_lt hi hj
  have : (A.setRowValues row v).at? i j =
      ((List.range A.numRows).foldl (fun (l : List K) i => l.set (A.numRows * row + i) v) A.data)[A.numRows * i + j]? := rfl
  rw [this, key A.numRows le_rfl]
  by_cases h : i = row
  · rw [if_pos h, if_pos ⟨⟨j, hj, by rw [h]⟩, hl⟩]
  · rw [if_neg h, if_neg]
    · rfl
    · rintro ⟨⟨k, hk, e⟩, _⟩
      exact h (dense_slot_inj hj hk e).1

/-- **C142, a column.** -/
theorem dense_setColumn (A : Dense K) (hA : A.WF) (col : ℕ) (hc : col < A.numRows) (v : K) :
    (A.setColumnValues col v).WF ∧ (A.setColumnValues col v).numRows = A.numRows ∧
    ∀ i j, j < A.numRows → i < A.numRows → (A.setColumnValues col v).at? i j = if j = col then some v else A.at? i j := by
  have hlen : (A.setColumnValues col v).data.length = A.data.length := by
    simp only [Dense.setColumnValues]
    rw [foldl_set_image (fun i => A.numRows * i + col), foldl_set_length]
  refine ⟨by unfold Dense.WF; rw [hlen]; exact hA, rfl, ?_⟩
  intro i j hj hi
  have key : ∀ (m : ℕ), m ≤ A.numRows → ∀ s,
      ((List.range m).foldl (fun (l : List K) i => l.set (A.numRows * i + col) v) A.data)[s]? =
        if (∃ k < m, s = A.numRows * k + col) ∧ s < A.data.length then some v else A.data[s]? := by
    intro m
    induction m with
    | zero => intro _ s; simp
    | succ m ih =>
      intro hm s
      rw [List.range_succ, List.foldl_append, List.foldl_cons, List.foldl_nil, List.getElem?_set]
      have hl : ((List.range m).foldl (fun (l : List K) i => l.set (A.numRows * i + col) v) A.data).length = A.data.length := by
        rw [foldl_set_image (fun i => A.numRows * i + col), foldl_set_length]
      by_cases h1 : A.numRows * m + col = s
      · rw [if_pos h1, hl, h1]
        by_cases h2 : s < A.data.length
        · rw [if_pos h2, if_pos ⟨⟨m, by omega, h1.symm⟩, h2⟩]
        · rw [if_neg h2, if_neg (by tauto)]
          exact (List.getElem?_eq_none (by omega)).symm
      · rw [if_neg h1, ih (by omega) s]
        have : (∃ k < m, s = A.numRows * k + col) ↔ ∃ k < m + 1, s = A.numRows * k + col := by
          constructor
          · rintro ⟨k, hk, e⟩; exact ⟨k, by omega, e⟩
          · rintro ⟨k, hk, e⟩
            refine ⟨k, ?_, e⟩
            by_contra hc
            exact h1 (by rw [e]; congr 2; omega)
        rw [if_congr (and_congr_left' this) rfl rfl]
  have hl : A.numRows * i + j < A.data.length := by rw [hA]; exact dense_slot_lt hi hj
  have : (A.setColumnValues col v).at? i j =
      ((List.range A.numRows).foldl (fun (l : List K) i => l.set (A.numRows * i + col) v) A.data)[A.numRows * i + j]? := rfl
  rw [this, key A.numRows le_rfl]
  by_cases h : j = col
  · rw [if_pos h, if_pos ⟨⟨i, hi, by rw [h]⟩, hl⟩]
  · rw [if_neg h, if_neg]
    · rfl
    · rintro ⟨⟨k, hk, e⟩, _⟩
      exact h (dense_slot_inj hj hc e).2

/-- **C142, the columns are not looked at.**  With a column beyond the largest row the access runs past the end of the storage. -/
theorem dense_columns_ignored : ∃ (pairs : List (ℕ × ℕ)), (0, 1) ∈ pairs ∧
    ((⟨0, []⟩ : Dense ℚ).allocateNonzeros (pairs.map Prod.fst)).at? 0 1 = none ∧
    ((⟨0, []⟩ : Dense ℚ).allocateNonzeros (pairs.map Prod.fst)).setEntry 0 1 5 = none := by
  refine ⟨[(0, 0), (0, 1)], by simp, ?_, ?_⟩ <;> decide +kernel

/-- **C142, reuse.**  A container allocated again keeps values of the previous matrix, at other places: the new matrix is not
zero. -/
theorem dense_reuse_keeps : ∃ (old : Dense ℚ), old.WF ∧ old.numRows = 2 ∧
    (old.allocateNonzeros [0, 1, 2]).at? 1 0 = some 7 ∧ old.at? 1 1 = some 7 ∧ old.at? 1 0 = some 0 := by
  refine ⟨⟨2, [0, 0, 0, 7]⟩, by unfold Dense.WF; rfl, rfl, ?_, ?_, ?_⟩ <;> decide +kernel

/-- Non-vacuity: a full pattern of three rows. -/
example : SquarePattern [(0, 0), (0, 1), (1, 0), (1, 1), (2, 2)] ∧
    ((⟨0, []⟩ : Dense ℚ).allocateNonzeros ([(0, 0), (0, 1), (1, 0), (1, 1), (2, 2)].map Prod.fst)).numRows = 3 := by
  constructor
  · intro p hp
    simp only [List.mem_cons, List.not_mem_nil, or_false] at hp
    exact ⟨(2, 2), by simp, by rcases hp with rfl | rfl | rfl | rfl | rfl <;> decide⟩
  · rfl

end NimbleSM.Solver
