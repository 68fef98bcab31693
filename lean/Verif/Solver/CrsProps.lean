import Verif.Solver.CrsLemmas
import Mathlib.Tactic.NormNum
import Mathlib.Algebra.BigOperators.Group.Finset.Sigma

/-!
# C18, C19: element access and products of the compressed-row matrix

"`A` has pattern `pairs`" (`HasPattern`) means: `A` was allocated by `AllocateNonzeros` with the row and
column lists of `pairs` (in any container, used before or not) and then had arbitrary values written to
its storage.
-/

namespace NimbleSM.Solver

variable {K : Type*} [Field K] {pairs : List (ℕ × ℕ)}

/-- `A` was allocated with pattern `pairs`; its values are arbitrary. -/
def HasPattern (A : Crs K) (pairs : List (ℕ × ℕ)) : Prop :=
  ∃ (old : Crs K) (d : List K), d.length = pairs.length ∧ A = { allocated old pairs with data := d }

theorem allocated_hasPattern (old : Crs K) (pairs : List (ℕ × ℕ)) :
    HasPattern (allocated old pairs) pairs :=
  ⟨old, (allocated old pairs).data, by simp [allocated, Crs.allocateNonzeros, resize_length], rfl⟩

theorem HasPattern.data_length {A : Crs K} (h : HasPattern A pairs) : A.data.length = pairs.length := by
  obtain ⟨old, d, hd, rfl⟩ := h; exact hd

theorem HasPattern.withData {A : Crs K} (h : HasPattern A pairs) {d : List K}
    (hd : d.length = A.data.length) : HasPattern { A with data := d } pairs := by
  have := h.data_length
  obtain ⟨old, d', hd', rfl⟩ := h
  exact ⟨old, d, by omega, rfl⟩

theorem HasPattern.numRows_eq {A : Crs K} (h : HasPattern A pairs) :
    A.numRows = maxRow (pairs.map Prod.fst) + 1 := by
  obtain ⟨old, d, hd, rfl⟩ := h; rfl

theorem HasPattern.row_lt {A : Crs K} (h : HasPattern A pairs) {i j : ℕ} (hm : (i, j) ∈ pairs) :
    i < A.numRows := by
  obtain ⟨old, d, hd, rfl⟩ := h
  exact row_lt_numRows old hm

theorem HasPattern.indices {A : Crs K} (h : HasPattern A pairs) :
    A.iIdx = pairs.map Prod.fst ∧ A.jIdx = pairs.map Prod.snd := by
  obtain ⟨old, d, hd, rfl⟩ := h; exact ⟨rfl, rfl⟩

/-- **C18 (a)** every listed pair is found, at its own storage slot. -/
theorem access_listed {A : Crs K} (hA : Admissible pairs) (h : HasPattern A pairs) {i j p : ℕ}
    (hp : pairs[p]? = some (i, j)) : A.findIndex i j = .found p ∧ p < A.data.length := by
  obtain ⟨old, d, hd, rfl⟩ := h
  obtain ⟨hp', e⟩ := List.getElem?_eq_some_iff.mp hp
  have := findIndex_found old hA p hp'
  rw [e] at this
  exact ⟨this, by simpa [hd] using hp'⟩

/-- **C18 (b)** an unlisted pair of an existing row raises the error. -/
theorem access_unlisted {A : Crs K} (hA : Admissible pairs) (hne : pairs ≠ []) (h : HasPattern A pairs)
    {i j : ℕ} (hi : i < A.numRows) (hn : (i, j) ∉ pairs) : A.findIndex i j = .throws := by
  obtain ⟨old, d, hd, rfl⟩ := h
  exact findIndex_throws old hA hi hne hn

/-- **C18 (c)** distinct listed pairs have distinct slots. -/
theorem access_injective {A : Crs K} (hA : Admissible pairs) (h : HasPattern A pairs)
    {i j i' j' s : ℕ} (h1 : (i, j) ∈ pairs) (h2 : (i', j') ∈ pairs)
    (e1 : A.findIndex i j = .found s) (e2 : A.findIndex i' j' = .found s) : (i, j) = (i', j') := by
  obtain ⟨p, hp⟩ := List.getElem?_of_mem h1
  obtain ⟨q, hq⟩ := List.getElem?_of_mem h2
  have a1 := (access_listed hA h hp).1
  have a2 := (access_listed hA h hq).1
  rw [e1] at a1; rw [e2] at a2
  cases a1; cases a2
  rw [hp] at hq
  exact Option.some.inj hq

/-- A row past the end is a read out of range (not a clean error). -/
theorem access_row_out_of_range {A : Crs K} (hA : Admissible pairs) (hne : pairs ≠ [])
    (h : HasPattern A pairs) {i j : ℕ} (hi : A.numRows ≤ i) : A.findIndex i j = .outOfBounds := by
  obtain ⟨old, d, hd, rfl⟩ := h
  obtain ⟨_, hl, _⟩ := rowFirst_spec old hA hne
  have : (allocated old pairs).rowFirst[i + 1]? = none := by
    rw [List.getElem?_eq_none_iff]; rw [hl]
    have : (allocated old pairs).numRows ≤ i := hi
    omega
  unfold Crs.findIndex
  simp only [this]
  split <;> simp_all

/-- All of C18's clauses for reading: the value at a listed pair is the value stored in its slot, and no
value is delivered for any other pair. -/
theorem at_listed {A : Crs K} (hA : Admissible pairs) (h : HasPattern A pairs) {i j p : ℕ}
    (hp : pairs[p]? = some (i, j)) : A.at? i j = A.data[p]? := by
  unfold Crs.at?; rw [(access_listed hA h hp).1]

theorem at_unlisted {A : Crs K} (hA : Admissible pairs) (h : HasPattern A pairs) {i j : ℕ}
    (hn : (i, j) ∉ pairs) : A.at? i j = none := by
  by_cases hne : pairs = []
  · have hl := h.data_length
    rw [hne] at hl
    have : A.data = [] := List.eq_nil_of_length_eq_zero (by simpa using hl)
    unfold Crs.at?
    split <;> simp [this]
  · unfold Crs.at?
    rcases Nat.lt_or_ge i A.numRows with hi | hi
    · rw [access_unlisted hA hne h hi hn]
    · rw [access_row_out_of_range hA hne h hi]

theorem at_isSome_iff {A : Crs K} (hA : Admissible pairs) (h : HasPattern A pairs) (i j : ℕ) :
    (A.at? i j).isSome ↔ (i, j) ∈ pairs := by
  constructor
  · intro hs
    by_contra hn
    rw [at_unlisted hA h hn] at hs
    simp at hs
  · intro hm
    obtain ⟨p, hp⟩ := List.getElem?_of_mem hm
    have hlt := (access_listed hA h hp).2
    rw [at_listed hA h hp]
    simp [hlt]

/-- Matrices with the same admissible pattern whose data agree slotwise after a map have values related
by that map. -/
theorem at_of_slot {B : Crs K} (hA : Admissible pairs) (hB : HasPattern B pairs)
    (f : ℕ → ℕ → Option K) (hin : ∀ p i j : ℕ, pairs[p]? = some (i, j) → B.data[p]? = f i j)
    (hout : ∀ i j, (i, j) ∉ pairs → f i j = none) (i j : ℕ) : B.at? i j = f i j := by
  by_cases hm : (i, j) ∈ pairs
  · obtain ⟨p, hp⟩ := List.getElem?_of_mem hm
    rw [at_listed hA hB hp, hin p i j hp]
  · rw [at_unlisted hA hB hm, hout i j hm]

theorem Admissible.nodup (hA : Admissible pairs) : pairs.Nodup := by
  refine hA.sorted.imp ?_
  rintro a b (h | ⟨_, h⟩) rfl <;> omega

theorem Admissible.slot_unique (hA : Admissible pairs) {p q : ℕ} {x : ℕ × ℕ}
    (hp : pairs[p]? = some x) (hq : pairs[q]? = some x) : p = q := by
  obtain ⟨hp', e⟩ := List.getElem?_eq_some_iff.mp hp
  obtain ⟨hq', e'⟩ := List.getElem?_eq_some_iff.mp hq
  exact (List.Nodup.getElem_inj_iff hA.nodup).mp (e.trans e'.symm)

/-- **C18 (d)** `A(i,j) = v` changes the value of `(i,j)` to `v` and no other value. -/
theorem setEntry_spec {A : Crs K} (hA : Admissible pairs) (h : HasPattern A pairs) {i j : ℕ} (v : K)
    (hm : (i, j) ∈ pairs) :
    ∃ B, A.setEntry i j v = some B ∧ HasPattern B pairs ∧
      ∀ a b, B.at? a b = if (a, b) = (i, j) then some v else A.at? a b := by
  obtain ⟨p, hp⟩ := List.getElem?_of_mem hm
  obtain ⟨hf, hlt⟩ := access_listed hA h hp
  have hB : HasPattern { A with data := A.data.set p v } pairs := h.withData (by simp)
  refine ⟨{ A with data := A.data.set p v }, ?_, hB, ?_⟩
  · unfold Crs.setEntry; rw [hf]; simp [hlt]
  · refine at_of_slot hA hB _ ?_ ?_
    · intro q a b hq
      by_cases e : (a, b) = (i, j)
      · rw [e] at hq
        have := hA.slot_unique hp hq
        subst this
        simp [e, hlt]
      · have : p ≠ q := by
          rintro rfl
          rw [hp] at hq
          exact e (Option.some.inj hq).symm
        simp only [e, if_false]
        rw [List.getElem?_set_ne this, at_listed hA h hq]
    · intro a b hn
      have : (a, b) ≠ (i, j) := by rintro e; rw [e] at hn; exact hn hm
      simp [this, at_unlisted hA h hn]

/-- `A(i,j) += v` adds `v` to the value of `(i,j)` and changes no other value. -/
theorem addEntry_spec {A : Crs K} (hA : Admissible pairs) (h : HasPattern A pairs) {i j : ℕ} (v : K)
    (hm : (i, j) ∈ pairs) :
    ∃ B, A.addEntry i j v = some B ∧ HasPattern B pairs ∧
      ∀ a b, B.at? a b = if (a, b) = (i, j) then (A.at? a b).map (· + v) else A.at? a b := by
  obtain ⟨p, hp⟩ := List.getElem?_of_mem hm
  obtain ⟨hf, hlt⟩ := access_listed hA h hp
  have hB : HasPattern { A with data := A.data.set p (A.data[p] + v) } pairs := h.withData (by simp)
  refine ⟨{ A with data := A.data.set p (A.data[p] + v) }, ?_, hB, ?_⟩
  · unfold Crs.addEntry; rw [hf]; simp [hlt]
  · refine at_of_slot hA hB _ ?_ ?_
    · intro q a b hq
      by_cases e : (a, b) = (i, j)
      · rw [e] at hq
        have := hA.slot_unique hp hq
        subst this
        obtain ⟨rfl, rfl⟩ := Prod.mk.inj e
        simp [at_listed hA h hp, hlt]
      · have : p ≠ q := by
          rintro rfl
          rw [hp] at hq
          exact e (Option.some.inj hq).symm
        simp only [e, if_false]
        rw [List.getElem?_set_ne this, at_listed hA h hq]
    · intro a b hn
      have : (a, b) ≠ (i, j) := by rintro e; rw [e] at hn; exact hn hm
      simp [this, at_unlisted hA h hn]

/-! ### Rows and columns -/

theorem fillRange_length (l : List K) (a b : ℕ) (v : K) : (fillRange l a b v).length = l.length := by
  unfold fillRange
  generalize List.range' a (b - a) = ks
  induction ks generalizing l with
  | nil => rfl
  | cons k ks ih => simp only [List.foldl_cons]; rw [ih]; simp

theorem foldl_set_getElem? (ks : List ℕ) (l : List K) (v : K) (q : ℕ) :
    (ks.foldl (fun (l : List K) k => l.set k v) l)[q]? = if q ∈ ks ∧ q < l.length then some v else l[q]? := by
  induction ks generalizing l with
  | nil => simp
  | cons k ks ih =>
    simp only [List.foldl_cons]
    rw [ih]
    by_cases h1 : q ∈ ks
    · simp only [h1, List.length_set, List.mem_cons, or_true, true_and]
      split
      · rfl
      · rename_i h; rw [List.getElem?_eq_none (by simpa using h), List.getElem?_eq_none (by omega)]
    · by_cases h2 : q = k
      · subst h2
        simp only [h1, false_and, if_false, List.mem_cons, true_or, true_and]
        rw [List.getElem?_set_self']
        split
        · rename_i h; simp [h]
        · rename_i h; simp [List.getElem?_eq_none (Nat.le_of_not_lt h)]
      · simp only [h1, h2, List.mem_cons, or_self, false_and, if_false]
        rw [List.getElem?_set_ne (by omega)]

/-- `SetRowValues(row, v)`: all listed entries of the row become `v`, nothing else changes. -/
theorem setRowValues_spec {A : Crs K} (hA : Admissible pairs) (hne : pairs ≠ []) (h : HasPattern A pairs)
    {r : ℕ} (hr : r < A.numRows) (v : K) :
    ∃ B, A.setRowValues r v = some B ∧ HasPattern B pairs ∧
      ∀ a b, B.at? a b = if a = r ∧ (a, b) ∈ pairs then some v else A.at? a b := by
  have hd := h.data_length
  have h' := h
  obtain ⟨old, d, hdl, rfl⟩ := h
  obtain ⟨lo, hi, h1, h2, h3, h4, h5⟩ := row_range old hA hne hr
  have hB : HasPattern ({ allocated old pairs with data := fillRange d lo hi v } : Crs K) pairs :=
    ⟨old, _, by rw [fillRange_length]; exact hdl, rfl⟩
  refine ⟨{ allocated old pairs with data := fillRange d lo hi v }, ?_, hB, ?_⟩
  · unfold Crs.setRowValues
    simp only [h1, h2]
  · refine at_of_slot hA hB _ ?_ ?_
    · intro q a b hq
      obtain ⟨hq', e⟩ := List.getElem?_eq_some_iff.mp hq
      have hm : (a, b) ∈ pairs := List.mem_of_getElem? hq
      simp only [fillRange, foldl_set_getElem?]
      rw [at_listed hA h' hq]
      have := h5 q hq'
      rw [e] at this
      simp only at this
      simp only [List.mem_range', hm, and_true, this, hdl, hq']
      congr 1
      apply propext
      constructor
      · rintro ⟨i, hi', rfl⟩; omega
      · rintro ⟨ha, hb⟩; exact ⟨q - lo, by omega, by omega⟩
    · intro a b hn
      simp only [hn, and_false, if_false]
      exact at_unlisted hA h' hn

theorem foldl_setIf_getElem? (ks : List ℕ) (P : ℕ → Prop) [DecidablePred P] (l : List K) (v : K) (q : ℕ) :
    (ks.foldl (fun (l : List K) k => if P k then l.set k v else l) l)[q]?
      = if (q ∈ ks ∧ P q) ∧ q < l.length then some v else l[q]? := by
  have : ks.foldl (fun (l : List K) k => if P k then l.set k v else l) l
      = (ks.filter fun k => P k).foldl (fun (l : List K) k => l.set k v) l := by
    induction ks generalizing l with
    | nil => rfl
    | cons k ks ih =>
      by_cases hk : P k
      · simp [hk, ih]
      · simp [hk, ih]
  rw [this, foldl_set_getElem?]
  simp

theorem foldl_setIf_length (ks : List ℕ) (P : ℕ → Prop) [DecidablePred P] (l : List K) (v : K) :
    (ks.foldl (fun (l : List K) k => if P k then l.set k v else l) l).length = l.length := by
  induction ks generalizing l with
  | nil => rfl
  | cons k ks ih => simp only [List.foldl_cons]; rw [ih]; split <;> simp

/-- `SetColumnValues(col, v)`: all listed entries of the column become `v`, nothing else changes. -/
theorem setColumnValues_spec {A : Crs K} (hA : Admissible pairs) (h : HasPattern A pairs)
    (c : ℕ) (v : K) :
    HasPattern (A.setColumnValues c v) pairs ∧
      ∀ a b, (A.setColumnValues c v).at? a b = if b = c ∧ (a, b) ∈ pairs then some v else A.at? a b := by
  have hd := h.data_length
  obtain ⟨hi, hj⟩ := h.indices
  have hB : HasPattern (A.setColumnValues c v) pairs := by
    unfold Crs.setColumnValues
    exact h.withData (foldl_setIf_length _ _ _ _)
  refine ⟨hB, at_of_slot hA hB _ ?_ ?_⟩
  · intro q a b hq
    obtain ⟨hq', e⟩ := List.getElem?_eq_some_iff.mp hq
    have hm : (a, b) ∈ pairs := List.mem_of_getElem? hq
    have hjq : A.jIdx[q]? = some b := by rw [hj]; simp [hq]
    simp only [Crs.setColumnValues]
    rw [foldl_setIf_getElem?, at_listed hA h hq]
    by_cases hbc : b = c
    · subst hbc; have hjl : q < A.jIdx.length := by rw [hj]; simpa using hq'
      rw [if_pos ⟨⟨List.mem_range.mpr hjl, hjq⟩, by omega⟩, if_pos ⟨rfl, hm⟩]
    · simp [hbc, hjq]
  · intro a b hn
    simp only [hn, and_false, if_false]
    exact at_unlisted hA h hn

/-! ### Matrix-vector product -/

theorem foldl_upd_zero (n : ℕ) (r : ℕ → K) (i : ℕ) :
    (List.range n).foldl (fun (r : ℕ → K) i => upd r i 0) r i = if i < n then 0 else r i := by
  induction n with
  | zero => simp
  | succ n ih =>
    rw [List.range_succ (n := n), List.foldl_append]
    simp only [List.foldl_cons, List.foldl_nil, upd, ih]
    by_cases h1 : i = n
    · simp [h1]
    · by_cases h2 : i < n
      · simp [h1, h2, Nat.lt_succ_of_lt h2]
      · have : ¬ i < n + 1 := by omega
        simp [h1, h2, this]

theorem foldl_matVecStep (l : List (K × ℕ × ℕ)) (vec r : ℕ → K) (i : ℕ) :
    l.foldl (matVecStep vec) r i
      = r i + (l.map fun e => if e.2.1 = i then e.1 * vec e.2.2 else 0).sum := by
  induction l generalizing r with
  | nil => simp
  | cons e l ih =>
    simp only [List.foldl_cons, List.map_cons, List.sum_cons]
    rw [ih]
    simp only [matVecStep, upd]
    by_cases h : i = e.2.1
    · subst h; simp; ring
    · rw [if_neg h, if_neg (Ne.symm h)]; ring

theorem list_sum_range (l : List K) : l.sum = ∑ p ∈ Finset.range l.length, l.getD p 0 := by
  induction l with
  | nil => simp
  | cons a l ih =>
    rw [List.sum_cons, List.length_cons, Finset.sum_range_succ', ih]
    simp [add_comm]

theorem at_getD_sum {A : Crs K} (hA : Admissible pairs) (h : HasPattern A pairs) (i j : ℕ) :
    (A.at? i j).getD 0
      = ∑ p ∈ Finset.range pairs.length, if pairs[p]? = some (i, j) then A.data.getD p 0 else 0 := by
  by_cases hm : (i, j) ∈ pairs
  · obtain ⟨p, hp⟩ := List.getElem?_of_mem hm
    have hlt : p < pairs.length := (List.getElem?_eq_some_iff.mp hp).1
    rw [at_listed hA h hp]
    rw [Finset.sum_eq_single_of_mem p (Finset.mem_range.mpr hlt)]
    · simp [hp, List.getD_eq_getElem?_getD]
    · intro q _ hqp
      rw [if_neg]
      intro hq
      exact hqp (hA.slot_unique hq hp)
  · rw [at_unlisted hA h hm]
    rw [Finset.sum_eq_zero]
    · rfl
    · intro q _
      rw [if_neg]
      intro hq
      exact hm (List.mem_of_getElem? hq)

/-- **C19 (a)** `MatVec`: `result[i] = Σ_j A(i,j) vec[j]` for every row, an unlisted entry counting as
zero; nothing is written past the last row. -/
theorem matVec_spec {A : Crs K} (hA : Admissible pairs) (h : HasPattern A pairs) (vec result : ℕ → K)
    (n : ℕ) (hn : ∀ p ∈ pairs, p.2 < n) :
    (∀ i < A.numRows, A.matVec vec result i = ∑ j ∈ Finset.range n, (A.at? i j).getD 0 * vec j) ∧
    (∀ i, A.numRows ≤ i → A.matVec vec result i = result i) := by
  obtain ⟨hi, hj⟩ := h.indices
  have hd := h.data_length
  have key : ∀ i, A.matVec vec result i
      = (if i < A.numRows then 0 else result i)
        + ∑ j ∈ Finset.range n, (A.at? i j).getD 0 * vec j := by
    intro i
    unfold Crs.matVec
    rw [foldl_matVecStep, foldl_upd_zero]
    congr 1
    rw [list_sum_range]
    simp only [List.length_map, List.length_zip, hi, hj, hd, Nat.min_self]
    have hsum : ∀ j, (A.at? i j).getD 0 * vec j
        = ∑ p ∈ Finset.range pairs.length,
            (if pairs[p]? = some (i, j) then A.data.getD p 0 * vec j else 0) := by
      intro j
      rw [at_getD_sum hA h, Finset.sum_mul]
      refine Finset.sum_congr rfl fun p _ => ?_
      split <;> simp
    rw [Finset.sum_congr rfl fun j _ => hsum j, Finset.sum_comm]
    refine Finset.sum_congr rfl fun p hp => ?_
    have hp' : p < pairs.length := Finset.mem_range.mp hp
    have hpd : p < A.data.length := by omega
    have hterm : ((A.data.zip ((pairs.map Prod.fst).zip (pairs.map Prod.snd))).map
        fun e : K × ℕ × ℕ => if e.2.1 = i then e.1 * vec e.2.2 else 0).getD p 0
        = if (pairs[p]).1 = i then A.data.getD p 0 * vec (pairs[p]).2 else 0 := by
      simp [List.getD_eq_getElem?_getD, hp', hpd, List.getElem?_map]
    rw [hterm]
    have hcol : (pairs[p]).2 ∈ Finset.range n :=
      Finset.mem_range.mpr (hn _ (List.getElem_mem hp'))
    rw [Finset.sum_eq_single_of_mem _ hcol]
    · rw [List.getElem?_eq_getElem hp']
      by_cases e : (pairs[p]).1 = i
      · rw [if_pos e, if_pos]; rw [← e]
      · rw [if_neg e, if_neg]; intro h'; exact e (by rw [Option.some.inj h'])
    · intro j _ hjne
      rw [if_neg]
      intro h'
      rw [List.getElem?_eq_getElem hp'] at h'
      exact hjne (by rw [Option.some.inj h'])
  constructor
  · intro i hi'
    rw [key, if_pos hi', zero_add]
  · intro i hi'
    rw [key, if_neg (by omega)]
    rw [Finset.sum_eq_zero, add_zero]
    intro j _
    have : (i, j) ∉ pairs := fun hm => by have := h.row_lt hm; omega
    rw [at_unlisted hA h this]; simp

/-! ### Diagonal matrices and the preconditioner -/

theorem foldl_diag (l : List K) (vec r : ℕ → K) (k i : ℕ) :
    (l.zipIdx k).foldl (fun (r : ℕ → K) e => upd r e.2 (e.1 * vec e.2)) r i
      = if k ≤ i ∧ i < k + l.length then l.getD (i - k) 0 * vec i else r i := by
  induction l generalizing k r with
  | nil => rw [if_neg (by simp)]; rfl
  | cons a l ih =>
    simp only [List.zipIdx_cons, List.foldl_cons, List.length_cons]
    rw [ih]
    by_cases h1 : k + 1 ≤ i ∧ i < k + 1 + l.length
    · have h2 : k ≤ i ∧ i < k + (l.length + 1) := by omega
      rw [if_pos h1, if_pos h2]
      have : i - k = (i - (k + 1)) + 1 := by omega
      rw [this]; simp
    · rw [if_neg h1]
      simp only [upd]
      by_cases h3 : i = k
      · subst h3; simp
      · have h2 : ¬ (k ≤ i ∧ i < k + (l.length + 1)) := by omega
        rw [if_neg h3, if_neg h2]

/-- **C19 (b)** `DiagonalMatrixMatVec` on a container with one stored value per row multiplies entry `i`
by the `i`-th stored value and writes nothing else; on any other container it aborts. -/
theorem diagMatVec_spec (A : Crs K) (vec result : ℕ → K) :
    (A.diagMatVec vec result = none ↔ A.numRows ≠ A.data.length) ∧
    ∀ r, A.diagMatVec vec result = some r →
      (∀ i (h : i < A.data.length), r i = A.data[i] * vec i) ∧
      (∀ i, A.data.length ≤ i → r i = result i) := by
  unfold Crs.diagMatVec
  by_cases hn : A.numRows = A.data.length
  · simp only [hn, ne_eq, not_true, if_false, reduceCtorEq, true_and, Option.some.injEq]
    rintro r rfl
    constructor
    · intro i h
      rw [foldl_diag]
      simp [h, List.getD_eq_getElem?_getD]
    · intro i h
      rw [foldl_diag]
      rw [if_neg (by omega)]
  · simp [hn]

/-- `AllocateDiagonalMatrix(n)` on a container of another size gives `n` rows with the value 0. -/
theorem allocateDiagonal_spec (old : Crs K) (n : ℕ) (h : old.numRows ≠ n) :
    (old.allocateDiagonal n).numRows = n ∧ (old.allocateDiagonal n).data = List.replicate n 0 := by
  unfold Crs.allocateDiagonal; rw [if_neg h]; exact ⟨rfl, rfl⟩

/-- `AllocateDiagonalMatrix(n)` on a container of another size: entry number `i` is in row `i` and column `i`, and row `i`
begins with it. -/
theorem allocateDiagonal_places (old : Crs K) (n : ℕ) (h : old.numRows ≠ n) :
    (old.allocateDiagonal n).iIdx.length = n ∧ (old.allocateDiagonal n).jIdx.length = n ∧ (old.allocateDiagonal n).rowFirst.length = n ∧
    ∀ i < n, (old.allocateDiagonal n).iIdx[i]? = some i ∧ (old.allocateDiagonal n).jIdx[i]? = some i ∧
      (old.allocateDiagonal n).rowFirst[i]? = some i := by
  unfold Crs.allocateDiagonal
  rw [if_neg h]
  refine ⟨by simp, by simp, by simp, ?_⟩
  intro i hi
  simp [List.getElem?_range, hi]

theorem precond_fold_invariant (f : ℕ → K) (l : List (K × ℕ × ℕ)) (hl : ∀ e ∈ l, e.2.1 = e.2.2 → e.1 = f e.2.1)
    (data : List K) (m : ℕ) (rows : List ℕ)
    (hrows : (l.filter fun e => e.2.1 = e.2.2).map (fun e => e.2.1) = rows)
    (hm : rows = List.range' m rows.length) (hlen : m + rows.length ≤ data.length) :
    ∃ d, l.foldl precondStep (some (data, m)) = some (d, m + rows.length) ∧ d.length = data.length ∧
      ∀ i, d[i]? = if m ≤ i ∧ i < m + rows.length then some (1 / f i) else data[i]? := by
  induction l generalizing data m rows with
  | nil =>
    subst hrows
    refine ⟨data, by simp, rfl, ?_⟩
    intro i
    rw [if_neg]; simp
  | cons e l ih =>
    have hl' : ∀ x ∈ l, x.2.1 = x.2.2 → x.1 = f x.2.1 := fun x hx => hl x (List.mem_cons_of_mem _ hx)
    by_cases he : e.2.1 = e.2.2
    · have hr : rows = e.2.1 :: (l.filter fun e => e.2.1 = e.2.2).map (fun e => e.2.1) := by
        rw [← hrows]; simp [he]
      set rows' := (l.filter fun e => e.2.1 = e.2.2).map (fun e => e.2.1) with hrows'
      have hl1 : rows.length = rows'.length + 1 := by rw [hr]; simp
      rw [hr, List.length_cons, List.range'_succ] at hm
      obtain ⟨hm1, hm2⟩ := List.cons.inj hm
      have hml : m < data.length := by omega
      obtain ⟨d, h1, h2, h3⟩ := ih hl' (data.set m (1 / e.1)) (m + 1) rows' rfl hm2
        (by simp; omega)
      refine ⟨d, ?_, by simpa using h2, ?_⟩
      · simp only [List.foldl_cons]
        have : precondStep (some (data, m)) e = some (data.set m (1 / e.1), m + 1) := by
          simp [precondStep, he, hml]
        rw [this, h1, hl1]
        congr 2; omega
      · intro i
        rw [h3 i]
        by_cases hi : m + 1 ≤ i ∧ i < m + 1 + rows'.length
        · rw [if_pos hi, if_pos (by omega)]
        · rw [if_neg hi]
          by_cases him : i = m
          · subst him
            rw [if_pos (by omega), List.getElem?_set_self hml, hl e List.mem_cons_self he, hm1]
          · rw [if_neg (by omega), List.getElem?_set_ne (Ne.symm him)]
    · have hr : (l.filter fun e => e.2.1 = e.2.2).map (fun e => e.2.1) = rows := by
        rw [← hrows]; simp [he]
      obtain ⟨d, h1, h2, h3⟩ := ih hl' data m rows hr hm hlen
      refine ⟨d, ?_, h2, h3⟩
      simp only [List.foldl_cons]
      have : precondStep (some (data, m)) e = some (data, m) := by simp [precondStep, he]
      rw [this, h1]

/-- The diagonal entries of an admissible pattern, in storage order, are those of row 0, 1, 2, …, provided
every row has one. -/
theorem diagonal_rows (hA : Admissible pairs) (n : ℕ) (hrow : ∀ p ∈ pairs, p.1 < n)
    (hdiag : ∀ i < n, (i, i) ∈ pairs) :
    (pairs.filter fun e => e.1 = e.2).map Prod.fst = List.range' 0 n := by
  rw [← List.range_eq_range']
  have hs : ((pairs.filter fun e => e.1 = e.2).map Prod.fst).Pairwise (· < ·) := by
    rw [List.pairwise_map]
    have h1 : (pairs.filter fun e => e.1 = e.2).Pairwise rowMajorLT :=
      hA.sorted.sublist List.filter_sublist
    refine h1.imp_of_mem ?_
    intro a b ha hb hab
    have ha' : a.1 = a.2 := by simpa using (List.mem_filter.mp ha).2
    have hb' : b.1 = b.2 := by simpa using (List.mem_filter.mp hb).2
    rcases hab with h | ⟨h, h2⟩ <;> omega
  refine List.Perm.eq_of_pairwise' hs List.pairwise_lt_range ?_
  rw [List.perm_ext_iff_of_nodup (hs.imp fun h => Nat.ne_of_lt h) List.nodup_range]
  intro i
  simp only [List.mem_map, List.mem_filter, decide_eq_true_eq, Prod.exists, List.mem_range]
  constructor
  · rintro ⟨a, b, ⟨hm, rfl⟩, rfl⟩; exact hrow _ hm
  · intro hi; exact ⟨i, i, ⟨hdiag i hi, rfl⟩, rfl⟩

/-- **C19 (c)** with every diagonal entry present, the preconditioner holds `1 / A(i,i)` in row `i`,
whatever it held before. -/
theorem populatePreconditioner_spec {A M : Crs K} (hA : Admissible pairs) (h : HasPattern A pairs)
    (hdiag : ∀ i < A.numRows, (i, i) ∈ pairs) (hM : M.numRows = M.data.length)
    (hMA : M.numRows = A.numRows) :
    ∃ M', populatePreconditioner A M = some M' ∧ M'.numRows = A.numRows ∧
      M'.data.length = A.numRows ∧
      ∀ i < A.numRows, M'.data[i]? = (A.at? i i).map (1 / ·) := by
  obtain ⟨hi, hj⟩ := h.indices
  have hd := h.data_length
  set l := A.data.zip (A.iIdx.zip A.jIdx) with hl
  have hsnd : l.map Prod.snd = pairs := by
    have hz : (pairs.map Prod.fst).zip (pairs.map Prod.snd) = pairs := by
      rw [List.zip_map']; simp
    rw [hl, hi, hj, hz]
    apply List.map_snd_zip; omega
  have hrows : (l.filter fun e => e.2.1 = e.2.2).map (fun e => e.2.1) = List.range' 0 A.numRows := by
    rw [← diagonal_rows hA A.numRows (fun p hp => h.row_lt (j := p.2) hp) hdiag]
    conv_rhs => rw [← hsnd]
    rw [List.filter_map, List.map_map]
    rfl
  have hval : ∀ e ∈ l, e.2.1 = e.2.2 → e.1 = (fun i => (A.at? i i).getD 0) e.2.1 := by
    intro e he hee
    obtain ⟨p, hp⟩ := List.getElem?_of_mem he
    have h2 : pairs[p]? = some e.2 := by rw [← hsnd]; simp [hp]
    have h1 : A.data[p]? = some e.1 := by
      have hm : l.map Prod.fst = A.data := by
        rw [hl, hi, hj]; apply List.map_fst_zip; simp [hd]
      rw [← hm]; simp [hp]
    have h3 : pairs[p]? = some (e.2.1, e.2.1) := by rw [h2]; congr 1; exact Prod.ext rfl hee.symm
    simp only
    rw [at_listed hA h h3, h1]; rfl
  obtain ⟨d, h1, h2, h3⟩ := precond_fold_invariant (fun i => (A.at? i i).getD 0) l hval M.data 0
    (List.range' 0 A.numRows) hrows (by simp) (by simp; omega)
  refine ⟨{ M with data := d }, ?_, hMA, by simp only; omega, ?_⟩
  · unfold populatePreconditioner
    rw [if_neg (by simpa using hM)]
    rw [← hl, h1]; rfl
  · intro i hi'
    simp only
    rw [h3 i, if_pos (by simpa using hi')]
    have := (at_isSome_iff hA h i i).mpr (hdiag i hi')
    obtain ⟨x, hx⟩ := Option.isSome_iff_exists.mp this
    simp [hx]

/-- `InnerProduct` is the sum of products. -/
theorem innerProduct_eq (n : ℕ) (u v : ℕ → K) :
    innerProduct n u v = ∑ i ∈ Finset.range n, u i * v i := by
  unfold innerProduct
  induction n with
  | zero => simp
  | succ n ih =>
    rw [List.range_succ (n := n), List.foldl_append, Finset.sum_range_succ, ← ih]
    rfl

/-! ### The hypotheses are met, and they are needed -/

/-- A tridiagonal 3×3 pattern is admissible. -/
def tri3 : List (ℕ × ℕ) := [(0, 0), (0, 1), (1, 0), (1, 1), (1, 2), (2, 1), (2, 2)]

theorem tri3_admissible : Admissible tri3 := by
  constructor
  · unfold tri3 rowMajorLT; decide
  · intro p hp r hr
    have : ∀ q ∈ tri3, q.1 ≤ 2 := by decide
    have := this p hp
    have hr' : r ≤ 2 := by omega
    refine ⟨r, ?_⟩
    have : r = 0 ∨ r = 1 ∨ r = 2 := by omega
    rcases this with rfl | rfl | rfl <;> decide

example : (allocated (Crs.empty : Crs ℚ) tri3).findIndex 1 2 = .found 4 :=
  (access_listed tri3_admissible (allocated_hasPattern _ _) rfl).1

example : (allocated (Crs.empty : Crs ℚ) tri3).findIndex 2 0 = .throws :=
  access_unlisted tri3_admissible (by decide) (allocated_hasPattern _ _) (by decide) (by decide)

/-- The hypothesis "no empty row" is needed: with row 1 empty, the *listed* entry `(0,0)` is not found,
and the access `(1,0)` to the empty row is answered with the slot of the entry `(0,0)`. -/
theorem empty_row_breaks_lookup :
    let A := allocated (Crs.empty : Crs ℚ) [(0, 0), (0, 2), (2, 2)]
    A.findIndex 0 0 = .throws ∧ A.findIndex 1 0 = .found 0 := by
  decide +kernel

end NimbleSM.Solver
