import Verif.Contact.GlobalBox
import Mathlib.Tactic.NormNum
import Mathlib.Tactic.Linarith
import Mathlib.Tactic.FinCases
import Mathlib.Tactic.IntervalCases
import Mathlib.Tactic.Ring
import Mathlib.Data.Fintype.Order

/-!
# C127: the box around all contact nodes
-/

open scoped BigOperators

namespace NimbleSM.Contact

/-! ## Specification -/

/-- `box` is the smallest box around the nodes: it contains them, and each of its six faces touches one. -/
structure IsSmallestBox (n : ℕ) (position : ℕ → Fin 3 → ℝ) (box : Fin 6 → ℝ) : Prop where
  contains : ∀ i < n, ∀ d : Fin 3, box ⟨2 * d, by omega⟩ ≤ position i d ∧ position i d ≤ box ⟨2 * d + 1, by omega⟩
  touches : ∀ d : Fin 3, (∃ i < n, position i d = box ⟨2 * d, by omega⟩) ∧ ∃ i < n, position i d = box ⟨2 * d + 1, by omega⟩

/-! ## Entries -/

/-- The coordinates that the operations offer to an entry. -/
def offered (ops : List BoxOp) (k : Fin 6) : List ℝ := (ops.filter fun op => op.1 = k).map Prod.snd

theorem run_entry (ops : List BoxOp) (box : Fin 6 → ℝ) (k : Fin 6) :
    ops.foldl BoxOp.run box k = if k = 0 ∨ k = 2 ∨ k = 4 then (offered ops k).foldl min (box k) else (offered ops k).foldl max (box k) := by
  induction ops generalizing box with
  | nil => simp [offered]
  | cons op ops ih =>
    rw [List.foldl_cons, ih]
    by_cases hk : op.1 = k
    · subst hk
      have : offered (op :: ops) op.1 = op.2 :: offered ops op.1 := by simp [offered]
      rw [this]
      by_cases he : op.1 = 0 ∨ op.1 = 2 ∨ op.1 = 4
      · simp [he, BoxOp.run]
      · simp [he, BoxOp.run]
    · have : offered (op :: ops) k = offered ops k := by simp [offered, hk]
      rw [this]
      simp [BoxOp.run, Function.update_of_ne (Ne.symm hk)]

theorem foldl_min_spec (l : List ℝ) (a : ℝ) : l.foldl min a ≤ a ∧ (∀ x ∈ l, l.foldl min a ≤ x) ∧ (l.foldl min a = a ∨ l.foldl min a ∈ l) := by
  induction l generalizing a with
  | nil => simp
  | cons x l ih =>
    obtain ⟨h1, h2, h3⟩ := ih (min a x)
    rw [List.foldl_cons]
    refine ⟨h1.trans (min_le_left _ _), ?_, ?_⟩
    · intro y hy
      rcases List.mem_cons.mp hy with rfl | hy
      · exact h1.trans (min_le_right _ _)
      · exact h2 y hy
    · rcases h3 with h | h
      · rcases min_choice a x with hm | hm
        · left; rw [h, hm]
        · right; rw [h, hm]; exact List.mem_cons_self
      · right; exact List.mem_cons_of_mem _ h

theorem foldl_max_spec (l : List ℝ) (a : ℝ) : a ≤ l.foldl max a ∧ (∀ x ∈ l, x ≤ l.foldl max a) ∧ (l.foldl max a = a ∨ l.foldl max a ∈ l) := by
  induction l generalizing a with
  | nil => simp
  | cons x l ih =>
    obtain ⟨h1, h2, h3⟩ := ih (max a x)
    rw [List.foldl_cons]
    refine ⟨(le_max_left _ _).trans h1, ?_, ?_⟩
    · intro y hy
      rcases List.mem_cons.mp hy with rfl | hy
      · exact (le_max_right _ _).trans h1
      · exact h2 y hy
    · rcases h3 with h | h
      · rcases max_choice a x with hm | hm
        · left; rw [h, hm]
        · right; rw [h, hm]; exact List.mem_cons_self
      · right; exact List.mem_cons_of_mem _ h

theorem mem_offered (coord : ℕ → ℝ) (n : ℕ) (ops : List BoxOp) (h : ops.Perm (allBoxOps coord (3 * n))) (d : Fin 3) (x : ℝ) :
    (x ∈ offered ops ⟨2 * d, by omega⟩ ↔ ∃ i < n, coord (3 * i + d) = x) ∧
      (x ∈ offered ops ⟨2 * d + 1, by omega⟩ ↔ ∃ i < n, coord (3 * i + d) = x) := by
  have key : ∀ k : Fin 6, x ∈ offered ops k ↔ ∃ i < n, (k, x) ∈ nodeBoxOps coord i := by
    intro k
    unfold offered
    rw [List.mem_map]
    constructor
    · rintro ⟨op, hop, rfl⟩
      obtain ⟨h1, h2⟩ := List.mem_filter.mp hop
      have h3 := h.mem_iff.mp h1
      unfold allBoxOps at h3
      rw [Nat.mul_div_cancel_left _ (by decide)] at h3
      obtain ⟨i, hi, hio⟩ := List.mem_flatMap.mp h3
      refine ⟨i, List.mem_range.mp hi, ?_⟩
      rw [← of_decide_eq_true h2]; exact hio
    · rintro ⟨i, hi, hio⟩
      refine ⟨(k, x), List.mem_filter.mpr ⟨h.mem_iff.mpr ?_, by simp⟩, rfl⟩
      unfold allBoxOps
      rw [Nat.mul_div_cancel_left _ (by decide)]
      exact List.mem_flatMap.mpr ⟨i, List.mem_range.mpr hi, hio⟩
  rw [key, key]
  have e : ∀ k : Fin 6, ∀ i, (k, x) ∈ nodeBoxOps coord i ↔ coord (3 * i + k / 2) = x := by
    intro k i
    fin_cases k <;> simp [nodeBoxOps, eq_comm]
  simp only [e]
  fin_cases d <;> simp

/-- **C127, the part that holds.**  For at least one contact node, with coordinates in range, every order of the atomic operations leaves
the smallest box around the nodes. -/
theorem bounding_box_exact_partial (big : ℝ) (coord : ℕ → ℝ) (n : ℕ) (hn : 0 < n) (hbig : ∀ j < 3 * n, |coord j| ≤ big) (ops : List BoxOp)
    (hops : ops.Perm (allBoxOps coord (3 * n))) : IsSmallestBox n (fun i d => coord (3 * i + d)) (boundingBoxOf big ops) := by
  have hmin : ∀ d : Fin 3, boundingBoxOf big ops ⟨2 * d, by omega⟩ = (offered ops ⟨2 * d, by omega⟩).foldl min big := by
    intro d
    unfold boundingBoxOf
    rw [run_entry]
    fin_cases d <;> rfl
  have hmax : ∀ d : Fin 3, boundingBoxOf big ops ⟨2 * d + 1, by omega⟩ = (offered ops ⟨2 * d + 1, by omega⟩).foldl max (-big) := by
    intro d
    unfold boundingBoxOf
    rw [run_entry]
    fin_cases d <;> simp [startBox]
  refine ⟨fun i hi d => ⟨?_, ?_⟩, fun d => ⟨?_, ?_⟩⟩
  · rw [hmin]
    exact (foldl_min_spec _ _).2.1 _ ((mem_offered coord n ops hops d _).1.mpr ⟨i, hi, rfl⟩)
  · rw [hmax]
    exact (foldl_max_spec _ _).2.1 _ ((mem_offered coord n ops hops d _).2.mpr ⟨i, hi, rfl⟩)
  · rw [hmin]
    obtain ⟨h1, h2, h3⟩ := foldl_min_spec (offered ops ⟨2 * d, by omega⟩) big
    rcases h3 with h | h
    · refine ⟨0, hn, le_antisymm ?_ ?_⟩
      · rw [h]; exact (abs_le.mp (hbig _ (by omega))).2
      · exact h2 _ ((mem_offered coord n ops hops d _).1.mpr ⟨0, hn, rfl⟩)
    · exact (mem_offered coord n ops hops d _).1.mp h
  · rw [hmax]
    obtain ⟨h1, h2, h3⟩ := foldl_max_spec (offered ops ⟨2 * d + 1, by omega⟩) (-big)
    rcases h3 with h | h
    · refine ⟨0, hn, le_antisymm ?_ ?_⟩
      · exact h2 _ ((mem_offered coord n ops hops d _).2.mpr ⟨0, hn, rfl⟩)
      · rw [h]; exact (abs_le.mp (hbig _ (by omega))).1
    · exact (mem_offered coord n ops hops d _).2.mp h

/-- The longest edge is the largest extent of the nodes in a coordinate direction. -/
theorem longest_edge_exact {n : ℕ} {position : ℕ → Fin 3 → ℝ} {box : Fin 6 → ℝ} (h : IsSmallestBox n position box) :
    (∀ i < n, ∀ j < n, ∀ d, position i d - position j d ≤ longestEdge box) ∧
      ∃ i < n, ∃ j < n, ∃ d, position i d - position j d = longestEdge box := by
  have hle : ∀ d : Fin 3, box ⟨2 * d + 1, by omega⟩ - box ⟨2 * d, by omega⟩ ≤ longestEdge box := by
    intro d
    unfold longestEdge
    simp only
    fin_cases d <;> (simp only; split_ifs <;> simp_all <;> linarith)
  have heq : ∃ d : Fin 3, box ⟨2 * d + 1, by omega⟩ - box ⟨2 * d, by omega⟩ = longestEdge box := by
    unfold longestEdge
    simp only
    split_ifs
    · exact ⟨2, rfl⟩
    · exact ⟨1, rfl⟩
    · exact ⟨2, rfl⟩
    · exact ⟨0, rfl⟩
  refine ⟨fun i hi j hj d => ?_, ?_⟩
  · have h1 := (h.contains i hi d).2
    have h2 := (h.contains j hj d).1
    linarith [hle d]
  · obtain ⟨d, hd⟩ := heq
    obtain ⟨⟨j, hj, hj'⟩, i, hi, hi'⟩ := h.touches d
    exact ⟨i, hi, j, hj, d, by rw [hi', hj', hd]⟩

/-- **C127, refuted.**  The average over the ranks is not an average of lengths if a rank has no contact nodes: then it is negative, whatever
the nodes of the other rank within range. -/
theorem average_length_refuted (big : ℝ) (hbig : 0 < big) (box : Fin 6 → ℝ) (hbox : ∀ k, |box k| < big) :
    averageLength ![box, boundingBoxOf big (allBoxOps (fun _ => 0) 0)] < 0 := by
  have h1 : longestEdge (boundingBoxOf big (allBoxOps (fun _ => 0) 0)) = -2 * big := by
    have : boundingBoxOf big (allBoxOps (fun _ => 0) 0) = startBox big := rfl
    rw [this]
    unfold longestEdge
    have e : ∀ a b c : ℝ, (![a, b, a, b, a, b] : Fin 6 → ℝ) 5 = b ∧ (![a, b, a, b, a, b] : Fin 6 → ℝ) 4 = a ∧
      (![a, b, a, b, a, b] : Fin 6 → ℝ) 3 = b ∧ (![a, b, a, b, a, b] : Fin 6 → ℝ) 2 = a := fun a b c => ⟨rfl, rfl, rfl, rfl⟩
    obtain ⟨e5, e4, e3, e2⟩ := e big (-1 * big) 0
    have e1 : (![big, -1 * big, big, -1 * big, big, -1 * big] : Fin 6 → ℝ) 1 = -1 * big := rfl
    have e0 : (![big, -1 * big, big, -1 * big, big, -1 * big] : Fin 6 → ℝ) 0 = big := rfl
    simp only [startBox, e0, e1, e2, e3, e4, e5]
    simp
    ring
  have h2 : longestEdge box < 2 * big := by
    have b : ∀ k, -big < box k ∧ box k < big := fun k => abs_lt.mp (hbox k)
    unfold longestEdge
    simp only
    have := b 0; have := b 1; have := b 2; have := b 3; have := b 4; have := b 5
    split_ifs <;> linarith [(b 0).1, (b 1).2, (b 2).1, (b 3).2, (b 4).1, (b 5).2]
  unfold averageLength
  rw [Fin.sum_univ_two]
  show (longestEdge box + longestEdge (boundingBoxOf big (allBoxOps (fun _ => 0) 0))) / ((2 : ℕ) : ℝ) < 0
  rw [h1]
  apply div_neg_of_neg_of_pos
  · linarith
  · norm_num

/-- Not vacuous: two nodes, the operations executed backwards. -/
example : IsSmallestBox 2 (fun i d => (![1, 5, -2, 4, 0, 3] : Fin 6 → ℝ) (Fin.ofNat 6 (3 * i + d)))
    (boundingBoxOf 100 (allBoxOps (fun j => (![1, 5, -2, 4, 0, 3] : Fin 6 → ℝ) (Fin.ofNat 6 j)) (3 * 2)).reverse) :=
  bounding_box_exact_partial 100 (fun j => (![1, 5, -2, 4, 0, 3] : Fin 6 → ℝ) (Fin.ofNat 6 j)) 2 (by decide) (by
    intro j hj
    interval_cases j <;> norm_num [abs_le, Fin.ofNat]) _ (List.reverse_perm _)

end NimbleSM.Contact
