import Verif.Fields.View
import Mathlib.Tactic.Ring
import Mathlib.Tactic.Linarith
import Mathlib.Data.Rat.Defs

/-!
# C57: views address every entry once
-/

namespace NimbleSM.Views

variable {K : Type} [Field K]

/-- The storage of a nodal vector field with `n` nodes at `p`. -/
def Storage (p : ℤ) (n : ℕ) (q : ℤ) : Prop := p ≤ q ∧ q < p + 3 * n

/-- A view shows each entry of an `n × 3` array at its own place in the storage at `p`, and nothing is left over. -/
def ShowsAll (v : View2) (p : ℤ) (n : ℕ) : Prop :=
  (∀ i j : ℤ, 0 ≤ i → i < n → 0 ≤ j → j < 3 → Storage p n (v.addr i j)) ∧
  ∀ q, Storage p n q → ∃! ij : ℤ × ℤ, 0 ≤ ij.1 ∧ ij.1 < n ∧ 0 ≤ ij.2 ∧ ij.2 < 3 ∧ v.addr ij.1 ij.2 = q

theorem right_shows_all (v : View2) (p : ℤ) (n : ℕ) (h0 : v.data = p) (h1 : v.stride0 = 3) (h2 : v.stride1 = 1) : ShowsAll v p n := by
  unfold ShowsAll Storage View2.addr
  rw [h0, h1, h2]
  constructor
  · intro i j a b c d; omega
  · intro q hq
    refine ⟨((q - p) / 3, (q - p) % 3), ⟨by omega, by omega, by omega, by omega, by omega⟩, ?_⟩
    rintro ⟨i, j⟩ h
    simp only [] at h
    simp only [Prod.mk.injEq]
    omega

/-- **C57, addresses.**  The views of vector fields (serial model data, or Kokkos on hosts) show every number of the field exactly once. -/
theorem vector_view_bijection (p : ℤ) (n : ℕ) : ShowsAll (getVectorNodeData p (3 * n)) p n ∧ (getVectorNodeData p (3 * n)).len0 = n ∧
    (getVectorNodeData p (3 * n)).len1 = 3 := by
  refine ⟨right_shows_all _ _ _ rfl rfl rfl, ?_, rfl⟩
  show Int.tdiv ((3 * n : ℕ) : ℤ) 3 = n
  rw [Int.tdiv_eq_ediv_of_nonneg (by omega)]; omega

/-- **C57, addresses, Kokkos.**  In both layouts the view shows every number of the field exactly once. -/
theorem kokkos_view_bijection (l : Layout) (p : ℤ) (n : ℕ) : ShowsAll (kokkosVectorNodeData l p n) p n := by
  cases l with
  | right => exact right_shows_all _ _ _ rfl rfl rfl
  | left =>
    unfold ShowsAll Storage View2.addr kokkosVectorNodeData
    simp only []
    constructor
    · intro i j a b c d
      have : j = 0 ∨ j = 1 ∨ j = 2 := by omega
      rcases this with rfl | rfl | rfl <;> omega
    · intro q hq
      have hn : (0 : ℤ) < n := by omega
      refine ⟨((q - p) % n, (q - p) / n), ⟨Int.emod_nonneg _ hn.ne', Int.emod_lt_of_pos _ hn, Int.ediv_nonneg (by omega) hn.le,
        Int.ediv_lt_of_lt_mul hn (by omega), ?_⟩, ?_⟩
      · simp only []
        have := Int.emod_add_mul_ediv (q - p) n
        rw [mul_comm] at this
        omega
      · rintro ⟨i, j⟩ h
        simp only [] at h
        obtain ⟨a, b, c, d, e⟩ := h
        have hq' : q - p = i + n * j := by rw [mul_comm]; omega
        rw [hq', Int.add_mul_emod_self_left, Int.emod_eq_of_lt a b, Int.add_mul_ediv_left _ _ hn.ne', Int.ediv_eq_zero_of_lt a b, zero_add]

/-- **C57, addresses, scalars.** -/
theorem scalar_view_bijection (p : ℤ) (n : ℕ) : (getScalarNodeData p n).len0 = n ∧ ∀ q, (p ≤ q ∧ q < p + n) ↔
    ∃! i : ℤ, 0 ≤ i ∧ i < n ∧ (getScalarNodeData p n).addr i = q := by
  refine ⟨rfl, fun q => ⟨fun h => ⟨q - p, ⟨by omega, by omega, by show p + (q - p) = q; omega⟩, ?_⟩, ?_⟩⟩
  · rintro i ⟨-, -, h⟩
    have : p + i = q := h
    omega
  · rintro ⟨i, ⟨a, b, h⟩, -⟩
    have : p + i = q := h
    omega

/-! ## Loops -/

/-- The two arrays of a loop of `n` turns are the same or do not meet. -/
def Apart (data rhs : ℤ) (n : ℕ) : Prop := data = rhs ∨ data + n ≤ rhs ∨ rhs + n ≤ data

theorem loop_outside (f : K → K → K) (data rhs : ℤ) (n : ℕ) (m : Mem K) (q : ℤ) (h : q < data ∨ data + n ≤ q) : loop f data rhs n m q = m q := by
  induction n with
  | zero => rfl
  | succ n ih =>
    rw [loop]
    simp only [Mem.write]
    rw [if_neg (by omega), ih (by omega)]

theorem loop_inside (f : K → K → K) (data rhs : ℤ) (n : ℕ) (m : Mem K) (ha : Apart data rhs n) (k : ℤ) (h0 : 0 ≤ k) (h1 : k < n) :
    loop f data rhs n m (data + k) = f (m (data + k)) (m (rhs + k)) := by
  induction n with
  | zero => omega
  | succ n ih =>
    rw [loop]
    simp only [Mem.write]
    unfold Apart at ha ih
    split_ifs with hk
    · have : k = n := by omega
      subst this
      rw [loop_outside f data rhs n m (data + n) (by omega)]
      rcases ha with rfl | ha
      · rw [loop_outside f data data n m (data + n) (by omega)]
      · rw [loop_outside f data rhs n m (rhs + n) (by omega)]
    · exact ih (by omega) (by omega)

/-! ## Whole arrays -/

/-- Two views of vector fields of the same `n` nodes and layout, on the same storage or on storages that do not meet. -/
def Compatible (p q : ℤ) (n : ℕ) : Prop := p = q ∨ p + 3 * n ≤ q ∨ q + 3 * n ≤ p

theorem loop_view (f : K → K → K) (p q : ℤ) (n : ℕ) (m : Mem K) (h : Compatible p q n) (V W : View2)
    (hV : V = ⟨p, n, 3, 3, 1⟩) (hW : W = ⟨q, n, 3, 3, 1⟩) :
    (∀ i j : ℤ, 0 ≤ i → i < n → 0 ≤ j → j < 3 → loop f V.data W.data V.turns m (V.addr i j) = f (m (V.addr i j)) (m (W.addr i j))) ∧
    ∀ a, ¬ Storage p n a → loop f V.data W.data V.turns m a = m a := by
  subst hV; subst hW
  have ht : (View2.turns ⟨p, n, 3, 3, 1⟩) = 3 * n := by unfold View2.turns; simp only []; omega
  rw [ht]
  constructor
  · intro i j a b c d
    unfold View2.addr
    simp only []
    exact loop_inside f p q (3 * n) m (by unfold Apart Compatible at *; push_cast; omega) _ (by omega) (by push_cast; omega)
  · intro a ha
    unfold Storage at ha
    exact loop_outside f p q (3 * n) m a (by push_cast; omega)

theorem vector_eq (p : ℤ) (n : ℕ) : getVectorNodeData p (3 * n) = ⟨p, n, 3, 3, 1⟩ := by
  unfold getVectorNodeData
  congr 1
  rw [Int.tdiv_eq_ediv_of_nonneg (by omega)]; omega

/-- **C57, `zero`, scalars.**  Every entry of a scalar field becomes zero; no other memory is touched. -/
theorem scalar_view_zero (p : ℤ) (n : ℕ) (m : Mem K) :
    let V := getScalarNodeData p n
    (∀ i : ℤ, 0 ≤ i → i < n → V.zero m (V.addr i) = 0) ∧ ∀ a, ¬ (p ≤ a ∧ a < p + n) → V.zero m a = m a := by
  intro V
  have ht : V.turns = n := by
    show ((1 : ℤ) * (n : ℤ)).toNat = n
    omega
  unfold View1.zero
  rw [ht]
  constructor
  · intro i h0 h1
    exact loop_inside (fun _ _ => (0 : K)) p p n m (Or.inl rfl) i h0 h1
  · intro a ha
    exact loop_outside (fun _ _ => (0 : K)) p p n m a (by omega)

/-- **C57, `zero`.**  Every entry becomes zero; no other memory is touched. -/
theorem view_zero (p : ℤ) (n : ℕ) (m : Mem K) :
    let V := getVectorNodeData p (3 * n)
    (∀ i j : ℤ, 0 ≤ i → i < n → 0 ≤ j → j < 3 → V.zero m (V.addr i j) = 0) ∧ ∀ a, ¬ Storage p n a → V.zero m a = m a := by
  intro V
  have hV : V = _ := vector_eq p n
  exact loop_view (fun _ _ => 0) p p n m (Or.inl rfl) V V hV hV

/-- **C57, `copy`.**  Every entry becomes the entry of the other view; no other memory is touched. -/
theorem view_copy (p q : ℤ) (n : ℕ) (h : Compatible p q n) (m : Mem K) :
    let V := getVectorNodeData p (3 * n)
    let W := getVectorNodeData q (3 * n)
    (∀ i j : ℤ, 0 ≤ i → i < n → 0 ≤ j → j < 3 → V.copy W m (V.addr i j) = m (W.addr i j)) ∧ ∀ a, ¬ Storage p n a → V.copy W m a = m a :=
  loop_view (fun _ r => r) p q n m h _ _ (vector_eq p n) (vector_eq q n)

/-- **C57, `+=`.**  `dest += alpha * A` adds `alpha` times the entry of `A` to every entry, once; no other memory is touched.  `dest` and `A` may be
the same view. -/
theorem view_axpy [DecidableEq K] (p q : ℤ) (n : ℕ) (h : Compatible p q n) (alpha : K) (m : Mem K) :
    let dest := getVectorNodeData p (3 * n)
    let A := getVectorNodeData q (3 * n)
    (∀ i j : ℤ, 0 ≤ i → i < n → 0 ≤ j → j < 3 → dest.axpy alpha A m (dest.addr i j) = m (dest.addr i j) + alpha * m (A.addr i j)) ∧
      ∀ a, ¬ Storage p n a → dest.axpy alpha A m a = m a := by
  intro dest A
  have := loop_view (fun d r : K => d + (alpha * 1) * r) p q n m h dest A (vector_eq p n) (vector_eq q n)
  simp only [mul_one] at this
  unfold View2.axpy View2.assignTo
  simpa only [if_true, mul_one] using this

/-- **C57, `assignTo`.**  The three branches compute the same thing: `destCoef * dest + rhsCoef * alpha * A`. -/
theorem view_assignTo [DecidableEq K] (p q : ℤ) (n : ℕ) (h : Compatible p q n) (alpha c r : K) (m : Mem K) :
    let dest := getVectorNodeData p (3 * n)
    let A := getVectorNodeData q (3 * n)
    (∀ i j : ℤ, 0 ≤ i → i < n → 0 ≤ j → j < 3 →
        A.assignTo alpha c r dest m (dest.addr i j) = c * m (dest.addr i j) + r * alpha * m (A.addr i j)) ∧
      ∀ a, ¬ Storage p n a → A.assignTo alpha c r dest m a = m a := by
  intro dest A
  unfold View2.assignTo
  have key : ∀ f : K → K → K, (∀ d x, f d x = c * d + r * alpha * x) →
      (∀ i j : ℤ, 0 ≤ i → i < n → 0 ≤ j → j < 3 →
        loop f dest.data A.data dest.turns m (dest.addr i j) = c * m (dest.addr i j) + r * alpha * m (A.addr i j)) ∧
      ∀ a, ¬ Storage p n a → loop f dest.data A.data dest.turns m a = m a := by
    intro f hf
    have := loop_view f p q n m h dest A (vector_eq p n) (vector_eq q n)
    exact ⟨fun i j a b c d => (this.1 i j a b c d).trans (hf _ _), this.2⟩
  split_ifs with h1 h2
  · exact key _ fun d x => by rw [h1]; ring
  · exact key _ fun d x => by rw [h2]; ring
  · exact key _ fun d x => by ring

/-- On hosts the Kokkos view is the view of the serial model data. -/
theorem kokkos_right_eq (p : ℤ) (n : ℕ) : kokkosVectorNodeData .right p n = getVectorNodeData p (3 * n) := (vector_eq p n).symm

/-- **C91 (partial).**  With storage by rows, `dest += alpha * A` on the views of the Kokkos model data updates all three components of every node.
Missing: storage by columns, for which it is false (`left_layout_first_component_only`). -/
theorem kokkos_update_partial [DecidableEq K] (p q : ℤ) (n : ℕ) (h : Compatible p q n) (alpha : K) (m : Mem K) :
    let dest := kokkosVectorNodeData .right p n
    let A := kokkosVectorNodeData .right q n
    ∀ i j : ℤ, 0 ≤ i → i < n → 0 ≤ j → j < 3 → dest.axpy alpha A m (dest.addr i j) = m (dest.addr i j) + alpha * m (A.addr i j) := by
  intro dest A
  have hd : dest = _ := kokkos_right_eq p n
  have hA : A = _ := kokkos_right_eq q n
  rw [hd, hA]
  exact (view_axpy p q n h alpha m).1

/-- **C91, refutation for column storage.**  With the column layout that CUDA builds give to host views, `dest += alpha * A` changes the first
component of every node only: the other two keep their values. -/
theorem left_layout_first_component_only [DecidableEq K] (p q : ℤ) (n : ℕ) (h : Compatible p q n) (alpha : K) (m : Mem K) :
    let dest := kokkosVectorNodeData .left p n
    let A := kokkosVectorNodeData .left q n
    ∀ i j : ℤ, 0 ≤ i → i < n → 0 ≤ j → j < 3 → dest.axpy alpha A m (dest.addr i j) =
      if j = 0 then m (dest.addr i j) + alpha * m (A.addr i j) else m (dest.addr i j) := by
  intro dest A i j hi hi' hj hj'
  have ht : dest.turns = n := by show ((1 : ℤ) * n).toNat = n; omega
  unfold View2.axpy View2.assignTo
  simp only [if_true, mul_one, ht]
  have hd : dest.data = p := rfl
  have hA : A.data = q := rfl
  have ha : dest.addr i j = p + (i + j * n) := by show p + (i * 1 + j * n) = _; ring
  have hb : A.addr i j = q + (i + j * n) := by show q + (i * 1 + j * n) = _; ring
  rw [hd, hA, ha, hb]
  split_ifs with h0
  · subst h0
    exact loop_inside _ p q n m (by unfold Apart Compatible at *; omega) _ (by omega) (by omega)
  · exact loop_outside _ p q n m _ (by
      have : j = 1 ∨ j = 2 := by omega
      rcases this with rfl | rfl <;> omega)

/-! ## Examples -/

/-- Two nodes: velocities at 100, accelerations at 200. -/
def demo : Mem ℚ := fun a => if 100 ≤ a ∧ a < 106 then 1 else if 200 ≤ a ∧ a < 206 then a else -7

example : (List.range 8).map (fun k : ℕ => (getVectorNodeData 100 6).axpy (1 / 2) (getVectorNodeData 200 6) demo (99 + k)) =
    [-7, 101, 203 / 2, 102, 205 / 2, 103, 207 / 2, -7] := by decide +kernel
example : (List.range 6).map (fun k : ℕ => (kokkosVectorNodeData .left 100 2).axpy (1 / 2) (kokkosVectorNodeData .left 200 2) demo (100 + k)) =
    [101, 203 / 2, 1, 1, 1, 1] := by decide +kernel
example : Compatible 100 200 2 := by unfold Compatible; decide
example : Compatible 100 100 2 := by unfold Compatible; decide
/-- A view used as its own right hand side. -/
example : (List.range 6).map (fun k : ℕ => (getVectorNodeData 100 6).axpy 2 (getVectorNodeData 100 6) demo (100 + k)) = [3, 3, 3, 3, 3, 3] := by
  decide +kernel

end NimbleSM.Views
