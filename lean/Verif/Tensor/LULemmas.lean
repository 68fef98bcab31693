import Verif.Tensor.LU
import Mathlib.Algebra.BigOperators.Intervals
import Mathlib.Algebra.BigOperators.Fin
import Mathlib.Algebra.Order.Field.Basic
import Mathlib.Logic.Equiv.Fin.Basic
import Mathlib.LinearAlgebra.Matrix.NonsingularInverse
import Mathlib.LinearAlgebra.Matrix.ToLinearEquiv
import Mathlib.LinearAlgebra.Dimension.Constructions
import Mathlib.LinearAlgebra.FiniteDimensional.Lemmas
import Mathlib.Tactic.Ring
import Mathlib.Tactic.Linarith

namespace NimbleSM.LU

open Finset

set_option linter.unusedSectionVars false

variable {K : Type*} [Field K] [LinearOrder K]

theorem foldl_sub_eq (f : ℕ → K) (a : K) (b : ℕ) :
    (List.range b).foldl (fun s k => s - f k) a = a - ∑ k ∈ range b, f k := by
  induction b with
  | zero => simp
  | succ b ih => rw [List.range_succ, List.foldl_append, ih, sum_range_succ]; simp; ring

theorem foldl_sub_range' (f : ℕ → K) (a : K) (s c : ℕ) :
    (List.range' s c).foldl (fun s k => s - f k) a = a - ∑ k ∈ range c, f (s + k) := by
  induction c with
  | zero => simp
  | succ c ih =>
    rw [List.range'_concat, List.foldl_append, ih, sum_range_succ]; simp; ring

theorem reduceEntry_eq (m : ℕ → ℕ → K) (i j b : ℕ) :
    reduceEntry m i j b = m i j - ∑ k ∈ range b, m i k * m k j := by
  unfold reduceEntry
  exact foldl_sub_eq (fun k => m i k * m k j) _ b

theorem upper_spec (j : ℕ) (m : ℕ → ℕ → K) (b : ℕ) (hb : b ≤ j) :
    let U := (List.range b).foldl (fun m i => set2 m i j (reduceEntry m i j i)) m
    (∀ a c, ¬ (a < b ∧ c = j) → U a c = m a c) ∧
    (∀ i, i < b → U i j = m i j - ∑ k ∈ range i, m i k * U k j) := by
  induction b with
  | zero => simp
  | succ b ih =>
    obtain ⟨h1, h2⟩ := ih (by omega)
    rw [List.range_succ, List.foldl_append]
    simp only [List.foldl_cons, List.foldl_nil]
    set U := (List.range b).foldl (fun m i => set2 m i j (reduceEntry m i j i)) m with hU
    constructor
    · intro a c hac
      have : ¬ (a = b ∧ c = j) := fun h => hac ⟨by omega, h.2⟩
      simp only [set2, this, if_false]
      exact h1 a c (fun h => hac ⟨by omega, h.2⟩)
    · intro i hi
      by_cases hib : i = b
      · subst hib
        simp only [set2, reduceEntry_eq]
        rw [if_pos (by simp), h1 i j (by omega)]
        congr 1
        apply sum_congr rfl
        intro k hk
        have hk' := mem_range.mp hk
        rw [h1 i k (by omega), if_neg (by omega)]
      · have hi' : i < b := by omega
        have e1 : set2 U b j (reduceEntry U b j b) i j = U i j := by
          simp [set2, hib]
        rw [e1, h2 i hi']
        congr 1
        apply sum_congr rfl
        intro k hk
        have hk' := mem_range.mp hk
        simp only [set2]
        rw [if_neg (by omega)]

theorem upperPart_spec (j : ℕ) (m : ℕ → ℕ → K) :
    (∀ a c, ¬ (a < j ∧ c = j) → upperPart j m a c = m a c) ∧
    (∀ i, i < j → upperPart j m i j = m i j - ∑ k ∈ range i, m i k * upperPart j m k j) :=
  upper_spec j m j le_rfl

theorem lower_spec (j : ℕ) (vv : ℕ → K) (m : ℕ → ℕ → K) (imax c : ℕ) :
    let S := (List.range' j c).foldl
      (fun (m, big, imax) i =>
        let sum := reduceEntry m i j j
        let m := set2 m i j sum
        if vv i * |sum| > big then (m, vv i * |sum|, i) else (m, big, imax))
      (m, 0, imax)
    (∀ a b, ¬ (j ≤ a ∧ a < j + c ∧ b = j) → S.1 a b = m a b) ∧
    (∀ a, j ≤ a → a < j + c → S.1 a j = m a j - ∑ k ∈ range j, m a k * m k j) ∧
    (∀ a, j ≤ a → a < j + c → vv a * |S.1 a j| ≤ S.2.1) ∧
    ((S.2.1 = 0 ∧ S.2.2 = imax) ∨
      (0 < S.2.1 ∧ j ≤ S.2.2 ∧ S.2.2 < j + c ∧ S.2.1 = vv S.2.2 * |S.1 S.2.2 j|)) := by
  induction c with
  | zero =>
    simp only [List.range'_zero, List.foldl_nil, implies_true, true_and, and_self, true_or,
      and_true, Nat.add_zero]
    exact ⟨fun a h1 h2 => by omega, fun a h1 h2 => by omega⟩
  | succ c ih =>
    rw [List.range'_concat, List.foldl_append]
    simp only [List.foldl_cons, List.foldl_nil, Nat.one_mul]
    revert ih
    generalize (List.range' j c).foldl
      (fun (x : (ℕ → ℕ → K) × K × ℕ) i =>
        match x with
        | (m, big, imax) =>
          let sum := reduceEntry m i j j
          let m := set2 m i j sum
          if vv i * |sum| > big then (m, vv i * |sum|, i) else (m, big, imax))
      (m, 0, imax) = S
    obtain ⟨M, big, im⟩ := S
    rintro ⟨h1, h2, h3, h4⟩
    simp only at h1 h2 h3 h4 ⊢
    have hred : reduceEntry M (j + c) j j = m (j + c) j - ∑ k ∈ range j, m (j + c) k * m k j := by
      rw [reduceEntry_eq, h1 (j + c) j (by omega)]
      congr 1
      apply sum_congr rfl
      intro k hk
      have hk' := mem_range.mp hk
      rw [h1 _ _ (by omega), h1 _ _ (by omega)]
    set x := reduceEntry M (j + c) j j with hx
    have e1 : ∀ a b, ¬ (j ≤ a ∧ a < j + (c + 1) ∧ b = j) → set2 M (j + c) j x a b = m a b := by
      intro a b hab
      simp only [set2]
      rw [if_neg (by omega), h1 a b (by omega)]
    have e2 : ∀ a, j ≤ a → a < j + (c + 1) →
        set2 M (j + c) j x a j = m a j - ∑ k ∈ range j, m a k * m k j := by
      intro a ha hac
      by_cases hac' : a = j + c
      · subst hac'; simp [set2, hred]
      · simp only [set2]
        rw [if_neg (by omega), h2 a ha (by omega)]
    have e3 : ∀ a, a ≠ j + c → set2 M (j + c) j x a j = M a j := by
      intro a ha; simp [set2, ha]
    have e4 : set2 M (j + c) j x (j + c) j = x := by simp [set2]
    have hbig : 0 ≤ big := by rcases h4 with ⟨h, _⟩ | ⟨h, _⟩ <;> [exact h.ge; exact h.le]
    split
    · rename_i hgt
      refine ⟨e1, e2, ?_, Or.inr ⟨lt_of_le_of_lt hbig hgt, by simp, by simp, ?_⟩⟩
      · intro a ha hac
        by_cases hac' : a = j + c
        · subst hac'; simp only; rw [e4]
        · simp only; rw [e3 a hac']; exact (h3 a ha (by omega)).trans hgt.le
      · simp only; rw [e4]
    · rename_i hle
      refine ⟨e1, e2, ?_, ?_⟩
      · intro a ha hac
        by_cases hac' : a = j + c
        · subst hac'; simp only; rw [e4]; exact not_lt.mp hle
        · simp only; rw [e3 a hac']; exact h3 a ha (by omega)
      · rcases h4 with ⟨h, h'⟩ | ⟨h, h', h'', h'''⟩
        · exact Or.inl ⟨h, h'⟩
        · refine Or.inr ⟨h, h', by simp only; omega, ?_⟩
          simp only
          rw [e3 im (by omega)]; exact h'''

theorem lowerPart_spec (n j : ℕ) (hj : j < n) (vv : ℕ → K) (m : ℕ → ℕ → K) (imax : ℕ) :
    let S := lowerPart n j vv m imax
    (∀ a b, ¬ (j ≤ a ∧ a < n ∧ b = j) → S.1 a b = m a b) ∧
    (∀ a, j ≤ a → a < n → S.1 a j = m a j - ∑ k ∈ range j, m a k * m k j) ∧
    (∀ a, j ≤ a → a < n → vv a * |S.1 a j| ≤ S.2.1) ∧
    ((S.2.1 = 0 ∧ S.2.2 = imax) ∨
      (0 < S.2.1 ∧ j ≤ S.2.2 ∧ S.2.2 < n ∧ S.2.1 = vv S.2.2 * |S.1 S.2.2 j|)) := by
  have h := lower_spec j vv m imax (n - j)
  have e : j + (n - j) = n := by omega
  rw [e] at h
  exact h

theorem swapRows_spec (n imax j : ℕ) (m : ℕ → ℕ → K) (a b : ℕ) :
    swapRows n imax j m a b = if b < n then m (Equiv.swap imax j a) b else m a b := by
  unfold swapRows
  induction n generalizing a b with
  | zero => simp
  | succ n ih =>
    rw [List.range_succ, List.foldl_append]
    simp only [List.foldl_cons, List.foldl_nil, set2]
    by_cases hb : b = n
    · subst hb
      simp only [and_true, ih, lt_irrefl, if_false, Nat.lt_succ_self, if_true]
      by_cases ha : a = j
      · subst ha; simp
      · by_cases ha' : a = imax
        · subst ha'; simp [ha]
        · simp [ha, ha', Equiv.swap_apply_of_ne_of_ne ha' ha]
    · simp only [hb, and_false, if_false]
      rw [ih]
      have : (b < n ↔ b < n + 1) := by omega
      simp [this]

theorem scale_spec (j c : ℕ) (t : K) (m : ℕ → ℕ → K) (a b : ℕ) :
    (List.range' (j + 1) c).foldl (fun m i => set2 m i j (m i j * t)) m a b
      = if b = j ∧ j < a ∧ a < j + 1 + c then m a b * t else m a b := by
  induction c generalizing a b with
  | zero => rw [if_neg (by omega)]; simp
  | succ c ih =>
    rw [List.range'_concat, List.foldl_append]
    simp only [List.foldl_cons, List.foldl_nil, Nat.one_mul, set2, ih]
    by_cases h : a = j + 1 + c ∧ b = j
    · obtain ⟨rfl, rfl⟩ := h
      rw [if_pos ⟨rfl, rfl⟩, if_neg (by omega), if_pos (by omega)]
    · rw [if_neg h]
      by_cases h2 : b = j ∧ j < a ∧ a < j + 1 + c
      · rw [if_pos h2, if_pos (by omega)]
      · rw [if_neg h2, if_neg (by omega)]

theorem scaleColumn_spec (n j : ℕ) (hj : j < n) (m : ℕ → ℕ → K) (a b : ℕ) :
    scaleColumn n j m a b = if b = j ∧ j < a ∧ a < n then m a b * (1 / m j j) else m a b := by
  unfold scaleColumn
  simp only [scale_spec]
  have e : j + 1 + (n - (j + 1)) = n := by omega
  rw [e]

variable [IsStrictOrderedRing K]

theorem rowMax_nonneg (n : ℕ) (m : ℕ → ℕ → K) (i : ℕ) : 0 ≤ rowMax n m i := by
  unfold rowMax
  induction n with
  | zero => simp
  | succ n ih =>
    rw [List.range_succ, List.foldl_append]
    simp only [List.foldl_cons, List.foldl_nil]
    split
    · exact abs_nonneg _
    · exact ih

theorem rowScaling_pos (n : ℕ) (tiny : K) (ht : 0 < tiny) (m : ℕ → ℕ → K) (vv : ℕ → K)
    (h : rowScaling n tiny m = some vv) : ∀ i, i < n → 0 < vv i := by
  unfold rowScaling at h
  have gen : ∀ c vv, (List.range c).foldl
      (fun r i => r.bind fun vv =>
        let big := rowMax n m i
        if big < tiny then none else some (set1 vv i (1 / big)))
      (some fun _ => 0) = some vv → ∀ i, i < c → 0 < vv i := by
    intro c
    induction c with
    | zero => simp
    | succ c ih =>
      intro vv h i hi
      rw [List.range_succ, List.foldl_append] at h
      simp only [List.foldl_cons, List.foldl_nil] at h
      obtain ⟨vv', h1, h2⟩ := Option.bind_eq_some_iff.mp h
      split at h2
      · simp at h2
      · rename_i hb
        simp only [Option.some.injEq] at h2
        subst h2
        simp only [set1]
        split
        · exact one_div_pos.mpr (lt_of_lt_of_le ht (not_lt.mp hb))
        · exact ih vv' h1 i (by omega)
  exact gen n vv h

/-- The permutation described by the first `j` entries of `index`. -/
def perm (index : ℕ → ℕ) : ℕ → Equiv.Perm ℕ
  | 0 => 1
  | j + 1 => perm index j * Equiv.swap j (index j)

theorem perm_congr (f g : ℕ → ℕ) (j : ℕ) (h : ∀ i, i < j → f i = g i) : perm f j = perm g j := by
  induction j with
  | zero => rfl
  | succ j ih =>
    simp only [perm]
    rw [ih (fun i hi => h i (by omega)), h j (by omega)]

theorem swap_lt {n a b i : ℕ} (ha : a < n) (hb : b < n) : Equiv.swap a b i < n ↔ i < n := by
  by_cases h1 : i = a
  · subst h1; simp [ha, hb]
  · by_cases h2 : i = b
    · subst h2; simp [ha, hb]
    · rw [Equiv.swap_apply_of_ne_of_ne h1 h2]

theorem perm_lt (n : ℕ) (f : ℕ → ℕ) (j : ℕ) (hj : j ≤ n) (hf : ∀ i, i < j → f i < n) (i : ℕ) :
    perm f j i < n ↔ i < n := by
  induction j generalizing i with
  | zero => simp [perm]
  | succ j ih =>
    simp only [perm, Equiv.Perm.mul_apply]
    rw [ih (by omega) (fun i hi => hf i (by omega)), swap_lt (by omega) (hf j (by omega))]

/-- What the columns finished so far mean for the original matrix `A`. -/
structure Inv (n : ℕ) (A : ℕ → ℕ → K) (j : ℕ) (s : State K) : Prop where
  rest : ∀ i c, i < n → j ≤ c → c < n → s.m i c = A (perm s.index j i) c
  upper : ∀ i c, i < n → c < j → i ≤ c →
    A (perm s.index j i) c = ∑ k ∈ range i, s.m i k * s.m k c + s.m i c
  lower : ∀ i c, i < n → c < j → c < i →
    A (perm s.index j i) c = ∑ k ∈ range c, s.m i k * s.m k c + s.m i c * s.m c c
  pivot : ∀ c, c < j → s.m c c ≠ 0
  index_ge : ∀ c, c < j → c ≤ s.index c ∧ s.index c < n
  vv_pos : ∀ i, i < n → 0 < s.vv i
  imax_lt : s.imax < n

/-- The matrix after the elimination of column `j`, before pivoting. -/
def mid (n : ℕ) (s : State K) (j : ℕ) : (ℕ → ℕ → K) × K × ℕ :=
  lowerPart n j s.vv (upperPart j s.m) s.imax

theorem mid_spec (n : ℕ) (A : ℕ → ℕ → K) (j : ℕ) (hj : j < n) (s : State K) (I : Inv n A j s) :
    let M := (mid n s j).1
    (∀ a b, b ≠ j → M a b = s.m a b) ∧
    (∀ i, i < n → i ≤ j →
      A (perm s.index j i) j = ∑ k ∈ range i, M i k * M k j + M i j) ∧
    (∀ i, i < n → j ≤ i →
      A (perm s.index j i) j = ∑ k ∈ range j, M i k * M k j + M i j) := by
  intro M
  obtain ⟨u1, u2⟩ := upperPart_spec j s.m
  obtain ⟨l1, l2, -, -⟩ := lowerPart_spec n j hj s.vv (upperPart j s.m) s.imax
  change (∀ a b, ¬ (j ≤ a ∧ a < n ∧ b = j) → M a b = upperPart j s.m a b) at l1
  change (∀ a, j ≤ a → a < n → M a j = _) at l2
  have hM : ∀ a b, b ≠ j → M a b = s.m a b := by
    intro a b hb
    rw [l1 a b (fun h => hb h.2.2), u1 a b (fun h => hb h.2)]
  have hMj : ∀ a, a < j → M a j = upperPart j s.m a j := fun a ha => l1 a j (by omega)
  have hup : ∀ i, i < n → i < j →
      A (perm s.index j i) j = ∑ k ∈ range i, M i k * M k j + M i j := by
    intro i hi hij
    rw [hMj i hij, u2 i hij, I.rest i j hi le_rfl hj]
    have : ∑ k ∈ range i, M i k * M k j = ∑ k ∈ range i, s.m i k * upperPart j s.m k j := by
      apply sum_congr rfl
      intro k hk
      have hk' := mem_range.mp hk
      rw [hM i k (by omega), hMj k (by omega)]
    rw [this]; ring
  have hlo : ∀ i, i < n → j ≤ i →
      A (perm s.index j i) j = ∑ k ∈ range j, M i k * M k j + M i j := by
    intro i hi hij
    rw [l2 i hij hi, u1 i j (by omega), I.rest i j hi le_rfl hj]
    have : ∑ k ∈ range j, M i k * M k j
        = ∑ k ∈ range j, upperPart j s.m i k * upperPart j s.m k j := by
      apply sum_congr rfl
      intro k hk
      have hk' := mem_range.mp hk
      rw [hM i k (by omega), hMj k hk', u1 i k (by omega)]
    rw [this]; ring
  refine ⟨hM, ?_, hlo⟩
  intro i hi hij
  rcases Nat.lt_or_ge i j with h | h
  · exact hup i hi h
  · have : i = j := by omega
    subst this; exact hlo i hi le_rfl

/-- The rest of the loop body, given the result of the elimination of the column. -/
def afterMid (n : ℕ) (tiny : K) (s : State K) (j : ℕ) (S : (ℕ → ℕ → K) × K × ℕ) :
    Option (State K) :=
  let (m, _big, imax) := S
  let (m, vv) := if j ≠ imax then (swapRows n imax j m, set1 s.vv imax (s.vv j)) else (m, s.vv)
  let index := set1 s.index j imax
  if |m j j| < tiny then none
  else some ⟨scaleColumn n j m, vv, imax, index⟩

theorem column_eq (n : ℕ) (tiny : K) (s : State K) (j : ℕ) :
    column n tiny s j = afterMid n tiny s j (mid n s j) := rfl

theorem column_inv (n : ℕ) (tiny : K) (ht : 0 < tiny) (A : ℕ → ℕ → K) (j : ℕ) (hj : j < n)
    (s s' : State K) (I : Inv n A j s) (hge : j ≤ (mid n s j).2.2)
    (h : column n tiny s j = some s') : Inv n A (j + 1) s' := by
  obtain ⟨m1, m2, m3⟩ := mid_spec n A j hj s I
  obtain ⟨-, -, -, l4⟩ := lowerPart_spec n j hj s.vv (upperPart j s.m) s.imax
  change ((mid n s j).2.1 = 0 ∧ (mid n s j).2.2 = s.imax) ∨ _ at l4
  have hlt : (mid n s j).2.2 < n := by
    rcases l4 with ⟨-, h⟩ | ⟨-, -, h, -⟩
    · rw [h]; exact I.imax_lt
    · exact h
  rw [column_eq] at h
  generalize hmid : mid n s j = S at *
  obtain ⟨M, big, im⟩ := S
  simp only [afterMid] at m1 m2 m3 hlt hge h
  clear l4
  -- the matrix after the exchange
  set M2 : ℕ → ℕ → K := if j ≠ im then swapRows n im j M else M with hM2
  set vv2 : ℕ → K := if j ≠ im then set1 s.vv im (s.vv j) else s.vv with hvv2
  have hpair : (if j ≠ im then (swapRows n im j M, set1 s.vv im (s.vv j)) else (M, s.vv))
      = (M2, vv2) := by
    by_cases hji : j ≠ im <;> simp [hM2, hvv2, hji]
  rw [hpair] at h
  simp only at h
  have hM2v : ∀ a b, b < n → M2 a b = M (Equiv.swap j im a) b := by
    intro a b hb
    by_cases hji : j ≠ im
    · rw [hM2, if_pos hji, swapRows_spec, if_pos hb, Equiv.swap_comm]
    · rw [hM2, if_neg hji]; push Not at hji; subst hji; simp
  split at h
  · simp at h
  rename_i hpiv
  simp only [Option.some.injEq] at h
  subst h
  have hp0 : M2 j j ≠ 0 := by
    intro h0; apply hpiv; rw [h0]; simpa using ht
  set idx2 := set1 s.index j im with hidx
  have hperm : perm idx2 (j + 1) = perm s.index j * Equiv.swap j im := by
    simp only [perm]
    rw [perm_congr idx2 s.index j (fun i hi => by simp [hidx, set1]; omega)]
    simp [hidx, set1]
  have hswlt : ∀ i, i < n → Equiv.swap j im i < n := fun i hi => (swap_lt hj hlt).mpr hi
  have hsw_small : ∀ i, i < j → Equiv.swap j im i = i := fun i hi =>
    Equiv.swap_apply_of_ne_of_ne (by omega) (by omega)
  have hsw_ge : ∀ i, j ≤ i → j ≤ Equiv.swap j im i := by
    intro i hi
    by_cases h1 : i = j
    · subst h1; simp [hge]
    · by_cases h2 : i = im
      · subst h2; simp
      · rw [Equiv.swap_apply_of_ne_of_ne h1 h2]; exact hi
  have hsc := scaleColumn_spec n j hj M2
  refine ⟨?_, ?_, ?_, ?_, ?_, ?_, ?_⟩
  · intro i c hi hc hcn
    simp only [hperm, Equiv.Perm.mul_apply]
    rw [hsc, if_neg (by omega), hM2v i c hcn, m1 _ _ (by omega),
      I.rest _ c (hswlt i hi) (by omega) hcn]
  · intro i c hi hc hic
    simp only [hperm, Equiv.Perm.mul_apply]
    -- row `i ≤ c ≤ j`
    rcases Nat.lt_or_ge c j with hcj | hcj
    · have hij : i < j := by omega
      rw [hsw_small i hij, I.upper i c hi hcj hic]
      have e : ∀ a b, a < j → b < j → scaleColumn n j M2 a b = s.m a b := by
        intro a b ha hb
        rw [hsc, if_neg (by omega), hM2v a b (by omega), hsw_small a ha, m1 _ _ (by omega)]
      rw [e i c hij hcj]
      congr 1
      apply sum_congr rfl
      intro k hk
      have hk' := mem_range.mp hk
      rw [e i k hij (by omega), e k c (by omega) hcj]
    · have hcj' : c = j := by omega
      subst hcj'
      rcases Nat.lt_or_ge i c with hij | hij
      · rw [hsw_small i hij, m2 i hi hic]
        have e : ∀ a b, a < c → b < n → scaleColumn n c M2 a b = M a b := by
          intro a b ha hb
          rw [hsc, if_neg (by omega), hM2v a b hb, hsw_small a ha]
        rw [e i c hij hj]
        congr 1
        apply sum_congr rfl
        intro k hk
        have hk' := mem_range.mp hk
        rw [e i k hij (by omega), e k c (by omega) hj]
      · have : i = c := by omega
        subst this
        rw [m3 _ (hswlt i hi) (hsw_ge i le_rfl)]
        have e1 : scaleColumn n i M2 i i = M (Equiv.swap i im i) i := by
          rw [hsc, if_neg (by omega), hM2v i i hj]
        rw [e1]
        congr 1
        apply sum_congr rfl
        intro k hk
        have hk' := mem_range.mp hk
        rw [hsc, if_neg (by omega), hM2v i k (by omega), hsc, if_neg (by omega),
          hM2v k i hj, hsw_small k hk']
  · intro i c hi hc hci
    simp only [hperm, Equiv.Perm.mul_apply]
    rcases Nat.lt_or_ge c j with hcj | hcj
    · -- finished column, row `i > c`
      have hsi : c < Equiv.swap j im i := by
        rcases Nat.lt_or_ge i j with h | h
        · rw [hsw_small i h]; exact hci
        · exact lt_of_lt_of_le hcj (hsw_ge i h)
      rw [I.lower _ c (hswlt i hi) hcj hsi]
      have e : ∀ a b, b < j → scaleColumn n j M2 a b = s.m (Equiv.swap j im a) b := by
        intro a b hb
        rw [hsc, if_neg (by omega), hM2v a b (by omega), m1 _ _ (by omega)]
      rw [e i c hcj, e c c hcj, hsw_small c hcj]
      congr 1
      apply sum_congr rfl
      intro k hk
      have hk' := mem_range.mp hk
      rw [e i k (by omega), e k c hcj, hsw_small k (by omega)]
    · have hcj' : c = j := by omega
      subst hcj'
      rw [m3 _ (hswlt i hi) (hsw_ge i (by omega))]
      have e1 : scaleColumn n c M2 i c = M2 i c * (1 / M2 c c) := by
        rw [hsc, if_pos (by omega)]
      have e2 : scaleColumn n c M2 c c = M2 c c := by
        rw [hsc, if_neg (by omega)]
      rw [e1, e2, mul_assoc, one_div, inv_mul_cancel₀ hp0, mul_one, hM2v i c hj]
      congr 1
      apply sum_congr rfl
      intro k hk
      have hk' := mem_range.mp hk
      rw [hsc, if_neg (by omega), hM2v i k (by omega), hsc, if_neg (by omega),
          hM2v k c hj, hsw_small k hk']
  · intro c hc
    simp only
    rw [hsc, if_neg (by omega)]
    rcases Nat.lt_or_ge c j with hcj | hcj
    · rw [hM2v c c (by omega), hsw_small c hcj, m1 _ _ (by omega)]
      exact I.pivot c hcj
    · have : c = j := by omega
      subst this; exact hp0
  · intro c hc
    simp only [hidx, set1]
    split
    · rename_i h; subst h; exact ⟨hge, hlt⟩
    · exact I.index_ge c (by omega)
  · intro i hi
    simp only [hvv2]
    split
    · simp only [set1]; split
      · exact I.vv_pos j hj
      · exact I.vv_pos i hi
    · exact I.vv_pos i hi
  · exact hlt

theorem column_index (n : ℕ) (tiny : K) (s s' : State K) (j : ℕ)
    (h : column n tiny s j = some s') :
    s'.index = set1 s.index j (mid n s j).2.2 ∧ s'.imax = (mid n s j).2.2 := by
  rw [column_eq] at h
  generalize mid n s j = S at *
  obtain ⟨M, big, im⟩ := S
  simp only [afterMid] at h
  split at h <;> split at h <;>
  first
  | (simp at h; done)
  | (simp only [Option.some.injEq] at h; subst h; exact ⟨rfl, rfl⟩)

/-- If the column shows no nonzero candidate, the columns `0..j` of `A` are dependent. -/
theorem det_zero_of_no_pivot (n : ℕ) (A : ℕ → ℕ → K) (j : ℕ) (hj : j < n) (s : State K)
    (I : Inv n A j s) (h0 : ∀ a, j ≤ a → a < n → (mid n s j).1 a j = 0) :
    (Matrix.of fun (r c : Fin n) => A r c).det = 0 := by
  obtain ⟨m1, m2, m3⟩ := mid_spec n A j hj s I
  generalize (mid n s j).1 = M at *
  let U : Matrix (Fin j) (Fin (j + 1)) K :=
    Matrix.of fun k c => if (k : ℕ) ≤ c then M k c else 0
  have hker : ∃ w : Fin (j + 1) → K, w ≠ 0 ∧ U.mulVec w = 0 := by
    have hk : LinearMap.ker U.mulVecLin ≠ ⊥ := by
      apply LinearMap.ker_ne_bot_of_finrank_lt
      simp
    obtain ⟨w, hw, hw0⟩ := Submodule.exists_mem_ne_zero_of_ne_bot hk
    exact ⟨w, hw0, by simpa using hw⟩
  obtain ⟨w, hw0, hw⟩ := hker
  let L : ℕ → ℕ → K := fun i k => if k < i then M i k else if k = i then 1 else 0
  have hLU : ∀ i, i < n → ∀ c : Fin (j + 1),
      A (perm s.index j i) c = ∑ k : Fin j, L i k * U k c := by
    intro i hi c
    have hc := c.2
    have hUs : ∑ k : Fin j, L i k * U k c
        = ∑ k ∈ range j, L i k * (if k ≤ (c : ℕ) then M k c else 0) := by
      rw [← Fin.sum_univ_eq_sum_range (fun k => L i k * (if k ≤ (c : ℕ) then M k c else 0)) j]
      rfl
    rw [hUs]
    -- cut the sum
    have cut : ∀ b, b ≤ j → (∀ k, b ≤ k → k < j → L i k * (if k ≤ (c : ℕ) then M k c else 0) = 0) →
        ∑ k ∈ range j, L i k * (if k ≤ (c : ℕ) then M k c else 0)
          = ∑ k ∈ range b, L i k * (if k ≤ (c : ℕ) then M k c else 0) := by
      intro b hb hz
      symm
      apply sum_subset (by intro x hx; simp at hx ⊢; omega)
      intro k hk hk'
      simp at hk hk'
      exact hz k hk' hk
    have Llt : ∀ k, k < i → L i k = M i k := fun k hk => by simp [L, hk]
    have Lii : L i i = 1 := by simp [L]
    have Lgt : ∀ k, i < k → L i k = 0 := fun k hk => by
      simp only [L]; rw [if_neg (by omega), if_neg (by omega)]
    rcases Nat.lt_or_ge (c : ℕ) j with hcj | hcj
    · rcases Nat.lt_or_ge (c : ℕ) i with hci | hci
      · rw [I.lower i c hi hcj hci, cut (c + 1) (by omega) (fun k hk _ => by
          rw [if_neg (by omega), mul_zero]), sum_range_succ, if_pos le_rfl, Llt _ hci,
          m1 i c (by omega), m1 c c (by omega)]
        congr 1
        apply sum_congr rfl
        intro k hk
        have hk' := mem_range.mp hk
        rw [if_pos (by omega), Llt k (by omega), m1 _ _ (by omega), m1 _ _ (by omega)]
      · rw [I.upper i c hi hcj hci, cut (i + 1) (by omega) (fun k hk _ => by
          rw [Lgt k (by omega), zero_mul]), sum_range_succ, if_pos hci, Lii, one_mul,
          m1 i c (by omega)]
        congr 1
        apply sum_congr rfl
        intro k hk
        have hk' := mem_range.mp hk
        rw [if_pos (by omega), Llt k (by omega), m1 _ _ (by omega), m1 _ _ (by omega)]
    · have hcj' : (c : ℕ) = j := by omega
      rw [hcj']
      rcases Nat.lt_or_ge i j with hij | hij
      · rw [m2 i hi hij.le]
        rw [hcj'] at cut
        rw [cut (i + 1) (by omega) (fun k hk _ => by
          rw [Lgt k (by omega), zero_mul]), sum_range_succ, if_pos hij.le, Lii, one_mul]
        congr 1
        apply sum_congr rfl
        intro k hk
        have hk' := mem_range.mp hk
        rw [if_pos (by omega), Llt k (by omega)]
      · rw [m3 i hi hij, h0 i hij hi, add_zero]
        apply sum_congr rfl
        intro k hk
        have hk' := mem_range.mp hk
        rw [if_pos (by omega), Llt k (by omega)]
  -- extend the kernel vector
  apply Matrix.exists_mulVec_eq_zero_iff.mp
  refine ⟨fun c => if h : (c : ℕ) < j + 1 then w ⟨c, h⟩ else 0, ?_, ?_⟩
  · intro hz
    apply hw0
    funext c
    have := congrFun hz ⟨c, by omega⟩
    simpa [Nat.lt_succ_iff.mp c.2] using this
  · funext r
    -- `r = perm i`
    set i := (perm s.index j).symm r with hi_def
    have hri : perm s.index j i = r := by simp [hi_def]
    have hi : i < n := by
      rw [← perm_lt n s.index j hj.le (fun c hc => (I.index_ge c hc).2) i, hri]; exact r.2
    simp only [Matrix.mulVec, dotProduct, Matrix.of_apply, Pi.zero_apply]
    rw [← hri]
    have e1 : ∑ c : Fin n, A (perm s.index j i) c *
          (if h : (c : ℕ) < j + 1 then w ⟨c, h⟩ else 0)
        = ∑ c ∈ range n, A (perm s.index j i) c *
          (if h : (c : ℕ) < j + 1 then w ⟨c, h⟩ else 0) := by
      rw [← Fin.sum_univ_eq_sum_range (fun c => A (perm s.index j i) c *
          (if h : (c : ℕ) < j + 1 then w ⟨c, h⟩ else 0)) n]
    have e2 : ∑ c ∈ range n, A (perm s.index j i) c *
          (if h : (c : ℕ) < j + 1 then w ⟨c, h⟩ else 0)
        = ∑ c ∈ range (j + 1), A (perm s.index j i) c *
          (if h : (c : ℕ) < j + 1 then w ⟨c, h⟩ else 0) := by
      symm
      apply sum_subset (by intro x hx; simp at hx ⊢; omega)
      intro k hk hk'
      simp at hk hk'
      rw [dif_neg (by omega), mul_zero]
    have e3 : ∑ c ∈ range (j + 1), A (perm s.index j i) c *
          (if h : (c : ℕ) < j + 1 then w ⟨c, h⟩ else 0)
        = ∑ c : Fin (j + 1), A (perm s.index j i) c * w c := by
      rw [← Fin.sum_univ_eq_sum_range (fun c => A (perm s.index j i) c *
          (if h : (c : ℕ) < j + 1 then w ⟨c, h⟩ else 0)) (j + 1)]
      apply sum_congr rfl
      intro c _
      rw [dif_pos c.2]
    rw [e1, e2, e3]
    have e4 : ∑ c : Fin (j + 1), A (perm s.index j i) c * w c
        = ∑ k : Fin j, L i k * (U.mulVec w) k := by
      simp only [Matrix.mulVec, dotProduct, mul_sum]
      rw [sum_comm]
      apply sum_congr rfl
      intro c _
      rw [hLU i hi c, sum_mul]
      apply sum_congr rfl
      intro k _
      ring
    rw [e4, hw]
    simp

end NimbleSM.LU
