import Mathlib.Data.Matrix.Mul
import Mathlib.LinearAlgebra.Dimension.StrongRankCondition
import Mathlib.LinearAlgebra.Dimension.Constructions
import Mathlib.LinearAlgebra.FiniteDimensional.Lemmas
import Mathlib.Algebra.Order.Field.Basic
import Mathlib.Tactic.FieldSimp
import Mathlib.Tactic.Ring
import Mathlib.Tactic.Linarith

/-!
# Mathematics of the preconditioned conjugate gradient recursion

Pure linear algebra over a linearly ordered field, independent of the program: conjugacy of the search
directions and termination after at most `n` steps.
-/

namespace NimbleSM.Solver.CgMath

open Matrix

variable {K : Type*} [Field K] [LinearOrder K] [IsStrictOrderedRing K] {n : ℕ}

/-- One step of the recursion on (residual, direction). -/
def step (L : Matrix (Fin n) (Fin n) K) (w : Fin n → K) (p : (Fin n → K) × (Fin n → K)) :
    (Fin n → K) × (Fin n → K) :=
  let α := (p.1 ⬝ᵥ (w * p.1)) / (p.2 ⬝ᵥ (L *ᵥ p.2))
  let r := p.1 - α • (L *ᵥ p.2)
  (r, w * r + ((r ⬝ᵥ (w * r)) / (p.1 ⬝ᵥ (w * p.1))) • p.2)

/-- The sequence of (residual, direction) pairs from a first residual. -/
def seq (L : Matrix (Fin n) (Fin n) K) (w : Fin n → K) (r0 : Fin n → K) :
    ℕ → (Fin n → K) × (Fin n → K)
  | 0 => (r0, w * r0)
  | k + 1 => step L w (seq L w r0 k)

/-- The quantity the loop tests. -/
def delta (w r : Fin n → K) : K := r ⬝ᵥ (w * r)

theorem delta_nonneg {w : Fin n → K} (hw : ∀ i, 0 < w i) (r : Fin n → K) : 0 ≤ delta w r := by
  unfold delta dotProduct
  refine Finset.sum_nonneg fun i _ => ?_
  have : r i * (w * r) i = w i * (r i * r i) := by simp only [Pi.mul_apply]; ring
  rw [this]
  exact mul_nonneg (hw i).le (mul_self_nonneg _)

theorem pw_symm (w u v : Fin n → K) : u ⬝ᵥ (w * v) = v ⬝ᵥ (w * u) := by
  unfold dotProduct
  refine Finset.sum_congr rfl fun i _ => ?_
  simp only [Pi.mul_apply]; ring

theorem L_symm {L : Matrix (Fin n) (Fin n) K} (hL : Lᵀ = L) (u v : Fin n → K) :
    u ⬝ᵥ (L *ᵥ v) = v ⬝ᵥ (L *ᵥ u) := by
  rw [dotProduct_mulVec, ← mulVec_transpose, hL, dotProduct_comm]

/-- The invariant of the recursion at step `k`. -/
structure Inv (L : Matrix (Fin n) (Fin n) K) (w : Fin n → K) (r0 : Fin n → K) (k : ℕ) : Prop where
  rr : ∀ i < k, (seq L w r0 k).1 ⬝ᵥ (w * (seq L w r0 i).1) = 0
  dd : ∀ i < k, (seq L w r0 k).2 ⬝ᵥ (L *ᵥ (seq L w r0 i).2) = 0
  rd : ∀ i < k, (seq L w r0 k).1 ⬝ᵥ (seq L w r0 i).2 = 0
  self : (seq L w r0 k).1 ⬝ᵥ (seq L w r0 k).2 = delta w (seq L w r0 k).1

theorem inv_zero (L : Matrix (Fin n) (Fin n) K) (w r0 : Fin n → K) : Inv L w r0 0 :=
  ⟨by intro i h; omega, by intro i h; omega, by intro i h; omega, rfl⟩

variable {L : Matrix (Fin n) (Fin n) K} {w r0 : Fin n → K}

theorem denom_pos (hpos : ∀ v : Fin n → K, v ≠ 0 → 0 < v ⬝ᵥ (L *ᵥ v)) {k : ℕ} (h : Inv L w r0 k)
    (hk : delta w (seq L w r0 k).1 ≠ 0) :
    0 < (seq L w r0 k).2 ⬝ᵥ (L *ᵥ (seq L w r0 k).2) := by
  apply hpos
  intro h0
  apply hk
  rw [← h.self, h0, dotProduct_zero]

theorem inv_succ (hL : Lᵀ = L) (hpos : ∀ v : Fin n → K, v ≠ 0 → 0 < v ⬝ᵥ (L *ᵥ v))
    {k : ℕ} (hinv : ∀ i ≤ k, Inv L w r0 i) (hδ : ∀ i ≤ k, delta w (seq L w r0 i).1 ≠ 0) :
    Inv L w r0 (k + 1) := by
  have hk := hinv k le_rfl
  set r : ℕ → Fin n → K := fun i => (seq L w r0 i).1 with hr
  set d : ℕ → Fin n → K := fun i => (seq L w r0 i).2 with hd
  set α : ℕ → K := fun i => delta w (r i) / (d i ⬝ᵥ (L *ᵥ d i)) with hα
  have hden : ∀ i ≤ k, 0 < d i ⬝ᵥ (L *ᵥ d i) := fun i hi => denom_pos hpos (hinv i hi) (hδ i hi)
  have hαne : ∀ i ≤ k, α i ≠ 0 := fun i hi => div_ne_zero (hδ i hi) (hden i hi).ne'
  have rsucc : ∀ i, r (i + 1) = r i - α i • (L *ᵥ d i) := fun i => rfl
  have dsucc : ∀ i, d (i + 1) = w * r (i + 1) + (delta w (r (i + 1)) / delta w (r i)) • d i :=
    fun i => rfl
  have d0 : d 0 = w * r 0 := rfl
  -- r_{k+1} · d_i = 0 for i ≤ k
  have hrd : ∀ i, i < k + 1 → r (k + 1) ⬝ᵥ d i = 0 := by
    intro i hi
    rw [rsucc, sub_dotProduct, smul_dotProduct, smul_eq_mul]
    rcases Nat.lt_or_eq_of_le (Nat.lt_succ_iff.mp hi) with hlt | rfl
    · have h1 : r k ⬝ᵥ d i = 0 := hk.rd i hlt
      have h2 : d k ⬝ᵥ (L *ᵥ d i) = 0 := hk.dd i hlt
      rw [h1, dotProduct_comm, L_symm hL, h2]; ring
    · have h1 : r i ⬝ᵥ d i = delta w (r i) := hk.self
      rw [h1, dotProduct_comm]
      have := (hden i le_rfl).ne'
      simp only [hα]
      field_simp
      ring
  have hrr : ∀ i, i < k + 1 → r (k + 1) ⬝ᵥ (w * r i) = 0 := by
    intro i hi
    cases i with
    | zero => rw [← d0]; exact hrd 0 hi
    | succ i =>
      have e : w * r (i + 1) = d (i + 1) - (delta w (r (i + 1)) / delta w (r i)) • d i := by
        rw [dsucc]; simp
      rw [e, dotProduct_sub, dotProduct_smul, hrd (i + 1) hi, hrd i (by omega)]
      simp
  have hself : r (k + 1) ⬝ᵥ d (k + 1) = delta w (r (k + 1)) := by
    rw [dsucc, dotProduct_add, dotProduct_smul, hrd k (by omega)]
    simp [delta]
  have hdd : ∀ i, i < k + 1 → d (k + 1) ⬝ᵥ (L *ᵥ d i) = 0 := by
    intro i hi
    have hi' : i ≤ k := Nat.lt_succ_iff.mp hi
    -- α_i (w r_{k+1}) · L d_i = (w r_{k+1}) · (r_i - r_{i+1})
    have e1 : α i * ((w * r (k + 1)) ⬝ᵥ (L *ᵥ d i))
        = r (k + 1) ⬝ᵥ (w * r i) - r (k + 1) ⬝ᵥ (w * r (i + 1)) := by
      have : α i • (L *ᵥ d i) = r i - r (i + 1) := by rw [rsucc]; simp
      rw [← smul_eq_mul, ← dotProduct_smul, this, dotProduct_sub]
      rw [dotProduct_comm, ← pw_symm w (r (k+1)) (r i), dotProduct_comm _ (r (i + 1)),
        ← pw_symm w (r (k+1)) (r (i + 1))]
    rw [dsucc, add_dotProduct, smul_dotProduct, smul_eq_mul]
    rcases Nat.lt_or_eq_of_le hi' with hlt | rfl
    · have h2 : d k ⬝ᵥ (L *ᵥ d i) = 0 := hk.dd i hlt
      rw [hrr i hi, hrr (i + 1) (by omega), sub_zero] at e1
      rw [(mul_eq_zero.mp e1).resolve_left (hαne i hi'), h2]; ring
    · rw [hrr i hi, zero_sub] at e1
      have e2 : (w * r (i + 1)) ⬝ᵥ (L *ᵥ d i) = -delta w (r (i + 1)) / α i := by
        rw [eq_div_iff (hαne i le_rfl), mul_comm, e1]; rfl
      rw [e2]
      have h1 := hδ i le_rfl
      have h2 := (hden i le_rfl).ne'
      have h1' : delta w (r i) ≠ 0 := h1
      simp only [hα]
      field_simp
      ring
  exact ⟨hrr, hdd, hrd, hself⟩

theorem inv_all (hL : Lᵀ = L) (hpos : ∀ v : Fin n → K, v ≠ 0 → 0 < v ⬝ᵥ (L *ᵥ v)) (k : ℕ)
    (hδ : ∀ i < k, delta w (seq L w r0 i).1 ≠ 0) : ∀ i ≤ k, Inv L w r0 i := by
  induction k with
  | zero => intro i hi; obtain rfl : i = 0 := by omega
            exact inv_zero _ _ _
  | succ k ih =>
    intro i hi
    have ih' := ih fun j hj => hδ j (by omega)
    rcases Nat.lt_or_eq_of_le hi with h | rfl
    · exact ih' i (by omega)
    · exact inv_succ hL hpos ih' fun j hj => hδ j (by omega)

/-- At most `n` steps have a non-zero residual: the directions would otherwise be `n+1` independent
vectors. -/
theorem exists_delta_zero (hL : Lᵀ = L) (hpos : ∀ v : Fin n → K, v ≠ 0 → 0 < v ⬝ᵥ (L *ᵥ v)) :
    ∃ k ≤ n, delta w (seq L w r0 k).1 = 0 := by
  by_contra hcon
  push Not at hcon
  have hδ : ∀ i < n + 1, delta w (seq L w r0 i).1 ≠ 0 := fun i hi => hcon i (by omega)
  have hinv := inv_all hL hpos (n + 1) hδ
  set d : ℕ → Fin n → K := fun i => (seq L w r0 i).2 with hd
  have hden : ∀ i ≤ n, 0 < d i ⬝ᵥ (L *ᵥ d i) :=
    fun i hi => denom_pos hpos (hinv i (by omega)) (hδ i (by omega))
  have horth : ∀ i j, i ≤ n → j ≤ n → i ≠ j → d i ⬝ᵥ (L *ᵥ d j) = 0 := by
    intro i j hi hj hij
    rcases Nat.lt_or_gt_of_ne hij with h | h
    · rw [L_symm hL]; exact (hinv j (by omega)).dd i h
    · exact (hinv i (by omega)).dd j h
  have hli : LinearIndependent K (fun i : Fin (n + 1) => d i) := by
    rw [linearIndependent_iff']
    intro s g hg i hi
    have h1 : (∑ j ∈ s, g j • d j) ⬝ᵥ (L *ᵥ d i) = 0 := by rw [hg, zero_dotProduct]
    rw [sum_dotProduct, Finset.sum_eq_single_of_mem i hi] at h1
    · rw [smul_dotProduct, smul_eq_mul] at h1
      exact (mul_eq_zero.mp h1).resolve_right (hden i (by omega)).ne'
    · intro j _ hji
      rw [smul_dotProduct, horth j i (by omega) (by omega) (fun h => hji (Fin.ext h)), smul_zero]
  have := hli.fintype_card_le_finrank
  simp at this

end NimbleSM.Solver.CgMath
