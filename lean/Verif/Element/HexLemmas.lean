import Verif.Element.Hex
import Verif.Tensor.TensorProps
import Mathlib.Algebra.BigOperators.Fin
import Mathlib.Algebra.Order.BigOperators.Group.Finset
import Mathlib.Tactic.Ring
import Mathlib.Tactic.IntervalCases

/-!
# Lemmas for the hexahedron: loops as sums
-/

set_option linter.unusedSectionVars false
set_option linter.unusedSimpArgs false

namespace NimbleSM.Hex

open Matrix NimbleSM.Tensor

variable {K : Type*} [Field K] [LinearOrder K] [IsStrictOrderedRing K]

theorem foldl_add_sum {M : Type*} [AddCommMonoid M] (f : ℕ → M) (n : ℕ) (c : M) :
    (List.range n).foldl (fun s k => s + f k) c = c + ∑ k ∈ Finset.range n, f k := by
  induction n generalizing c with
  | zero => simp
  | succ n ih => rw [List.range_succ, List.foldl_append, ih, Finset.sum_range_succ]; simp [add_assoc]

/-- A loop of steps that may abort: it completes exactly when no step aborts, and then it is the
plain loop. -/
theorem foldlM_some {S B : Type*} (g : ℕ → Option B) (step : S → ℕ → B → S) (L : List ℕ) (s : S)
    (v : ℕ → B) (h : ∀ i ∈ L, g i = some (v i)) :
    L.foldlM (fun s i => (g i).map (step s i)) s = some (L.foldl (fun s i => step s i (v i)) s) := by
  induction L generalizing s with
  | nil => rfl
  | cons a L ih =>
    rw [List.foldlM_cons, h a (by simp), Option.map_some]
    exact ih _ (fun i hi => h i (by simp [hi]))

theorem foldlM_isSome_iff {S B : Type*} (g : ℕ → Option B) (step : S → ℕ → B → S) (L : List ℕ)
    (s : S) :
    (L.foldlM (fun s i => (g i).map (step s i)) s).isSome ↔ ∀ i ∈ L, (g i).isSome := by
  induction L generalizing s with
  | nil => simp
  | cons a L ih =>
    rw [List.foldlM_cons]
    rcases hg : g a with _ | b
    · simp [hg]
    · rw [Option.map_some]
      have := ih (step s a b)
      simp only [List.mem_cons, forall_eq_or_imp, hg, Option.isSome_some, true_and]
      exact this

/-- The derivative table at an integration point, as a function of node and direction. -/
def dtab (val : K) (ip n : ℕ) (d : Fin 3) : K := shapeFcnDeriv val (24 * ip + 3 * n + d)

theorem dtab_eq (val : K) (ip n : ℕ) (hn : n < 8) (d : Fin 3) :
    dtab val ip n d = derivAt (intPts val (3 * ip)) (intPts val (3 * ip + 1)) (intPts val (3 * ip + 2))
      (3 * n + d) := by
  unfold dtab shapeFcnDeriv shapeFunctionDerivatives
  have h1 : (24 * ip + 3 * n + d.val) / 24 = ip := by omega
  have h2 : (24 * ip + 3 * n + d.val) % 24 = 3 * n + d.val := by omega
  simp only [h1, h2]

theorem sum_derivAt (r s t : K) (d : Fin 3) :
    ∑ n ∈ Finset.range 8, derivAt r s t (3 * n + d) = 0 := by
  simp only [Finset.sum_range_succ, Finset.sum_range_zero]
  fin_cases d <;> simp [derivAt] <;> ring

theorem sum_dtab (val : K) (ip : ℕ) (d : Fin 3) : ∑ n ∈ Finset.range 8, dtab val ip n d = 0 := by
  rw [Finset.sum_congr rfl (fun n hn => dtab_eq val ip n (Finset.mem_range.mp hn) d)]
  exact sum_derivAt _ _ _ d

theorem jacobian_eq (val : K) (coords : ℕ → ℕ → K) (ip : ℕ) (i j : Fin 3) :
    jacobian val coords ip i j = ∑ n ∈ Finset.range 8, coords n i * dtab val ip n j := by
  have gen : ∀ (L : ℕ) (a0 : Fin 3 → Fin 3 → K),
      (List.range L).foldl
        (fun a n =>
          let cc1 := coords n 0
          let cc2 := coords n 1
          let cc3 := coords n 2
          let sfd1 := shapeFcnDeriv val (24 * ip + 3 * n)
          let sfd2 := shapeFcnDeriv val (24 * ip + 3 * n + 1)
          let sfd3 := shapeFcnDeriv val (24 * ip + 3 * n + 2)
          ![![a 0 0 + cc1 * sfd1, a 0 1 + cc1 * sfd2, a 0 2 + cc1 * sfd3],
            ![a 1 0 + cc2 * sfd1, a 1 1 + cc2 * sfd2, a 1 2 + cc2 * sfd3],
            ![a 2 0 + cc3 * sfd1, a 2 1 + cc3 * sfd2, a 2 2 + cc3 * sfd3]]) a0 i j
      = a0 i j + ∑ n ∈ Finset.range L, coords n i * dtab val ip n j := by
    intro L
    induction L with
    | zero => intro a0; simp
    | succ L ih =>
      intro a0
      rw [List.range_succ, List.foldl_append, List.foldl_cons, List.foldl_nil,
        Finset.sum_range_succ, ← add_assoc, ← ih]
      fin_cases i <;> fin_cases j <;> simp [dtab]
  unfold jacobian
  rw [gen]
  have : (![![0, 0, 0], ![0, 0, 0], ![0, 0, 0]] : Fin 3 → Fin 3 → K) i j = 0 := by
    fin_cases i <;> fin_cases j <;> rfl
  rw [this, zero_add]

/-- Jacobian matrix. -/
def jacMat (val : K) (coords : ℕ → ℕ → K) (ip : ℕ) : Matrix (Fin 3) (Fin 3) K :=
  Matrix.of (jacobian val coords ip)

/-- Affine change of coordinates. -/
theorem jacMat_affine (val : K) (X x : ℕ → ℕ → K) (A : Matrix (Fin 3) (Fin 3) K) (c : Fin 3 → K)
    (h : ∀ n, n < 8 → ∀ d : Fin 3, x n d = (∑ e : Fin 3, A d e * X n e) + c d) (ip : ℕ) :
    jacMat val x ip = A * jacMat val X ip := by
  ext i j
  rw [Matrix.mul_apply]
  simp only [jacMat, Matrix.of_apply, jacobian_eq]
  have h1 : ∑ n ∈ Finset.range 8, x n i * dtab val ip n j
      = ∑ n ∈ Finset.range 8, ((∑ e : Fin 3, A i e * X n e) * dtab val ip n j
        + c i * dtab val ip n j) := by
    apply Finset.sum_congr rfl
    intro n hn
    rw [h n (Finset.mem_range.mp hn) i]; ring
  rw [h1, Finset.sum_add_distrib, ← Finset.mul_sum, sum_dtab, mul_zero, add_zero]
  simp only [Finset.sum_mul, Finset.mul_sum]
  rw [Finset.sum_comm]
  apply Finset.sum_congr rfl; intro e _
  apply Finset.sum_congr rfl; intro n _
  ring

theorem jacobian_congr (val : K) (X x : ℕ → ℕ → K) (h : ∀ n, n < 8 → ∀ d : Fin 3, x n d = X n d)
    (ip : ℕ) : jacobian val x ip = jacobian val X ip := by
  funext i j
  rw [jacobian_eq, jacobian_eq]
  apply Finset.sum_congr rfl
  intro n hn
  rw [h n (Finset.mem_range.mp hn)]

theorem invert3x3_isSome_iff (A : Fin 3 → Fin 3 → K) :
    (invert3x3 A).isSome ↔ 0 < (Matrix.of A).det := by
  have h := (invert3x3_spec A).1
  rw [← not_le, ← h, Option.isSome_iff_ne_none]

theorem invert3x3_some (A : Fin 3 → Fin 3 → K) (h : 0 < (Matrix.of A).det) :
    ∃ inv, invert3x3 A = some (inv, (Matrix.of A).det) ∧ Matrix.of A * Matrix.of inv = 1 ∧
      Matrix.of inv * Matrix.of A = 1 := by
  obtain ⟨⟨inv, d⟩, hr⟩ := Option.isSome_iff_exists.mp ((invert3x3_isSome_iff A).mpr h)
  obtain ⟨h1, h2, h3⟩ := (invert3x3_spec A).2 inv d hr
  exact ⟨inv, by rw [hr, h1], h2, h3⟩

theorem dNdx_eq (val : K) (inv : Fin 3 → Fin 3 → K) (ip n : ℕ) (d : Fin 3) :
    dNdx val inv ip n d = ∑ e : Fin 3, dtab val ip n e * inv e d := by
  rw [Fin.sum_univ_three]
  fin_cases d <;> simp [dNdx, dtab]

theorem sum_dNdx (val : K) (inv : Fin 3 → Fin 3 → K) (ip : ℕ) (d : Fin 3) :
    ∑ n ∈ Finset.range 8, dNdx val inv ip n d = 0 := by
  simp only [dNdx_eq]
  rw [Finset.sum_comm]
  simp only [← Finset.sum_mul, sum_dtab, zero_mul, Finset.sum_const_zero]

/-- `Σₙ xₙ ⊗ ∇Nₙ = 1`. -/
theorem sum_coord_dNdx (val : K) (coords : ℕ → ℕ → K) (inv : Fin 3 → Fin 3 → K) (ip : ℕ)
    (h : jacMat val coords ip * Matrix.of inv = 1) (i d : Fin 3) :
    ∑ n ∈ Finset.range 8, coords n i * dNdx val inv ip n d = if i = d then 1 else 0 := by
  have h1 := congrFun (congrFun h i) d
  rw [Matrix.mul_apply, Matrix.one_apply] at h1
  rw [← h1]
  simp only [jacMat, Matrix.of_apply, jacobian_eq, dNdx_eq, Finset.mul_sum, Finset.sum_mul]
  rw [Finset.sum_comm]
  apply Finset.sum_congr rfl; intro e _
  apply Finset.sum_congr rfl; intro n _
  ring

end NimbleSM.Hex
