import Verif.Element.HexForces
import Mathlib.LinearAlgebra.CrossProduct
import Mathlib.Algebra.BigOperators.Field

/-!
# C112, C113: forces of a uniform stress and the volume depend only on the faces

The 2x2x2 Gauss rule of the element (with `3 val² = 1`, `val` = `1/√3` of nimble_element.cc) integrates the gradient of a
shape function over the element exactly, so that the result is a sum over the three faces at the node, each depending only on
the four corners of the face (`area_eq_faces`).
-/

open scoped BigOperators

namespace NimbleSM.Hex

open Matrix NimbleSM.Tensor

variable {K : Type*} [Field K] [LinearOrder K] [IsStrictOrderedRing K]

/-! ## Specification -/

/-- The six faces of the element, corners in counterclockwise order seen from outside. -/
def side : Fin 6 → Fin 4 → Fin 8 :=
  ![![0, 1, 5, 4], ![1, 2, 6, 5], ![2, 3, 7, 6], ![0, 4, 7, 3], ![0, 3, 2, 1], ![4, 5, 6, 7]]

/-- Share of the corner `a` in the area vector of the bilinear face `a b c d`: the integral of its shape function times the
normal. -/
def faceShare (a b c d : Fin 3 → K) : Fin 3 → K :=
  (1 / 36 : K) • _root_.crossProduct ((2 : K) • (b - a) + (c - d)) ((2 : K) • (d - a) + (c - b))

/-- Seen from the other side the share is the opposite. -/
theorem faceShare_reverse (a b c d : Fin 3 → K) : faceShare a d c b = - faceShare a b c d := by
  unfold faceShare
  rw [← smul_neg, cross_anticomm]

/-- Position of node `n`. -/
def pos (x : ℕ → K) (n : ℕ) : Fin 3 → K := fun d => x (3 * n + d)

/-- The area vector of node `n`: sum of its shares in the faces of the element. -/
def nodeArea (x : ℕ → K) (n : Fin 8) : Fin 3 → K :=
  ∑ o : Fin 6, ∑ k : Fin 4, if side o k = n then
    faceShare (pos x (side o k)) (pos x (side o (k + 1))) (pos x (side o (k + 2))) (pos x (side o (k + 3))) else 0

/-! ## Gauss sums -/

/-- The gradient of the shape function of a corner `c`. -/
def gradC (c ξ : Fin 3 → K) (d : Fin 3) : K := 1 / 8 * c d * ((1 + c (d + 1) * ξ (d + 1)) * (1 + c (d + 2) * ξ (d + 2)))

theorem gradN_eq_gradC (n : Fin 8) (ξ : Fin 3 → K) (d : Fin 3) : gradN n ξ d = gradC (corner n) ξ d := by
  have e0 : (Finset.univ.erase 0 : Finset (Fin 3)) = {1, 2} := by decide
  have e1 : (Finset.univ.erase 1 : Finset (Fin 3)) = {2, 0} := by decide
  have e2 : (Finset.univ.erase 2 : Finset (Fin 3)) = {0, 1} := by decide
  unfold gradN gradC
  fin_cases d <;> simp [e0, e1, e2, Finset.prod_pair]

theorem gauss_triple (val : K) (a b c : Fin 3 → K) (k l m : Fin 3) (hl : l = k + 1 ∧ m = k + 2 ∨ l = k + 2 ∧ m = k + 1) :
    ∑ p : Fin 8, gradC a (gaussPt val p) k * gradC b (gaussPt val p) l * gradC c (gaussPt val p) m
      = 1 / 64 * (a k * b l * c m) * ((1 + val ^ 2 * (b k * c k)) * (1 + val ^ 2 * (a l * c l)) * (1 + val ^ 2 * (a m * b m))) := by
  rw [Fin.sum_univ_eight]
  have e3 : (1 : Fin 3) + 2 = 0 := by decide
  have e4 : (2 : Fin 3) + 2 = 1 := by decide
  rcases hl with ⟨rfl, rfl⟩ | ⟨rfl, rfl⟩ <;> fin_cases k <;>
    simp [gradC, gaussPt, corner, e3, e4] <;> ring

/-- Corners as integers. -/
def cornerZ : Fin 8 → Fin 3 → ℤ :=
  ![![-1, -1, -1], ![1, -1, -1], ![1, 1, -1], ![-1, 1, -1],
    ![-1, -1, 1], ![1, -1, 1], ![1, 1, 1], ![-1, 1, 1]]

theorem corner_cast (n : Fin 8) (d : Fin 3) : (corner n d : K) = (cornerZ n d : ℤ) := by
  fin_cases n <;> fin_cases d <;> simp [corner, cornerZ]

/-- 1728 times the integral of the determinant of three gradients. -/
def tripleZ (n b c : Fin 8) : ℤ :=
  ∑ k : Fin 3, (cornerZ n k * cornerZ b (k + 1) * cornerZ c (k + 2) *
      ((3 + cornerZ b k * cornerZ c k) * (3 + cornerZ n (k + 1) * cornerZ c (k + 1)) * (3 + cornerZ n (k + 2) * cornerZ b (k + 2)))
    - cornerZ n k * cornerZ b (k + 2) * cornerZ c (k + 1) *
      ((3 + cornerZ b k * cornerZ c k) * (3 + cornerZ n (k + 2) * cornerZ c (k + 2)) * (3 + cornerZ n (k + 1) * cornerZ b (k + 1))))

theorem gauss_det (val : K) (hval : 3 * val ^ 2 = 1) (n b c : Fin 8) :
    ∑ p : Fin 8, ∑ k : Fin 3, gradN n (gaussPt val p) k *
        (gradN b (gaussPt val p) (k + 1) * gradN c (gaussPt val p) (k + 2)
          - gradN b (gaussPt val p) (k + 2) * gradN c (gaussPt val p) (k + 1))
      = (tripleZ n b c : K) / 1728 := by
  have hv : val ^ 2 = 1 / 3 := by linarith
  rw [Finset.sum_comm, tripleZ]
  push_cast
  rw [Finset.sum_div]
  apply Finset.sum_congr rfl
  intro k _
  simp only [gradN_eq_gradC]
  have h1 := gauss_triple val (corner n) (corner b) (corner c) k (k + 1) (k + 2) (Or.inl ⟨rfl, rfl⟩)
  have h2 := gauss_triple val (corner n) (corner b) (corner c) k (k + 2) (k + 1) (Or.inr ⟨rfl, rfl⟩)
  rw [hv] at h1 h2
  simp only [corner_cast (K := K)] at h1 h2
  have : ∀ p : Fin 8, gradC (corner n) (gaussPt val p) k *
        (gradC (corner b) (gaussPt val p) (k + 1) * gradC (corner c) (gaussPt val p) (k + 2)
          - gradC (corner b) (gaussPt val p) (k + 2) * gradC (corner c) (gaussPt val p) (k + 1))
      = gradC (corner n) (gaussPt val p) k * gradC (corner b) (gaussPt val p) (k + 1) * gradC (corner c) (gaussPt val p) (k + 2)
        - gradC (corner n) (gaussPt val p) k * gradC (corner b) (gaussPt val p) (k + 2) * gradC (corner c) (gaussPt val p) (k + 1) :=
    fun p => by ring
  rw [Finset.sum_congr rfl fun p _ => this p, Finset.sum_sub_distrib, h1, h2]
  ring

/-- Coefficients of `2 (b - a) + (c - d)` for corner `k` of face `o`. -/
def pZ (o : Fin 6) (k : Fin 4) (m : Fin 8) : ℤ :=
  2 * ((if side o (k + 1) = m then 1 else 0) - if side o k = m then 1 else 0)
    + ((if side o (k + 2) = m then 1 else 0) - if side o (k + 3) = m then 1 else 0)

/-- Coefficients of `2 (d - a) + (c - b)`. -/
def qZ (o : Fin 6) (k : Fin 4) (m : Fin 8) : ℤ :=
  2 * ((if side o (k + 3) = m then 1 else 0) - if side o k = m then 1 else 0)
    + ((if side o (k + 2) = m then 1 else 0) - if side o (k + 1) = m then 1 else 0)

/-- The same coefficients from the faces. -/
def facesZ (n b c : Fin 8) : ℤ :=
  ∑ o : Fin 6, ∑ k : Fin 4, if side o k = n then pZ o k b * qZ o k c - qZ o k b * pZ o k c else 0

theorem triple_eq_faces (n b c : Fin 8) : tripleZ n b c = 48 * facesZ n b c := by
  revert n b c
  decide +kernel

theorem sum_pick (x : ℕ → K) (s : Fin 8) (e : Fin 3) : ∑ m : Fin 8, ((if s = m then 1 else 0 : ℤ) : K) * x (3 * m + e) = x (3 * s + e) := by
  rw [Finset.sum_eq_single s]
  · simp
  · intro b _ hb; simp [Ne.symm hb]
  · intro h; exact absurd (Finset.mem_univ s) h

theorem sum_pZ (x : ℕ → K) (o : Fin 6) (k : Fin 4) (e : Fin 3) :
    ∑ m : Fin 8, (pZ o k m : K) * x (3 * m + e) = 2 * (x (3 * side o (k + 1) + e) - x (3 * side o k + e))
      + (x (3 * side o (k + 2) + e) - x (3 * side o (k + 3) + e)) := by
  rw [← sum_pick x (side o k), ← sum_pick x (side o (k + 1)), ← sum_pick x (side o (k + 2)), ← sum_pick x (side o (k + 3)),
    ← Finset.sum_sub_distrib, ← Finset.sum_sub_distrib, Finset.mul_sum, ← Finset.sum_add_distrib]
  apply Finset.sum_congr rfl
  intro m _
  unfold pZ
  push_cast
  ring

theorem sum_qZ (x : ℕ → K) (o : Fin 6) (k : Fin 4) (e : Fin 3) :
    ∑ m : Fin 8, (qZ o k m : K) * x (3 * m + e) = 2 * (x (3 * side o (k + 3) + e) - x (3 * side o k + e))
      + (x (3 * side o (k + 2) + e) - x (3 * side o (k + 1) + e)) := by
  rw [← sum_pick x (side o k), ← sum_pick x (side o (k + 1)), ← sum_pick x (side o (k + 2)), ← sum_pick x (side o (k + 3)),
    ← Finset.sum_sub_distrib, ← Finset.sum_sub_distrib, Finset.mul_sum, ← Finset.sum_add_distrib]
  apply Finset.sum_congr rfl
  intro m _
  unfold qZ
  push_cast
  ring

theorem cross_entry (v w : Fin 3 → K) (e : Fin 3) : (_root_.crossProduct v w) e = v (e + 1) * w (e + 2) - v (e + 2) * w (e + 1) := by
  have e3 : (1 : Fin 3) + 2 = 0 := by decide
  have e4 : (2 : Fin 3) + 2 = 1 := by decide
  fin_cases e <;> simp [cross_apply, e3, e4]

theorem nodeArea_entry (x : ℕ → K) (n : Fin 8) (e : Fin 3) :
    nodeArea x n e = ∑ b : Fin 8, ∑ c : Fin 8, x (3 * b + (e + 1 : Fin 3)) * x (3 * c + (e + 2 : Fin 3)) * ((facesZ n b c : K) / 36) := by
  have hterm : ∀ (o : Fin 6) (k : Fin 4),
      faceShare (pos x (side o k)) (pos x (side o (k + 1))) (pos x (side o (k + 2))) (pos x (side o (k + 3))) e
        = ∑ b : Fin 8, ∑ c : Fin 8, x (3 * b + (e + 1 : Fin 3)) * x (3 * c + (e + 2 : Fin 3)) *
            (((pZ o k b * qZ o k c - qZ o k b * pZ o k c : ℤ) : K) / 36) := by
    intro o k
    have h1 : ∀ (b c : Fin 8), x (3 * b + (e + 1 : Fin 3)) * x (3 * c + (e + 2 : Fin 3)) *
            (((pZ o k b * qZ o k c - qZ o k b * pZ o k c : ℤ) : K) / 36)
        = 1 / 36 * (((pZ o k b : K) * x (3 * b + (e + 1 : Fin 3))) * ((qZ o k c : K) * x (3 * c + (e + 2 : Fin 3)))
          - ((qZ o k b : K) * x (3 * b + (e + 1 : Fin 3))) * ((pZ o k c : K) * x (3 * c + (e + 2 : Fin 3)))) := by
      intro b c; push_cast; ring
    simp only [h1, ← Finset.mul_sum, Finset.sum_sub_distrib, ← Finset.sum_mul]
    simp only [sum_pZ, sum_qZ]
    unfold faceShare
    simp only [Pi.smul_apply, cross_entry, smul_eq_mul, Pi.add_apply, Pi.sub_apply, pos]
    ring
  unfold nodeArea
  simp only [Finset.sum_apply]
  have h2 : ∀ (o : Fin 6) (k : Fin 4), (if side o k = n then
      faceShare (pos x (side o k)) (pos x (side o (k + 1))) (pos x (side o (k + 2))) (pos x (side o (k + 3))) else 0) e
      = ∑ b : Fin 8, ∑ c : Fin 8, x (3 * b + (e + 1 : Fin 3)) * x (3 * c + (e + 2 : Fin 3)) *
            (((if side o k = n then pZ o k b * qZ o k c - qZ o k b * pZ o k c else 0 : ℤ) : K) / 36) := by
    intro o k
    split
    · exact hterm o k
    · simp
  simp only [h2]
  have h3 : ∀ o : Fin 6, (∑ k : Fin 4, ∑ b : Fin 8, ∑ c : Fin 8, x (3 * b + (e + 1 : Fin 3)) * x (3 * c + (e + 2 : Fin 3)) *
            (((if side o k = n then pZ o k b * qZ o k c - qZ o k b * pZ o k c else 0 : ℤ) : K) / 36))
      = ∑ b : Fin 8, ∑ c : Fin 8, x (3 * b + (e + 1 : Fin 3)) * x (3 * c + (e + 2 : Fin 3)) *
            (((∑ k : Fin 4, if side o k = n then pZ o k b * qZ o k c - qZ o k b * pZ o k c else 0 : ℤ) : K) / 36) := by
    intro o
    rw [Finset.sum_comm]
    apply Finset.sum_congr rfl; intro b _
    rw [Finset.sum_comm]
    apply Finset.sum_congr rfl; intro c _
    rw [← Finset.mul_sum, ← Finset.sum_div, Int.cast_sum]
  simp only [h3]
  rw [Finset.sum_comm]
  apply Finset.sum_congr rfl; intro b _
  rw [Finset.sum_comm]
  apply Finset.sum_congr rfl; intro c _
  rw [← Finset.mul_sum, ← Finset.sum_div, ← Int.cast_sum]
  rfl

/-- The adjugate of a 3x3 matrix. -/
theorem adjugate_entry (J : Matrix (Fin 3) (Fin 3) K) (k e : Fin 3) :
    J.adjugate k e = J (e + 1) (k + 1) * J (e + 2) (k + 2) - J (e + 1) (k + 2) * J (e + 2) (k + 1) := by
  have e3 : (1 : Fin 3) + 2 = 0 := by decide
  have e4 : (2 : Fin 3) + 2 = 1 := by decide
  rw [Matrix.adjugate_fin_three]
  fin_cases k <;> fin_cases e <;> simp [e3, e4] <;> ring

/-- The gradient of a shape function, summed with the Gauss rule, is the area vector of the node. -/
theorem area_eq_faces (val : K) (hval : 3 * val ^ 2 = 1) (x : ℕ → K) (n : Fin 8) (e : Fin 3) :
    ∑ p : Fin 8, ∑ k : Fin 3, gradN n (gaussPt val p) k * (Jac val x p).adjugate k e = nodeArea x n e := by
  rw [nodeArea_entry]
  have h1 : ∀ (p : Fin 8) (k : Fin 3), gradN n (gaussPt val p) k * (Jac val x p).adjugate k e
      = ∑ b : Fin 8, ∑ c : Fin 8, x (3 * b + (e + 1 : Fin 3)) * x (3 * c + (e + 2 : Fin 3)) *
        (gradN n (gaussPt val p) k * (gradN b (gaussPt val p) (k + 1) * gradN c (gaussPt val p) (k + 2)
          - gradN b (gaussPt val p) (k + 2) * gradN c (gaussPt val p) (k + 1))) := by
    intro p k
    rw [adjugate_entry]
    simp only [Jac, Matrix.of_apply]
    have h2 : ∀ b c : Fin 8, x (3 * b + (e + 1 : Fin 3)) * x (3 * c + (e + 2 : Fin 3)) *
        (gradN n (gaussPt val p) k * (gradN b (gaussPt val p) (k + 1) * gradN c (gaussPt val p) (k + 2)
          - gradN b (gaussPt val p) (k + 2) * gradN c (gaussPt val p) (k + 1)))
        = gradN n (gaussPt val p) k * ((x (3 * b + (e + 1 : Fin 3)) * gradN b (gaussPt val p) (k + 1)) *
            (x (3 * c + (e + 2 : Fin 3)) * gradN c (gaussPt val p) (k + 2))
          - (x (3 * b + (e + 1 : Fin 3)) * gradN b (gaussPt val p) (k + 2)) *
            (x (3 * c + (e + 2 : Fin 3)) * gradN c (gaussPt val p) (k + 1))) := by
      intro b c; ring
    simp only [h2, ← Finset.mul_sum, Finset.sum_sub_distrib, ← Finset.sum_mul]
  simp only [h1]
  have h3 : ∀ p : Fin 8, (∑ k : Fin 3, ∑ b : Fin 8, ∑ c : Fin 8, x (3 * b + (e + 1 : Fin 3)) * x (3 * c + (e + 2 : Fin 3)) *
        (gradN n (gaussPt val p) k * (gradN b (gaussPt val p) (k + 1) * gradN c (gaussPt val p) (k + 2)
          - gradN b (gaussPt val p) (k + 2) * gradN c (gaussPt val p) (k + 1))))
      = ∑ b : Fin 8, ∑ c : Fin 8, x (3 * b + (e + 1 : Fin 3)) * x (3 * c + (e + 2 : Fin 3)) *
        ∑ k : Fin 3, gradN n (gaussPt val p) k * (gradN b (gaussPt val p) (k + 1) * gradN c (gaussPt val p) (k + 2)
          - gradN b (gaussPt val p) (k + 2) * gradN c (gaussPt val p) (k + 1)) := by
    intro p
    rw [Finset.sum_comm]
    apply Finset.sum_congr rfl; intro b _
    rw [Finset.sum_comm]
    apply Finset.sum_congr rfl; intro c _
    rw [← Finset.mul_sum]
  simp only [h3]
  rw [Finset.sum_comm]
  apply Finset.sum_congr rfl; intro b _
  rw [Finset.sum_comm]
  apply Finset.sum_congr rfl; intro c _
  rw [← Finset.mul_sum, gauss_det val hval, triple_eq_faces]
  push_cast
  ring

/-- The nodal forces of a uniform stress: the stress times the area vector of the node. -/
theorem uniform_stress_force (val : K) (hval : 3 * val ^ 2 = 1) (x σ : ℕ → K) (f : ℕ → Fin 3 → K)
    (h : computeNodalForces val x σ = some f) (S : Matrix (Fin 3) (Fin 3) K)
    (hσ : ∀ p : Fin 8, symMat (fun c : Fin 6 => σ (6 * p + c)) = S) (n : Fin 8) (d : Fin 3) :
    f n d = - ∑ e : Fin 3, nodeArea x n e * S e d := by
  obtain ⟨inv, hpos, hinv, hval'⟩ := computeNodalForces_val val x σ f h
  rw [hval' n n.isLt d]
  congr 1
  have hadj : ∀ (p : Fin 8) (k e : Fin 3), (Jac val x p).det * inv p k e = (Jac val x p).adjugate k e := by
    intro p k e
    have h1 := hinv p
    rw [jacMat_spec] at h1
    have h2 : (Jac val x p).adjugate * (Jac val x p * Matrix.of (inv p)) = (Jac val x p).adjugate := by rw [h1, Matrix.mul_one]
    rw [← Matrix.mul_assoc, Matrix.adjugate_mul, Matrix.smul_mul, Matrix.one_mul] at h2
    have := congrFun (congrFun h2 k) e
    simpa using this
  simp only [hσ, ← area_eq_faces val hval x n]
  have h3 : ∀ p : Fin 8, (Jac val x p).det * ∑ e : Fin 3, dNdx val (inv p) p n e * S e d
      = ∑ e : Fin 3, (∑ k : Fin 3, gradN n (gaussPt val p) k * (Jac val x p).adjugate k e) * S e d := by
    intro p
    rw [Finset.mul_sum]
    apply Finset.sum_congr rfl; intro e _
    rw [dNdx_eq, ← mul_assoc, Finset.mul_sum]
    congr 1
    apply Finset.sum_congr rfl; intro k _
    rw [dtab_spec, ← hadj]; ring
  simp only [h3]
  rw [Finset.sum_comm]
  apply Finset.sum_congr rfl; intro e _
  rw [← Finset.sum_mul]

/-! ## Boxes -/

theorem sum_corner_gradN (ξ : Fin 3 → K) (i j : Fin 3) :
    ∑ n : Fin 8, corner n i * gradN n ξ j = if i = j then 1 else 0 := by
  have e0 : (Finset.univ.erase 0 : Finset (Fin 3)) = {1, 2} := by decide
  have e1 : (Finset.univ.erase 1 : Finset (Fin 3)) = {0, 2} := by decide
  have e2 : (Finset.univ.erase 2 : Finset (Fin 3)) = {0, 1} := by decide
  rw [Fin.sum_univ_eight]
  fin_cases i <;> fin_cases j <;>
    simp [gradN, corner, e0, e1, e2, Finset.prod_pair] <;> ring

theorem sum_gradN (ξ : Fin 3 → K) (j : Fin 3) : ∑ n : Fin 8, gradN n ξ j = 0 := by
  have e0 : (Finset.univ.erase 0 : Finset (Fin 3)) = {1, 2} := by decide
  have e1 : (Finset.univ.erase 1 : Finset (Fin 3)) = {0, 2} := by decide
  have e2 : (Finset.univ.erase 2 : Finset (Fin 3)) = {0, 1} := by decide
  rw [Fin.sum_univ_eight]
  fin_cases j <;> simp [gradN, corner, e0, e1, e2, Finset.prod_pair] <;> ring

/-- The Jacobian of a box. -/
theorem Jac_box (val : K) (x : ℕ → K) (a b : Fin 3 → K)
    (hx : ∀ (n : Fin 8) (d : Fin 3), x (3 * n + d) = a d * corner n d + b d) (p : Fin 8) :
    Jac val x p = Matrix.diagonal a := by
  ext i j
  simp only [Jac, Matrix.of_apply, hx]
  have : ∀ n : Fin 8, (a i * corner n i + b i) * gradN n (gaussPt val p) j
      = a i * (corner n i * gradN n (gaussPt val p) j) + b i * gradN n (gaussPt val p) j := fun n => by ring
  simp only [this]
  rw [Finset.sum_add_distrib, ← Finset.mul_sum, ← Finset.mul_sum, sum_corner_gradN, sum_gradN, mul_zero, add_zero,
    Matrix.diagonal_apply]
  split <;> simp

theorem det_box (a : Fin 3 → K) : (Matrix.diagonal a).det = a 0 * a 1 * a 2 := by
  rw [Matrix.det_diagonal, Fin.prod_univ_three]

end NimbleSM.Hex
