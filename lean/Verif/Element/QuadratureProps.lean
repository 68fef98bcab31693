import Verif.Element.FaceProps
import Mathlib.Algebra.Order.BigOperators.Group.Finset
import Mathlib.Algebra.Order.BigOperators.Ring.Finset
import Mathlib.Tactic.Positivity
import Mathlib.Analysis.Real.Sqrt
import Mathlib.Tactic.Linarith

/-!
# C112, C113 for the literal of the code: how far the Gauss sums are from the exact integrals

`Element/FaceProps.lean` is exact for `3 val² = 1`.  The code has `val = 0.577350269189626`
(nimble_element.cc:58).  Here: for every `val` with `val² ≤ 1` the area vectors and the volume differ from the exact ones by
at most a multiple of `|val² - 1/3|`.
-/

open scoped BigOperators

namespace NimbleSM.Hex

open Matrix NimbleSM.Tensor

variable {K : Type*} [Field K] [LinearOrder K] [IsStrictOrderedRing K]

/-- The area vector of a node as the element computes it. -/
def gaussArea (val : K) (x : ℕ → K) (n : Fin 8) (e : Fin 3) : K :=
  ∑ p : Fin 8, ∑ k : Fin 3, gradN n (gaussPt val p) k * (Jac val x p).adjugate k e

/-- The nodal forces of a uniform stress, for every `val`. -/
theorem uniform_stress_force_gauss (val : K) (x σ : ℕ → K) (f : ℕ → Fin 3 → K)
    (h : computeNodalForces val x σ = some f) (S : Matrix (Fin 3) (Fin 3) K)
    (hσ : ∀ p : Fin 8, symMat (fun c : Fin 6 => σ (6 * p + c)) = S) (n : Fin 8) (d : Fin 3) :
    f n d = - ∑ e : Fin 3, gaussArea val x n e * S e d := by
  obtain ⟨inv, hpos, hinv, hval'⟩ := computeNodalForces_val val x σ f h
  rw [hval' n n.isLt d]
  congr 1
  have hadj : ∀ (p : Fin 8) (k e : Fin 3), (Jac val x p).det * inv p k e = (Jac val x p).adjugate k e := by
    intro p k e
    have h1 := hinv p
    rw [jacMat_spec] at h1
    have h2 : (Jac val x p).adjugate * (Jac val x p * Matrix.of (inv p)) = (Jac val x p).adjugate := by rw [h1, Matrix.mul_one]
    rw [← Matrix.mul_assoc, Matrix.adjugate_mul, Matrix.smul_mul, Matrix.one_mul] at h2
    have := congrFun (congrFun h2 k) e
    simpa using this
  simp only [hσ, gaussArea]
  have h3 : ∀ p : Fin 8, (Jac val x p).det * ∑ e : Fin 3, dNdx val (inv p) p n e * S e d
      = ∑ e : Fin 3, (∑ k : Fin 3, gradN n (gaussPt val p) k * (Jac val x p).adjugate k e) * S e d := by
    intro p
    rw [Finset.mul_sum]
    apply Finset.sum_congr rfl; intro e _
    rw [dNdx_eq, ← mul_assoc, Finset.mul_sum]
    congr 1
    apply Finset.sum_congr rfl; intro k _
    rw [dtab_spec, ← hadj]; ring
  simp only [h3]
  rw [Finset.sum_comm]
  apply Finset.sum_congr rfl; intro e _
  rw [← Finset.sum_mul]

/-! ## Parallelepipeds: the Gauss sum is exact for every `val` -/

/-- The Jacobian of a parallelepiped. -/
theorem Jac_skew (val : K) (x : ℕ → K) (B : Matrix (Fin 3) (Fin 3) K) (b : Fin 3 → K)
    (hx : ∀ (n : Fin 8) (d : Fin 3), x (3 * n + d) = (∑ j : Fin 3, B d j * corner n j) + b d) (p : Fin 8) : Jac val x p = B := by
  ext i j
  simp only [Jac, Matrix.of_apply, hx, add_mul, Finset.sum_mul]
  rw [Finset.sum_add_distrib, Finset.sum_comm, ← Finset.mul_sum, sum_gradN, mul_zero, add_zero]
  simp only [mul_assoc, ← Finset.mul_sum, sum_corner_gradN]
  simp

theorem sum_gauss_gradN (val : K) (n : Fin 8) (k : Fin 3) : ∑ p : Fin 8, gradN n (gaussPt val p) k = corner n k := by
  have e0 : (Finset.univ.erase 0 : Finset (Fin 3)) = {1, 2} := by decide
  have e1 : (Finset.univ.erase 1 : Finset (Fin 3)) = {0, 2} := by decide
  have e2 : (Finset.univ.erase 2 : Finset (Fin 3)) = {0, 1} := by decide
  rw [Fin.sum_univ_eight]
  fin_cases k <;> simp [gradN, gaussPt, corner, e0, e1, e2, Finset.prod_pair] <;> ring

/-- On a parallelepiped the Gauss sum does not depend on `val`. -/
theorem gaussArea_skew (val : K) (x : ℕ → K) (B : Matrix (Fin 3) (Fin 3) K) (b : Fin 3 → K)
    (hx : ∀ (n : Fin 8) (d : Fin 3), x (3 * n + d) = (∑ j : Fin 3, B d j * corner n j) + b d) (n : Fin 8) (e : Fin 3) :
    gaussArea val x n e = ∑ k : Fin 3, corner n k * B.adjugate k e := by
  unfold gaussArea
  simp only [Jac_skew val x B b hx]
  rw [Finset.sum_comm]
  simp only [← Finset.sum_mul, sum_gauss_gradN]

/-! ## General elements -/

/-- The Gauss sum of the determinant of three gradients, as a function of `v = val²`. -/
def tripleV (v : K) (n b c : Fin 8) : K :=
  ∑ k : Fin 3, (1 / 64 * (corner n k * corner b (k + 1) * corner c (k + 2)) *
      ((1 + v * (corner b k * corner c k)) * (1 + v * (corner n (k + 1) * corner c (k + 1))) * (1 + v * (corner n (k + 2) * corner b (k + 2))))
    - 1 / 64 * (corner n k * corner b (k + 2) * corner c (k + 1)) *
      ((1 + v * (corner b k * corner c k)) * (1 + v * (corner n (k + 2) * corner c (k + 2))) * (1 + v * (corner n (k + 1) * corner b (k + 1)))))

theorem gauss_det_any (val : K) (n b c : Fin 8) :
    ∑ p : Fin 8, ∑ k : Fin 3, gradN n (gaussPt val p) k *
        (gradN b (gaussPt val p) (k + 1) * gradN c (gaussPt val p) (k + 2)
          - gradN b (gaussPt val p) (k + 2) * gradN c (gaussPt val p) (k + 1))
      = tripleV (val ^ 2) n b c := by
  rw [Finset.sum_comm, tripleV]
  apply Finset.sum_congr rfl
  intro k _
  simp only [gradN_eq_gradC]
  have h1 := gauss_triple val (corner n) (corner b) (corner c) k (k + 1) (k + 2) (Or.inl ⟨rfl, rfl⟩)
  have h2 := gauss_triple val (corner n) (corner b) (corner c) k (k + 2) (k + 1) (Or.inr ⟨rfl, rfl⟩)
  have : ∀ p : Fin 8, gradC (corner n) (gaussPt val p) k *
        (gradC (corner b) (gaussPt val p) (k + 1) * gradC (corner c) (gaussPt val p) (k + 2)
          - gradC (corner b) (gaussPt val p) (k + 2) * gradC (corner c) (gaussPt val p) (k + 1))
      = gradC (corner n) (gaussPt val p) k * gradC (corner b) (gaussPt val p) (k + 1) * gradC (corner c) (gaussPt val p) (k + 2)
        - gradC (corner n) (gaussPt val p) k * gradC (corner b) (gaussPt val p) (k + 2) * gradC (corner c) (gaussPt val p) (k + 1) :=
    fun p => by ring
  rw [Finset.sum_congr rfl fun p _ => this p, Finset.sum_sub_distrib, h1, h2]

theorem gaussArea_entry (val : K) (x : ℕ → K) (n : Fin 8) (e : Fin 3) :
    gaussArea val x n e = ∑ b : Fin 8, ∑ c : Fin 8, x (3 * b + (e + 1 : Fin 3)) * x (3 * c + (e + 2 : Fin 3)) * tripleV (val ^ 2) n b c := by
  have h1 : ∀ (p : Fin 8) (k : Fin 3), gradN n (gaussPt val p) k * (Jac val x p).adjugate k e
      = ∑ b : Fin 8, ∑ c : Fin 8, x (3 * b + (e + 1 : Fin 3)) * x (3 * c + (e + 2 : Fin 3)) *
        (gradN n (gaussPt val p) k * (gradN b (gaussPt val p) (k + 1) * gradN c (gaussPt val p) (k + 2)
          - gradN b (gaussPt val p) (k + 2) * gradN c (gaussPt val p) (k + 1))) := by
    intro p k
    rw [adjugate_entry]
    simp only [Jac, Matrix.of_apply]
    have h2 : ∀ b c : Fin 8, x (3 * b + (e + 1 : Fin 3)) * x (3 * c + (e + 2 : Fin 3)) *
        (gradN n (gaussPt val p) k * (gradN b (gaussPt val p) (k + 1) * gradN c (gaussPt val p) (k + 2)
          - gradN b (gaussPt val p) (k + 2) * gradN c (gaussPt val p) (k + 1)))
        = gradN n (gaussPt val p) k * ((x (3 * b + (e + 1 : Fin 3)) * gradN b (gaussPt val p) (k + 1)) *
            (x (3 * c + (e + 2 : Fin 3)) * gradN c (gaussPt val p) (k + 2))
          - (x (3 * b + (e + 1 : Fin 3)) * gradN b (gaussPt val p) (k + 2)) *
            (x (3 * c + (e + 2 : Fin 3)) * gradN c (gaussPt val p) (k + 1))) := by
      intro b c; ring
    simp only [h2, ← Finset.mul_sum, Finset.sum_sub_distrib, ← Finset.sum_mul]
  unfold gaussArea
  simp only [h1]
  have h3 : ∀ p : Fin 8, (∑ k : Fin 3, ∑ b : Fin 8, ∑ c : Fin 8, x (3 * b + (e + 1 : Fin 3)) * x (3 * c + (e + 2 : Fin 3)) *
        (gradN n (gaussPt val p) k * (gradN b (gaussPt val p) (k + 1) * gradN c (gaussPt val p) (k + 2)
          - gradN b (gaussPt val p) (k + 2) * gradN c (gaussPt val p) (k + 1))))
      = ∑ b : Fin 8, ∑ c : Fin 8, x (3 * b + (e + 1 : Fin 3)) * x (3 * c + (e + 2 : Fin 3)) *
        ∑ k : Fin 3, gradN n (gaussPt val p) k * (gradN b (gaussPt val p) (k + 1) * gradN c (gaussPt val p) (k + 2)
          - gradN b (gaussPt val p) (k + 2) * gradN c (gaussPt val p) (k + 1)) := by
    intro p
    rw [Finset.sum_comm]
    apply Finset.sum_congr rfl; intro b _
    rw [Finset.sum_comm]
    apply Finset.sum_congr rfl; intro c _
    rw [← Finset.mul_sum]
  simp only [h3]
  rw [Finset.sum_comm]
  apply Finset.sum_congr rfl; intro b _
  rw [Finset.sum_comm]
  apply Finset.sum_congr rfl; intro c _
  rw [← Finset.mul_sum, gauss_det_any val]

theorem abs_corner (n : Fin 8) (d : Fin 3) : |(corner n d : K)| = 1 := by
  fin_cases n <;> fin_cases d <;> simp [corner]

/-- The product of three factors `1 + v z` changes by at most `12 |v - w|`. -/
theorem three_factors (v w : K) (hv : 0 ≤ v) (hv1 : v ≤ 1) (hw : 0 ≤ w) (hw1 : w ≤ 1) (z1 z2 z3 : K) (h1 : |z1| = 1) (h2 : |z2| = 1)
    (h3 : |z3| = 1) :
    |(1 + v * z1) * (1 + v * z2) * (1 + v * z3) - (1 + w * z1) * (1 + w * z2) * (1 + w * z3)| ≤ 12 * |v - w| := by
  have e : (1 + v * z1) * (1 + v * z2) * (1 + v * z3) - (1 + w * z1) * (1 + w * z2) * (1 + w * z3)
      = (v - w) * (z1 * ((1 + v * z2) * (1 + v * z3)) + z2 * ((1 + w * z1) * (1 + v * z3)) + z3 * ((1 + w * z1) * (1 + w * z2))) := by
    ring
  have hb : ∀ t z : K, 0 ≤ t → t ≤ 1 → |z| = 1 → |1 + t * z| ≤ 2 := by
    intro t z ht ht1 hz
    have := abs_add_le 1 (t * z)
    rw [abs_one, abs_mul, hz, mul_one, abs_of_nonneg ht] at this
    linarith
  have hp : ∀ z t s a b : K, |z| = 1 → 0 ≤ t → t ≤ 1 → |a| = 1 → 0 ≤ s → s ≤ 1 → |b| = 1 →
      |z * ((1 + t * a) * (1 + s * b))| ≤ 4 := by
    intro z t s a b hz ht ht1 ha hs hs1 hb'
    rw [abs_mul, abs_mul, hz, one_mul]
    have := mul_le_mul (hb t a ht ht1 ha) (hb s b hs hs1 hb') (abs_nonneg _) (by norm_num)
    linarith
  rw [e, abs_mul, mul_comm]
  apply mul_le_mul_of_nonneg_right _ (abs_nonneg _)
  refine (abs_add_le _ _).trans ?_
  have := abs_add_le (z1 * ((1 + v * z2) * (1 + v * z3))) (z2 * ((1 + w * z1) * (1 + v * z3)))
  have i1 := hp z1 v v z2 z3 h1 hv hv1 h2 hv hv1 h3
  have i2 := hp z2 w v z1 z3 h2 hw hw1 h1 hv hv1 h3
  have i3 := hp z3 w w z1 z2 h3 hw hw1 h1 hw hw1 h2
  linarith

theorem tripleV_close (v w : K) (hv : 0 ≤ v) (hv1 : v ≤ 1) (hw : 0 ≤ w) (hw1 : w ≤ 1) (n b c : Fin 8) :
    |tripleV v n b c - tripleV w n b c| ≤ 9 / 8 * |v - w| := by
  have hterm : ∀ a1 a2 a3 z1 z2 z3 : K, |a1| = 1 → |a2| = 1 → |a3| = 1 → |z1| = 1 → |z2| = 1 → |z3| = 1 →
      |1 / 64 * (a1 * a2 * a3) * ((1 + v * z1) * (1 + v * z2) * (1 + v * z3))
        - 1 / 64 * (a1 * a2 * a3) * ((1 + w * z1) * (1 + w * z2) * (1 + w * z3))| ≤ 12 / 64 * |v - w| := by
    intro a1 a2 a3 z1 z2 z3 e1 e2 e3 h1 h2 h3
    rw [← mul_sub, abs_mul, abs_mul, abs_mul, abs_mul, e1, e2, e3, abs_of_nonneg (by norm_num : (0 : K) ≤ 1 / 64)]
    have := three_factors v w hv hv1 hw hw1 z1 z2 z3 h1 h2 h3
    linarith
  have hz : ∀ (i j : Fin 8) (d e : Fin 3), |(corner i d : K) * corner j e| = 1 := by
    intro i j d e; rw [abs_mul, abs_corner, abs_corner, one_mul]
  unfold tripleV
  rw [← Finset.sum_sub_distrib]
  refine (Finset.abs_sum_le_sum_abs _ _).trans ?_
  refine (Finset.sum_le_sum (g := fun _ => 24 / 64 * |v - w|) fun k _ => ?_).trans (le_of_eq (by simp; ring))
  have t1 := hterm (corner n k) (corner b (k + 1)) (corner c (k + 2)) (corner b k * corner c k) (corner n (k + 1) * corner c (k + 1))
    (corner n (k + 2) * corner b (k + 2)) (abs_corner _ _) (abs_corner _ _) (abs_corner _ _) (hz _ _ _ _) (hz _ _ _ _) (hz _ _ _ _)
  have t2 := hterm (corner n k) (corner b (k + 2)) (corner c (k + 1)) (corner b k * corner c k) (corner n (k + 2) * corner c (k + 2))
    (corner n (k + 1) * corner b (k + 1)) (abs_corner _ _) (abs_corner _ _) (abs_corner _ _) (hz _ _ _ _) (hz _ _ _ _) (hz _ _ _ _)
  have t3 := (abs_sub _ _).trans (add_le_add t1 t2)
  rw [sub_sub_sub_comm]
  exact t3.trans (le_of_eq (by ring))

/-- The area vector does not depend on the origin. -/
theorem gaussArea_shift (val : K) (x : ℕ → K) (o : Fin 3 → K) (n : Fin 8) (e : Fin 3) (x' : ℕ → K)
    (h : ∀ (m : Fin 8) (d : Fin 3), x' (3 * m + d) = x (3 * m + d) - o d) : gaussArea val x' n e = gaussArea val x n e := by
  have hJ : ∀ p : Fin 8, Jac val x' p = Jac val x p := by
    intro p
    ext i j
    simp only [Jac, Matrix.of_apply, h, sub_mul]
    rw [Finset.sum_sub_distrib, ← Finset.mul_sum, sum_gradN, mul_zero, sub_zero]
  unfold gaussArea
  simp only [hJ]

/-- **The area vectors of an element of size `R` for two Gauss coordinates.** -/
theorem gaussArea_close (val val' : K) (hv1 : val ^ 2 ≤ 1) (hw1 : val' ^ 2 ≤ 1) (x : ℕ → K) (o : Fin 3 → K) (R : K)
    (hR : ∀ (m : Fin 8) (d : Fin 3), |x (3 * m + d) - o d| ≤ R) (n : Fin 8) (e : Fin 3) :
    |gaussArea val x n e - gaussArea val' x n e| ≤ 72 * |val ^ 2 - val' ^ 2| * R ^ 2 := by
  let x' : ℕ → K := fun k => x k - o ⟨k % 3, Nat.mod_lt _ (by norm_num)⟩
  have hx' : ∀ (m : Fin 8) (d : Fin 3), x' (3 * m + d) = x (3 * m + d) - o d := by
    intro m d
    have : (3 * m.val + d.val) % 3 = d.val := by have := d.isLt; omega
    simp only [x', this]
  have hR' : ∀ (m : Fin 8) (d : Fin 3), |x' (3 * m + d)| ≤ R := fun m d => by rw [hx']; exact hR m d
  rw [← gaussArea_shift val x o n e x' hx', ← gaussArea_shift val' x o n e x' hx', gaussArea_entry, gaussArea_entry,
    ← Finset.sum_sub_distrib]
  have hR0 : 0 ≤ R := (abs_nonneg _).trans (hR' 0 0)
  have hb : ∀ b c : Fin 8, |x' (3 * b + (e + 1 : Fin 3)) * x' (3 * c + (e + 2 : Fin 3)) * tripleV (val ^ 2) n b c
      - x' (3 * b + (e + 1 : Fin 3)) * x' (3 * c + (e + 2 : Fin 3)) * tripleV (val' ^ 2) n b c|
      ≤ 9 / 8 * |val ^ 2 - val' ^ 2| * R ^ 2 := by
    intro b c
    rw [← mul_sub, abs_mul, abs_mul]
    have i1 := tripleV_close (val ^ 2) (val' ^ 2) (sq_nonneg _) hv1 (sq_nonneg _) hw1 n b c
    have i2 := mul_le_mul (hR' b (e + 1)) (hR' c (e + 2)) (abs_nonneg _) hR0
    calc _ ≤ R * R * (9 / 8 * |val ^ 2 - val' ^ 2|) := mul_le_mul i2 i1 (abs_nonneg _) (mul_nonneg hR0 hR0)
      _ = _ := by ring
  refine (Finset.abs_sum_le_sum_abs _ _).trans ?_
  have hin : ∀ b : Fin 8, |(∑ c : Fin 8, x' (3 * b + (e + 1 : Fin 3)) * x' (3 * c + (e + 2 : Fin 3)) * tripleV (val ^ 2) n b c)
      - ∑ c : Fin 8, x' (3 * b + (e + 1 : Fin 3)) * x' (3 * c + (e + 2 : Fin 3)) * tripleV (val' ^ 2) n b c|
      ≤ 9 * |val ^ 2 - val' ^ 2| * R ^ 2 := by
    intro b
    rw [← Finset.sum_sub_distrib]
    refine (Finset.abs_sum_le_sum_abs _ _).trans ((Finset.sum_le_sum fun c _ => hb b c).trans (le_of_eq ?_))
    simp
    ring
  refine (Finset.sum_le_sum fun b _ => hin b).trans (le_of_eq ?_)
  simp
  ring

/-- Volume from the area vectors: three times the volume is the sum of position times area vector. -/
theorem volume_from_areas (val : K) (x : ℕ → K) :
    3 * ∑ p : Fin 8, (Jac val x p).det = ∑ n : Fin 8, ∑ e : Fin 3, x (3 * n + e) * gaussArea val x n e := by
  have h1 : ∀ p : Fin 8, 3 * (Jac val x p).det = ∑ e : Fin 3, ∑ k : Fin 3, Jac val x p e k * (Jac val x p).adjugate k e := by
    intro p
    have : ∀ e : Fin 3, ∑ k : Fin 3, Jac val x p e k * (Jac val x p).adjugate k e = (Jac val x p).det := by
      intro e
      have := congrFun (congrFun (Matrix.mul_adjugate (Jac val x p)) e) e
      simpa [Matrix.mul_apply] using this
    simp only [this]
    simp
  rw [Finset.mul_sum]
  simp only [h1]
  have h2 : ∀ (p : Fin 8) (e k : Fin 3), Jac val x p e k * (Jac val x p).adjugate k e
      = ∑ n : Fin 8, x (3 * n + e) * (gradN n (gaussPt val p) k * (Jac val x p).adjugate k e) := by
    intro p e k
    conv_lhs => rw [Jac, Matrix.of_apply, Finset.sum_mul]
    apply Finset.sum_congr rfl; intro n _
    rw [mul_assoc]; rfl
  simp only [h2, gaussArea, Finset.mul_sum]
  rw [Finset.sum_comm]
  have : ∀ e : Fin 3, (∑ p : Fin 8, ∑ k : Fin 3, ∑ n : Fin 8, x (3 * n + e) * (gradN n (gaussPt val p) k * (Jac val x p).adjugate k e))
      = ∑ n : Fin 8, ∑ p : Fin 8, ∑ k : Fin 3, x (3 * n + e) * (gradN n (gaussPt val p) k * (Jac val x p).adjugate k e) := by
    intro e
    have : ∀ p : Fin 8, (∑ k : Fin 3, ∑ n : Fin 8, x (3 * n + e) * (gradN n (gaussPt val p) k * (Jac val x p).adjugate k e))
        = ∑ n : Fin 8, ∑ k : Fin 3, x (3 * n + e) * (gradN n (gaussPt val p) k * (Jac val x p).adjugate k e) :=
      fun p => Finset.sum_comm
    rw [Finset.sum_congr rfl fun p _ => this p, Finset.sum_comm]
  simp only [this]
  rw [Finset.sum_comm]

/-- **The volume of an element of size `R` for two Gauss coordinates.** -/
theorem volume_close (val val' : K) (hv1 : val ^ 2 ≤ 1) (hw1 : val' ^ 2 ≤ 1) (x : ℕ → K) (o : Fin 3 → K) (R : K)
    (hR : ∀ (m : Fin 8) (d : Fin 3), |x (3 * m + d) - o d| ≤ R) :
    |(∑ p : Fin 8, (Jac val x p).det) - ∑ p : Fin 8, (Jac val' x p).det| ≤ 576 * |val ^ 2 - val' ^ 2| * R ^ 3 := by
  have hR0 : 0 ≤ R := (abs_nonneg _).trans (hR 0 0)
  let x' : ℕ → K := fun k => x k - o ⟨k % 3, Nat.mod_lt _ (by norm_num)⟩
  have hx' : ∀ (m : Fin 8) (d : Fin 3), x' (3 * m + d) = x (3 * m + d) - o d := by
    intro m d
    have : (3 * m.val + d.val) % 3 = d.val := by have := d.isLt; omega
    simp only [x', this]
  have hJ : ∀ (v : K) (p : Fin 8), Jac v x p = Jac v x' p := by
    intro v p
    ext i j
    simp only [Jac, Matrix.of_apply, hx', sub_mul]
    rw [Finset.sum_sub_distrib, ← Finset.mul_sum, sum_gradN, mul_zero, sub_zero]
  have hR' : ∀ (m : Fin 8) (d : Fin 3), |x' (3 * m + d)| ≤ R := fun m d => by rw [hx']; exact hR m d
  simp only [hJ]
  have h3 : |3 * ((∑ p : Fin 8, (Jac val x' p).det) - ∑ p : Fin 8, (Jac val' x' p).det)| ≤ 1728 * |val ^ 2 - val' ^ 2| * R ^ 3 := by
    rw [mul_sub, volume_from_areas, volume_from_areas, ← Finset.sum_sub_distrib]
    refine (Finset.abs_sum_le_sum_abs _ _).trans ?_
    refine (Finset.sum_le_sum (g := fun _ => 216 * |val ^ 2 - val' ^ 2| * R ^ 3) fun n _ => ?_).trans (le_of_eq (by simp; ring))
    rw [← Finset.sum_sub_distrib]
    refine (Finset.abs_sum_le_sum_abs _ _).trans ?_
    refine (Finset.sum_le_sum (g := fun _ => 72 * |val ^ 2 - val' ^ 2| * R ^ 3) fun e _ => ?_).trans (le_of_eq (by simp; ring))
    rw [← mul_sub, abs_mul]
    have i1 := gaussArea_close val val' hv1 hw1 x' 0 R (by simpa using hR') n e
    calc _ ≤ R * (72 * |val ^ 2 - val' ^ 2| * R ^ 2) := mul_le_mul (hR' n e) i1 (abs_nonneg _) hR0
      _ = _ := by ring
  rw [abs_mul, abs_of_pos (by norm_num : (0 : K) < 3)] at h3
  linarith

/-- The literal of the code is `1/√3` correctly rounded to 15 decimal digits. -/
theorem gaussVal_rounded : ∃ k : ℤ, (gaussVal : ℝ) * 10 ^ 15 = k ∧ |(k : ℝ) - 10 ^ 15 / Real.sqrt 3| ≤ 1 / 2 := by
  refine ⟨577350269189626, by unfold gaussVal; norm_num, ?_⟩
  have h3 : (0 : ℝ) < Real.sqrt 3 := Real.sqrt_pos.mpr (by norm_num)
  have hsq : Real.sqrt 3 * Real.sqrt 3 = 3 := Real.mul_self_sqrt (by norm_num)
  have h1 : (17320508075688772 / 10000000000000000 : ℝ) ≤ Real.sqrt 3 := by
    apply Real.le_sqrt_of_sq_le; norm_num
  have h2 : Real.sqrt 3 ≤ (17320508075688773 / 10000000000000000 : ℝ) := by
    rw [Real.sqrt_le_left (by norm_num)]; norm_num
  rw [abs_le]
  push_cast
  constructor
  · have : (10 : ℝ) ^ 15 / Real.sqrt 3 ≤ 577350269189626 + 1 / 2 := by
      rw [div_le_iff₀ h3]; nlinarith
    linarith
  · have : (577350269189626 : ℝ) - 1 / 2 ≤ 10 ^ 15 / Real.sqrt 3 := by
      rw [le_div_iff₀ h3]; nlinarith
    linarith

end NimbleSM.Hex
