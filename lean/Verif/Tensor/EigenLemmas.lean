import Verif.Tensor.Polar
import Verif.Tensor.TensorProps
import Mathlib.Analysis.Matrix.Spectrum
import Mathlib.Tactic.Positivity

namespace NimbleSM.Tensor

set_option linter.unusedSimpArgs false

open Matrix

/-- Discriminant inequality for a traceless symmetric 3×3 matrix. -/
theorem discr_le (a b c p q r : ℝ) (htr : a + b + c = 0) :
    27 * (a * (q * q) + b * (r * r) - 2 * p * q * r + c * (p * p - a * b)) ^ 2
      ≤ -4 * (a * b + b * c + c * a - p * p - q * q - r * r) ^ 3 := by
  set A : Matrix (Fin 3) (Fin 3) ℝ := !![a, p, r; p, b, q; r, q, c] with hAdef
  have hA : A.IsHermitian := by
    ext i j; fin_cases i <;> fin_cases j <;> simp [hAdef, Matrix.conjTranspose]
  have hcp := hA.charpoly_eq
  have hev : ∀ t : ℝ, (Matrix.det (t • (1 : Matrix (Fin 3) (Fin 3) ℝ) - A))
      = (t - hA.eigenvalues 0) * (t - hA.eigenvalues 1) * (t - hA.eigenvalues 2) := by
    intro t
    have h := congrArg (Polynomial.eval t) hcp
    rw [Matrix.eval_charpoly] at h
    simp [Polynomial.eval_prod, Fin.prod_univ_three] at h
    rw [← h]
    congr 2
    ext i j; simp [Matrix.scalar_apply, Matrix.one_apply, Matrix.diagonal_apply]
  generalize hA.eigenvalues 0 = x at hev
  generalize hA.eigenvalues 1 = y at hev
  generalize hA.eigenvalues 2 = z at hev
  have hdet : ∀ t : ℝ, (Matrix.det (t • (1 : Matrix (Fin 3) (Fin 3) ℝ) - A))
      = t ^ 3 + (a * b + b * c + c * a - p * p - q * q - r * r) * t
        + (a * (q * q) + b * (r * r) - 2 * p * q * r + c * (p * p - a * b)) := by
    intro t
    rw [Matrix.det_fin_three]
    simp [hAdef]
    linear_combination (-t ^ 2) * htr
  have h0 := (hdet 0).symm.trans (hev 0)
  have h1 := (hdet 1).symm.trans (hev 1)
  have h2 := (hdet (-1)).symm.trans (hev (-1))
  have hsum : x + y + z = 0 := by linarith
  have hc2 : a * b + b * c + c * a - p * p - q * q - r * r = x * y + y * z + z * x := by linarith
  have hc3 : a * (q * q) + b * (r * r) - 2 * p * q * r + c * (p * p - a * b) = -(x * y * z) := by
    linarith
  rw [hc2, hc3]
  have hz : z = -x - y := by linarith
  subst hz
  have key : -4 * (x * y + y * (-x - y) + (-x - y) * x) ^ 3 - 27 * (-(x * y * (-x - y))) ^ 2
      = ((x - y) * (y - (-x - y)) * ((-x - y) - x)) ^ 2 := by ring
  have := sq_nonneg ((x - y) * (y - (-x - y)) * ((-x - y) - x))
  linarith

/-- The function the code's Padé expression approximates has the two properties used below. -/
def IsCosThird (f : ℝ → ℝ) : Prop :=
  ∀ x, 0 ≤ x → x ≤ 1 → 4 * f x ^ 3 - 3 * f x = x ∧ 3 ≤ 4 * f x ^ 2

theorem isCosThird_exact : IsCosThird (fun x => Real.cos (Real.arccos x / 3)) := by
  intro x h0 h1
  have h3 := Real.cos_three_mul (Real.arccos x / 3)
  have hx : 3 * (Real.arccos x / 3) = Real.arccos x := by ring
  rw [hx, Real.cos_arccos (by linarith) h1] at h3
  refine ⟨by linarith, ?_⟩
  have hle : Real.arccos x ≤ Real.pi / 2 := Real.arccos_le_pi_div_two.mpr h0
  have hnn := Real.arccos_nonneg x
  have hc : Real.cos (Real.pi / 6) ≤ Real.cos (Real.arccos x / 3) := by
    apply Real.cos_le_cos_of_nonneg_of_le_pi
    · positivity
    · linarith [Real.pi_pos]
    · linarith
  rw [Real.cos_pi_div_six] at hc
  have hs : 0 ≤ Real.sqrt 3 / 2 := by positivity
  have hs2 : (Real.sqrt 3 / 2) ^ 2 = 3 / 4 := by
    rw [div_pow, Real.sq_sqrt (by norm_num)]; norm_num
  nlinarith [mul_self_le_mul_self hs hc]

/-- The eigenvalue `eval2` of the deviatoric tensor: it is a root of the characteristic
polynomial, and the one of largest magnitude. -/
theorem eval2_root (f : ℝ → ℝ) (hf : IsCosThird f) (c2 c3 : ℝ) (hc2 : c2 < 0)
    (hd : 27 * c3 ^ 2 ≤ -4 * c2 ^ 3) :
    let s := Real.sqrt ((-3) / c2)
    let rr := (-0.5) * c3 * ((-3) / c2) * s
    let l := 2 * multiplySign (f (minimum |rr| 1)) rr / s
    l ^ 3 + c2 * l + c3 = 0 ∧ -c2 ≤ l ^ 2 := by
  intro s rr l
  have hpos : 0 < (-3) / c2 := div_pos_of_neg_of_neg (by norm_num) hc2
  have hs : 0 < s := Real.sqrt_pos.mpr hpos
  have hs2 : s ^ 2 = (-3) / c2 := Real.sq_sqrt hpos.le
  have hs2' : s ^ 2 * c2 = -3 := by rw [hs2]; exact div_mul_cancel₀ _ hc2.ne
  have hrr : rr = -(1/2) * c3 * s ^ 3 := by
    have : s ^ 3 = ((-3) / c2) * s := by rw [← hs2]; ring
    simp only [rr, this]; ring
  have hrr1 : rr ^ 2 ≤ 1 := by
    have e : rr ^ 2 = 1 / 4 * c3 ^ 2 * (s ^ 2) ^ 3 := by rw [hrr]; ring
    have e2 : (s ^ 2) ^ 3 * c2 ^ 3 = -27 := by
      calc (s ^ 2) ^ 3 * c2 ^ 3 = (s ^ 2 * c2) ^ 3 := by ring
        _ = -27 := by rw [hs2']; norm_num
    have hs6 : 0 < (s ^ 2) ^ 3 := by positivity
    have : 27 * c3 ^ 2 * (s ^ 2) ^ 3 ≤ -4 * c2 ^ 3 * (s ^ 2) ^ 3 :=
      mul_le_mul_of_nonneg_right hd hs6.le
    rw [e]; linarith
  have habs : |rr| ≤ 1 := by
    rw [← abs_one]; exact sq_le_sq.mp (by rw [one_pow]; exact hrr1)
  have hmin : minimum |rr| 1 = |rr| := by
    unfold minimum; split
    · rfl
    · linarith
  obtain ⟨h1, h2⟩ := hf |rr| (abs_nonneg _) habs
  set t := multiplySign (f |rr|) rr with ht
  have ht1 : 4 * t ^ 3 - 3 * t = rr ∧ 3 ≤ 4 * t ^ 2 := by
    rcases lt_or_ge rr 0 with h | h
    · have : t = - f |rr| := by rw [ht]; unfold multiplySign; rw [if_pos h]; ring
      rw [this]
      rw [abs_of_neg h] at h1 h2 ⊢
      constructor
      · linarith [h1, (by ring : 4 * (-f (-rr)) ^ 3 - 3 * -f (-rr) = -(4 * f (-rr) ^ 3 - 3 * f (-rr)))]
      · rw [neg_sq]; exact h2
    · have : t = f |rr| := by
        rw [ht]; unfold multiplySign; rw [if_neg (not_lt.mpr h)]; ring
      rw [this]
      rw [abs_of_nonneg h] at h1 h2 ⊢
      exact ⟨h1, h2⟩
  have hl : l = 2 * t / s := by simp only [l, hmin, ht]
  have hls : l * s = 2 * t := by rw [hl]; field_simp
  constructor
  · have h3 : (l ^ 3 + c2 * l + c3) * s ^ 3 = 0 := by
      have : (l ^ 3 + c2 * l + c3) * s ^ 3
          = (l * s) ^ 3 + (s ^ 2 * c2) * (l * s) + c3 * s ^ 3 := by ring
      rw [this, hls, hs2']
      have h4 := ht1.1
      rw [hrr] at h4
      linarith [h4]
    rcases mul_eq_zero.mp h3 with h | h
    · exact h
    · exact absurd h (by positivity)
  · have h5 : -c2 * s ^ 2 ≤ l ^ 2 * s ^ 2 := by
      have : l ^ 2 * s ^ 2 = (l * s) ^ 2 := by ring
      rw [this, hls]
      linarith [ht1.2, hs2']
    exact le_of_mul_le_mul_right h5 (by positivity)

/-- A vector of zero length is zero. -/
theorem dot3_self_eq_zero (v : Fin 3 → ℝ) (h : dot3 v v = 0) : v = 0 := by
  unfold dot3 at h
  funext i
  have h0 : v 0 = 0 := by nlinarith [mul_self_nonneg (v 0), mul_self_nonneg (v 1), mul_self_nonneg (v 2)]
  have h1 : v 1 = 0 := by nlinarith [mul_self_nonneg (v 0), mul_self_nonneg (v 1), mul_self_nonneg (v 2)]
  have h2 : v 2 = 0 := by nlinarith [mul_self_nonneg (v 0), mul_self_nonneg (v 1), mul_self_nonneg (v 2)]
  fin_cases i <;> simp [h0, h1, h2]

theorem dot3_self_nonneg (v : Fin 3 → ℝ) : 0 ≤ dot3 v v := by
  unfold dot3
  nlinarith [mul_self_nonneg (v 0), mul_self_nonneg (v 1), mul_self_nonneg (v 2)]

/-- What the pivoting step has to deliver. -/
structure PivotOK (r0 r1 r2 k a : Fin 3 → ℝ) (ki ai : ℝ) : Prop where
  orth : dot3 k a = 0
  kpos : 0 < dot3 k k
  apos : 0 < dot3 a a
  ki_eq : ki = 1 / dot3 k k
  ai_eq : ai = 1 / dot3 a a
  null0 : dot3 r0 (crossProduct k a) = 0
  null1 : dot3 r1 (crossProduct k a) = 0
  null2 : dot3 r2 (crossProduct k a) = 0

/-- One choice of pivot row `x` with the other rows `y`, `z`. -/
theorem pivot_core (x y z : Fin 3 → ℝ) (hx : dot3 y y ≤ dot3 x x) (hx' : dot3 z z ≤ dot3 x x)
    (hdet : dot3 x (crossProduct y z) = 0)
    (hrank : crossProduct x y ≠ 0 ∨ crossProduct y z ≠ 0 ∨ crossProduct x z ≠ 0) :
    let ki := 1 / dot3 x x
    let y' : Fin 3 → ℝ := fun i => y i - ki * dot3 x y * x i
    let z' : Fin 3 → ℝ := fun i => z i - ki * dot3 x z * x i
    let a : Fin 3 → ℝ := fun i => if dot3 y' y' ≤ dot3 z' z' then z' i else y' i
    let ai := 1 / (if dot3 y' y' ≤ dot3 z' z' then dot3 z' z' else dot3 y' y')
    PivotOK x y z x a ki ai := by
  intro ki y' z' a ai
  have hxpos : 0 < dot3 x x := by
    rcases lt_or_eq_of_le (dot3_self_nonneg x) with h | h
    · exact h
    · exfalso
      have hx0 := dot3_self_eq_zero x h.symm
      have hy0 := dot3_self_eq_zero y (le_antisymm (by rw [h]; exact hx) (dot3_self_nonneg y))
      have hz0 := dot3_self_eq_zero z (le_antisymm (by rw [h]; exact hx') (dot3_self_nonneg z))
      have e : crossProduct (0 : Fin 3 → ℝ) 0 = 0 := by
        ext i; fin_cases i <;> simp [crossProduct]
      rw [hx0, hy0, hz0] at hrank
      simp [e] at hrank
  have hne := hxpos.ne'
  have hki : ki * dot3 x x = 1 := by simp only [ki]; field_simp
  have oy : dot3 x y' = 0 := by
    have : dot3 x y' = dot3 x y - ki * dot3 x x * dot3 x y := by simp only [y', dot3]; ring
    rw [this, hki]; ring
  have oz : dot3 x z' = 0 := by
    have : dot3 x z' = dot3 x z - ki * dot3 x x * dot3 x z := by simp only [z', dot3]; ring
    rw [this, hki]; ring
  have cy : crossProduct x y' = crossProduct x y := by
    ext i; fin_cases i <;> simp [crossProduct, y'] <;> ring
  have cz : crossProduct x z' = crossProduct x z := by
    ext i; fin_cases i <;> simp [crossProduct, z'] <;> ring
  have nxx : ∀ w, dot3 x (crossProduct x w) = 0 := by
    intro w; simp [dot3, crossProduct]; ring
  have nyy : ∀ w, dot3 w (crossProduct x w) = 0 := by
    intro w; simp [dot3, crossProduct]; ring
  have nzy : dot3 z (crossProduct x y) = 0 := by
    rw [← hdet]; simp [dot3, crossProduct]; ring
  have nyz : dot3 y (crossProduct x z) = 0 := by
    have : dot3 y (crossProduct x z) = - dot3 x (crossProduct y z) := by
      simp [dot3, crossProduct]; ring
    rw [this, hdet, neg_zero]
  have notboth : ¬ (dot3 y' y' = 0 ∧ dot3 z' z' = 0) := by
    rintro ⟨h1, h2⟩
    have hy := dot3_self_eq_zero y' h1
    have hz := dot3_self_eq_zero z' h2
    have e0 : crossProduct x 0 = 0 := by ext i; fin_cases i <;> simp [crossProduct]
    have cxy : crossProduct x y = 0 := by rw [← cy, hy, e0]
    have cxz : crossProduct x z = 0 := by rw [← cz, hz, e0]
    have hyx : ∀ i, y i = ki * dot3 x y * x i := fun i => by
      have := congrFun hy i; simp only [y', Pi.zero_apply] at this; linarith
    have hzx : ∀ i, z i = ki * dot3 x z * x i := fun i => by
      have := congrFun hz i; simp only [z', Pi.zero_apply] at this; linarith
    have cyz : crossProduct y z = 0 := by
      ext i
      fin_cases i <;> simp only [crossProduct] <;> simp only [hyx, hzx] <;> simp <;> ring
    rcases hrank with h | h | h
    · exact h cxy
    · exact h cyz
    · exact h cxz
  have ny := dot3_self_nonneg y'
  have nz := dot3_self_nonneg z'
  by_cases hle : dot3 y' y' ≤ dot3 z' z'
  · have ha : a = z' := by funext i; simp only [a]; rw [if_pos hle]
    have hai : ai = 1 / dot3 z' z' := by simp only [ai]; rw [if_pos hle]
    have hpos : 0 < dot3 z' z' := by
      rcases lt_or_eq_of_le nz with h | h
      · exact h
      · exact absurd ⟨le_antisymm (by rw [h]; exact hle) ny, h.symm⟩ notboth
    exact ⟨by rw [ha]; exact oz, hxpos, by rw [ha]; exact hpos, rfl, by rw [hai, ha],
      by rw [ha]; exact nxx _, by rw [ha, cz]; exact nyz, by rw [ha, cz]; exact nyy z⟩
  · have ha : a = y' := by funext i; simp only [a]; rw [if_neg hle]
    have hai : ai = 1 / dot3 y' y' := by simp only [ai]; rw [if_neg hle]
    have hpos : 0 < dot3 y' y' := lt_of_le_of_lt nz (not_le.mp hle)
    exact ⟨by rw [ha]; exact oy, hxpos, by rw [ha]; exact hpos, rfl, by rw [hai, ha],
      by rw [ha]; exact nxx _, by rw [ha, cy]; exact nyy y, by rw [ha, cy]; exact nzy⟩

theorem pivotRows_ok (r0 r1 r2 : Fin 3 → ℝ) (hdet : dot3 r0 (crossProduct r1 r2) = 0)
    (hrank : crossProduct r0 r1 ≠ 0 ∨ crossProduct r1 r2 ≠ 0 ∨ crossProduct r0 r2 ≠ 0) :
    let P := pivotRows r0 r1 r2 (dot3 r0 r0) (dot3 r1 r1) (dot3 r2 r2)
    PivotOK r0 r1 r2 P.1 P.2.1 P.2.2.1 P.2.2.2 := by
  have anti : ∀ u v : Fin 3 → ℝ, crossProduct u v = 0 → crossProduct v u = 0 := by
    intro u v h
    have : crossProduct v u = fun i => - crossProduct u v i := by
      ext i; fin_cases i <;> simp [crossProduct] <;> ring
    rw [this, h]; ext i; simp
  unfold pivotRows
  by_cases h0 : dot3 r1 r1 ≤ dot3 r0 r0 ∧ dot3 r2 r2 ≤ dot3 r0 r0
  · have h1 : ¬ (dot3 r2 r2 ≤ dot3 r1 r1 ∧ ¬ dot3 r1 r1 ≤ dot3 r0 r0) := fun h => h.2 h0.1
    simp only [h0, h1, and_self, not_true, and_false, true_or, not_false_eq_true, if_true, if_false,
      add_zero, or_false]
    exact pivot_core r0 r1 r2 h0.1 h0.2 hdet hrank
  · by_cases h1 : dot3 r2 r2 ≤ dot3 r1 r1 ∧ ¬ dot3 r1 r1 ≤ dot3 r0 r0
    · simp only [h0, h1, and_self, not_true, not_false_eq_true, if_true, if_false, zero_add,
        add_zero, or_true, false_and]
      have hd : dot3 r1 (crossProduct r0 r2) = 0 := by
        have : dot3 r1 (crossProduct r0 r2) = - dot3 r0 (crossProduct r1 r2) := by
          simp [dot3, crossProduct]; ring
        rw [this, hdet, neg_zero]
      have hr : crossProduct r1 r0 ≠ 0 ∨ crossProduct r0 r2 ≠ 0 ∨ crossProduct r1 r2 ≠ 0 := by
        rcases hrank with h | h | h
        · exact Or.inl (fun h' => h (anti _ _ h'))
        · exact Or.inr (Or.inr h)
        · exact Or.inr (Or.inl h)
      have := pivot_core r1 r0 r2 (not_le.mp h1.2).le h1.1 hd hr
      exact ⟨this.orth, this.kpos, this.apos, this.ki_eq, this.ai_eq, this.null1, this.null0,
        this.null2⟩
    · have h2 : dot3 r0 r0 ≤ dot3 r2 r2 ∧ dot3 r1 r1 ≤ dot3 r2 r2 := by
        by_contra hc
        rcases le_total (dot3 r1 r1) (dot3 r0 r0) with h01 | h01
        · have : ¬ dot3 r2 r2 ≤ dot3 r0 r0 := fun h => h0 ⟨h01, h⟩
          exact hc ⟨(not_le.mp this).le, h01.trans (not_le.mp this).le⟩
        · rcases le_total (dot3 r2 r2) (dot3 r1 r1) with h12 | h12
          · have : dot3 r1 r1 ≤ dot3 r0 r0 := by
              by_contra h; exact h1 ⟨h12, h⟩
            exact h0 ⟨this, h12.trans this⟩
          · exact hc ⟨h01.trans h12, h12⟩
      simp only [h0, h1, or_self, not_false_eq_true, if_true, if_false, zero_add]
      have hd : dot3 r2 (crossProduct r0 r1) = 0 := by
        have : dot3 r2 (crossProduct r0 r1) = dot3 r0 (crossProduct r1 r2) := by
          simp [dot3, crossProduct]; ring
        rw [this, hdet]
      have hr : crossProduct r2 r0 ≠ 0 ∨ crossProduct r0 r1 ≠ 0 ∨ crossProduct r2 r1 ≠ 0 := by
        rcases hrank with h | h | h
        · exact Or.inr (Or.inl h)
        · exact Or.inr (Or.inr (fun h' => h (anti _ _ h')))
        · exact Or.inl (fun h' => h (anti _ _ h'))
      have := pivot_core r2 r0 r1 h2.1 h2.2 hd hr
      exact ⟨this.orth, this.kpos, this.apos, this.ki_eq, this.ai_eq, this.null1, this.null2,
        this.null0⟩


/-- Expansion of a vector in the orthogonal frame `k`, `a`, `k × a`. -/
theorem frame_expand (k a w : Fin 3 → ℝ) (h : dot3 k a = 0) (i : Fin 3) :
    dot3 k k * dot3 a a * w i = dot3 a a * dot3 w k * k i + dot3 k k * dot3 w a * a i
      + dot3 w (crossProduct k a) * crossProduct k a i := by
  have gen : (dot3 k k * dot3 a a - dot3 k a * dot3 k a) * w i
      = (dot3 a a * dot3 w k - dot3 w a * dot3 k a) * k i
        + (dot3 k k * dot3 w a - dot3 w k * dot3 k a) * a i
        + dot3 w (crossProduct k a) * crossProduct k a i := by
    fin_cases i <;> simp [dot3, crossProduct] <;> ring
  rw [h] at gen
  linarith

theorem cross_dot_self (k a : Fin 3 → ℝ) (h : dot3 k a = 0) :
    dot3 (crossProduct k a) (crossProduct k a) = dot3 k k * dot3 a a := by
  have gen : dot3 (crossProduct k a) (crossProduct k a)
      = dot3 k k * dot3 a a - dot3 k a * dot3 k a := by
    simp [dot3, crossProduct]; ring
  rw [gen, h]; ring

theorem dot3_symMat (T : Fin 6 → ℝ) (u v : Fin 3 → ℝ) :
    dot3 u (symMat T *ᵥ v) = dot3 (symMat T *ᵥ u) v := by
  simp [dot3, symMat, Matrix.mulVec, dotProduct, Fin.sum_univ_three]; ring

theorem dot3_comm (u v : Fin 3 → ℝ) : dot3 u v = dot3 v u := by simp only [dot3]; ring

theorem shift_zero (b S : ℝ) (h : b + S = 0) (hbS : 0 ≤ b * S) : b = 0 ∧ S = 0 := by
  have h1 : S = -b := by linarith
  rw [h1] at hbS
  have h2 : b * b = 0 := by nlinarith [mul_self_nonneg b]
  have h3 := mul_self_eq_zero.mp h2
  exact ⟨h3, by rw [h1, h3, neg_zero]⟩

/-- The sign of the Wilkinson shift. -/
theorem multiplySign_sqrt (b x : ℝ) (hx : 0 ≤ x) :
    let S := multiplySign (Real.sqrt (b * b + x)) b
    S * S = b * b + x ∧ 0 ≤ b * S := by
  intro S
  have hnn : 0 ≤ b * b + x := add_nonneg (mul_self_nonneg b) hx
  have hs := Real.mul_self_sqrt hnn
  have hp := Real.sqrt_nonneg (b * b + x)
  rcases lt_or_ge b 0 with h | h
  · have : S = - Real.sqrt (b * b + x) := by
      simp only [S, multiplySign]; rw [if_pos h]; ring
    rw [this]
    exact ⟨by rw [neg_mul_neg]; exact hs, by nlinarith⟩
  · have : S = Real.sqrt (b * b + x) := by
      simp only [S, multiplySign]; rw [if_neg (not_lt.mpr h)]; ring
    rw [this]
    exact ⟨hs, mul_nonneg h hp⟩

/-- Three mutually orthogonal nonzero eigenvectors. -/
structure IsEigenSystem (A : Matrix (Fin 3) (Fin 3) ℝ) (e0 e1 e2 : ℝ) (v0 v1 v2 : Fin 3 → ℝ) :
    Prop where
  ev0 : A *ᵥ v0 = e0 • v0
  ev1 : A *ᵥ v1 = e1 • v1
  ev2 : A *ᵥ v2 = e2 • v2
  ne0 : v0 ≠ 0
  ne1 : v1 ≠ 0
  ne2 : v2 ≠ 0
  o01 : v0 ⬝ᵥ v1 = 0
  o02 : v0 ⬝ᵥ v2 = 0
  o12 : v1 ⬝ᵥ v2 = 0

theorem dotProduct_eq_dot3 (u v : Fin 3 → ℝ) : u ⬝ᵥ v = dot3 u v := by
  simp [dotProduct, dot3, Fin.sum_univ_three]

set_option maxHeartbeats 1000000 in
theorem planeProblem_ok (cxx cyy czz cxy cyz czx : ℝ) (k a : Fin 3 → ℝ) (ki ai l : ℝ)
    (orth : dot3 k a = 0) (kpos : 0 < dot3 k k) (apos : 0 < dot3 a a)
    (ki_eq : ki = 1 / dot3 k k) (ai_eq : ai = 1 / dot3 a a)
    (hl : symMat ![cxx, cyy, czz, cxy, cyz, czx] *ᵥ crossProduct k a = l • crossProduct k a) :
    let P := planeProblem cxx cyy czz cxy cyz czx k a ki ai
    IsEigenSystem (symMat ![cxx, cyy, czz, cxy, cyz, czx]) P.1 P.2.1 l P.2.2.1 P.2.2.2.1
      P.2.2.2.2 := by
  set C := symMat ![cxx, cyy, czz, cxy, cyz, czx] with hC
  set Ck := C *ᵥ k with hCk
  set Ca := C *ᵥ a with hCa
  set v2 := crossProduct k a with hv2
  set m := dot3 k Ca with hm
  have hm' : dot3 a Ck = m := by
    rw [hm, hCa, hC, dot3_symMat, ← hC, dot3_comm]
  have hki : ki * dot3 k k = 1 := by rw [ki_eq]; field_simp
  have hai : ai * dot3 a a = 1 := by rw [ai_eq]; field_simp
  have kv2 : dot3 k v2 = 0 := by simp [hv2, dot3, crossProduct]; ring
  have av2 : dot3 a v2 = 0 := by simp [hv2, dot3, crossProduct]; ring
  have hkv : dot3 Ck v2 = 0 := by
    rw [hCk, hC, ← dot3_symMat, ← hC, hl]
    have : dot3 k (l • v2) = l * dot3 k v2 := by simp [dot3]; ring
    rw [this, kv2, mul_zero]
  have hav : dot3 Ca v2 = 0 := by
    rw [hCa, hC, ← dot3_symMat, ← hC, hl]
    have : dot3 a (l • v2) = l * dot3 a v2 := by simp [dot3]; ring
    rw [this, av2, mul_zero]
  set xx := dot3 k Ck * ki with hxx
  set yy := dot3 a Ca * ai with hyy
  have comm : ∀ u v, dot3 u v = dot3 v u := fun u v => by simp [dot3]; ring
  have kk : dot3 k k ≠ 0 := kpos.ne'
  have aa : dot3 a a ≠ 0 := apos.ne'
  have eCk : Ck = xx • k + (m * ai) • a := by
    funext i
    have h := frame_expand k a Ck orth i
    rw [hkv, zero_mul, add_zero, comm Ck k, comm Ck a, hm'] at h
    simp only [Pi.add_apply, Pi.smul_apply, smul_eq_mul, hxx, ki_eq, ai_eq]
    field_simp
    linarith
  have eCa : Ca = (m * ki) • k + yy • a := by
    funext i
    have h := frame_expand k a Ca orth i
    rw [hav, zero_mul, add_zero, comm Ca k, comm Ca a, ← hm] at h
    simp only [Pi.add_apply, Pi.smul_apply, smul_eq_mul, hyy, ki_eq, ai_eq]
    field_simp
    linarith
  set xy2 := m * m * ai * ki with hxy2
  have kipos : 0 < ki := by rw [ki_eq]; positivity
  have aipos : 0 < ai := by rw [ai_eq]; positivity
  have hxy2nn : 0 ≤ xy2 := by
    rw [hxy2]; exact mul_nonneg (mul_nonneg (mul_self_nonneg m) aipos.le) kipos.le
  set b := 0.5 * (xx - yy) with hb
  obtain ⟨hSS, hbS⟩ := multiplySign_sqrt b xy2 hxy2nn
  set S := multiplySign (Real.sqrt (b * b + xy2)) b with hS
  set e0 := yy + b - S with he0
  set e1 := xx + yy - e0 with he1
  set X := xx - e0 with hX
  set Y := yy - e0 with hY
  have hXb : X = b + S := by rw [hX, he0, hb]; ring
  have hYb : Y = S - b := by rw [hY, he0]; ring
  have hXY : X * Y = xy2 := by rw [hXb, hYb]; linear_combination hSS
  have hnlt : ¬ (X * X < Y * Y) := by
    rw [hXb, hYb, not_lt]
    have : (b + S) * (b + S) - (S - b) * (S - b) = 4 * (b * S) := by ring
    linarith only [this, hbS]
  set v0 : Fin 3 → ℝ := fun i => if X * X = 0 ∧ xy2 = 0 then a i else X * a i - ki * m * k i with hv0
  set v1 := crossProduct v2 v0 with hv1
  have hP : planeProblem cxx cyy czz cxy cyz czx k a ki ai = (e0, e1, v0, v1, v2) := by
    have exx : (k 0 * (cxx * k 0 + cxy * k 1 + czx * k 2) + k 1 * (cxy * k 0 + cyy * k 1 + cyz * k 2)
        + k 2 * (czx * k 0 + cyz * k 1 + czz * k 2)) * ki = xx := by
      rw [hxx, hCk, hC]; simp [dot3, symMat, Matrix.mulVec, dotProduct, Fin.sum_univ_three]
    have eyy : (a 0 * (cxx * a 0 + cxy * a 1 + czx * a 2) + a 1 * (cxy * a 0 + cyy * a 1 + cyz * a 2)
        + a 2 * (czx * a 0 + cyz * a 1 + czz * a 2)) * ai = yy := by
      rw [hyy, hCa, hC]; simp [dot3, symMat, Matrix.mulVec, dotProduct, Fin.sum_univ_three]
    have em : k 0 * (cxx * a 0 + cxy * a 1 + czx * a 2) + k 1 * (cxy * a 0 + cyy * a 1 + cyz * a 2)
        + k 2 * (czx * a 0 + cyz * a 1 + czz * a 2) = m := by
      rw [hm, hCa, hC]; simp [dot3, symMat, Matrix.mulVec, dotProduct, Fin.sum_univ_three]
    unfold planeProblem
    simp only [exx, eyy, em]
    simp only [← hxy2, ← hb, ← hS, ← he0, ← he1, ← hX, ← hY, if_neg hnlt]
    rfl
  intro P
  have hPe : P = (e0, e1, v0, v1, v2) := hP
  rw [hPe]
  simp only
  clear hPe P hP
  clear_value X Y e1 e0 S b xy2 xx yy m Ck Ca
  have Cadd : ∀ (u w : Fin 3 → ℝ) (s t : ℝ), C *ᵥ (s • u + t • w) = s • (C *ᵥ u) + t • (C *ᵥ w) := by
    intro u w s t; rw [Matrix.mulVec_add, Matrix.mulVec_smul, Matrix.mulVec_smul]
  have o0 : dot3 v2 v0 = 0 := by
    simp only [hv0]
    by_cases hz : X * X = 0 ∧ xy2 = 0
    · simp only [if_pos hz]; rw [comm]; exact av2
    · simp only [if_neg hz]
      have : dot3 v2 (fun i => X * a i - ki * m * k i) = X * dot3 a v2 - ki * m * dot3 k v2 := by
        simp [dot3]; ring
      rw [this, av2, kv2]; ring
  have hv2pos : 0 < dot3 v2 v2 := by
    rw [hv2, cross_dot_self k a orth]; exact mul_pos kpos apos
  have pos_ne : ∀ v : Fin 3 → ℝ, 0 < dot3 v v → v ≠ 0 := by
    intro v h h0; rw [h0] at h; simp [dot3] at h
  have mm0 : xy2 = 0 → m = 0 := by
    intro h
    rw [hxy2] at h
    have : m * m = 0 := by
      rcases mul_eq_zero.mp h with h | h
      · rcases mul_eq_zero.mp h with h | h
        · exact h
        · exact absurd h aipos.ne'
      · exact absurd h kipos.ne'
    exact mul_self_eq_zero.mp this
  have hv0pos : 0 < dot3 v0 v0 := by
    by_cases hz : X * X = 0 ∧ xy2 = 0
    · have : v0 = a := by funext i; simp only [hv0, if_pos hz]
      rw [this]; exact apos
    · have hX0 : X ≠ 0 := by
        intro h0
        apply hz
        refine ⟨by rw [h0]; ring, ?_⟩
        rw [← hXY, h0]; ring
      have : dot3 v0 v0 = X * X * dot3 a a + (ki * m) * (ki * m) * dot3 k k
          - 2 * X * (ki * m) * dot3 k a := by
        simp only [hv0, if_neg hz, dot3]; ring
      rw [this, orth]
      have h1 : 0 < X * X * dot3 a a := mul_pos (mul_self_pos.mpr hX0) apos
      have h2 : 0 ≤ (ki * m) * (ki * m) * dot3 k k := mul_nonneg (mul_self_nonneg _) kpos.le
      linarith only [h1, h2]
  have hv1pos : 0 < dot3 v1 v1 := by
    rw [hv1, cross_dot_self v2 v0 o0]; exact mul_pos hv2pos hv0pos
  -- `v1` in the frame
  have hv1f : ∀ i, v1 i = dot3 k v0 * a i - dot3 a v0 * k i := by
    intro i
    fin_cases i <;> simp [hv1, hv2, crossProduct, dot3] <;> ring
  have kC : (C *ᵥ k) = xx • k + (m * ai) • a := hCk ▸ eCk
  have aC : (C *ᵥ a) = (m * ki) • k + yy • a := hCa ▸ eCa
  refine ⟨?_, ?_, hl, pos_ne v0 hv0pos, pos_ne v1 hv1pos, pos_ne v2 hv2pos, ?_, ?_, ?_⟩
  · by_cases hz : X * X = 0 ∧ xy2 = 0
    · have hva : v0 = a := by funext i; simp only [hv0, if_pos hz]
      have hX0 : X = 0 := mul_self_eq_zero.mp hz.1
      have hm0 := mm0 hz.2
      have hb0 : b = 0 ∧ S = 0 := shift_zero b S (by rw [← hXb, hX0]) hbS
      rw [hva, aC, hm0]
      have : e0 = yy := by rw [he0, hb0.1, hb0.2]; ring
      rw [this]; simp
    · have hva : v0 = X • a + (-(ki * m)) • k := by
        funext i; simp only [hv0, if_neg hz]; simp; ring
      rw [hva, Cadd, aC, kC]
      funext i
      simp only [Pi.add_apply, Pi.smul_apply, smul_eq_mul]
      have h1 : yy = Y + e0 := by rw [hY]; ring
      have h2 : xx = X + e0 := by rw [hX]; ring
      rw [h1, h2]
      have h3 : X * Y = m * m * ai * ki := hXY.trans hxy2
      linear_combination a i * h3
  · by_cases hz : X * X = 0 ∧ xy2 = 0
    · have hva : v0 = a := by funext i; simp only [hv0, if_pos hz]
      have hX0 : X = 0 := mul_self_eq_zero.mp hz.1
      have hm0 := mm0 hz.2
      have hv1k : v1 = (-(dot3 a a)) • k + (0:ℝ) • a := by
        funext i
        rw [hv1f i, hva, orth]; simp
      have he1x : e1 = xx := by
        have hb0 : b = 0 ∧ S = 0 := shift_zero b S (by rw [← hXb, hX0]) hbS
        have h4 : Y = 0 := by rw [hYb, hb0.1, hb0.2]; ring
        have : yy = e0 := by linarith only [hY, h4]
        rw [he1, this]; ring
      rw [hv1k, Cadd, kC, hm0, he1x]
      funext i
      simp
      ring
    · have hva : v0 = X • a + (-(ki * m)) • k := by
        funext i; simp only [hv0, if_neg hz]; simp; ring
      have hkv0 : dot3 k v0 = -m := by
        have : dot3 k v0 = X * dot3 k a - m * (ki * dot3 k k) := by
          rw [hva]; simp [dot3]; ring
        rw [this, orth, hki]; ring
      have hav0 : dot3 a v0 = X * dot3 a a := by
        have : dot3 a v0 = X * dot3 a a - ki * m * dot3 k a := by
          rw [hva]; simp [dot3]; ring
        rw [this, orth]; ring
      have hv1k : v1 = (-(X * dot3 a a)) • k + (-m) • a := by
        funext i
        rw [hv1f i, hkv0, hav0]; simp; ring
      rw [hv1k, Cadd, kC, aC]
      funext i
      simp only [Pi.add_apply, Pi.smul_apply, smul_eq_mul]
      have h1 : yy = Y + e0 := by rw [hY]; ring
      have h2 : xx = X + e0 := by rw [hX]; ring
      have h4 : e1 = X + Y + e0 := by rw [he1]; linarith only [h1, h2]
      rw [h4, h1, h2]
      have h3 : X * Y = m * m * ai * ki := hXY.trans hxy2
      have h5 : X * Y * dot3 a a = m * m * ki := by
        rw [h3]; linear_combination (m * m * ki) * hai
      have h6 : X * dot3 a a * (m * ai) = X * m := by
        linear_combination (X * m) * hai
      linear_combination k i * h5 - a i * h6
  · rw [dotProduct_eq_dot3, hv1]; simp [dot3, crossProduct]; ring
  · rw [dotProduct_eq_dot3, comm]; exact o0
  · rw [dotProduct_eq_dot3, hv1]; simp [dot3, crossProduct]; ring

end NimbleSM.Tensor
