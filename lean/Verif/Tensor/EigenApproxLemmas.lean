import Verif.Tensor.PadeLemmas
import Verif.Tensor.PolarProps

/-!
# Backward error of `Eigen_Sym33_NonUnit` with the code's rational approximation

The solver uses an approximate root of the characteristic polynomial.  The lemmas of this file show
that what it returns is the exact eigensystem of a nearby symmetric matrix.
-/

set_option linter.unusedSimpArgs false

namespace NimbleSM.Tensor

open Matrix

/-- Squared Frobenius norm. -/
def frobSq (A : Matrix (Fin 3) (Fin 3) ℝ) : ℝ := ∑ i, ∑ j, A i j ^ 2

/-- `eval2_root` with an approximate trigonometric function. -/
theorem eval2_root_upTo (δ : ℝ) (f : ℝ → ℝ) (hf : IsCosThirdUpTo δ f) (c2 c3 : ℝ) (hc2 : c2 < 0)
    (hd : 27 * c3 ^ 2 ≤ -4 * c2 ^ 3) :
    let s := Real.sqrt ((-3) / c2)
    let rr := (-0.5) * c3 * ((-3) / c2) * s
    let l := 2 * multiplySign (f (minimum |rr| 1)) rr / s
    27 * (l ^ 3 + c2 * l + c3) ^ 2 ≤ 4 * δ ^ 2 * (-c2) ^ 3 ∧ -c2 ≤ l ^ 2 := by
  intro s rr l
  have hpos : 0 < (-3) / c2 := div_pos_of_neg_of_neg (by norm_num) hc2
  have hs : 0 < s := Real.sqrt_pos.mpr hpos
  have hs2 : s ^ 2 = (-3) / c2 := Real.sq_sqrt hpos.le
  have hs2' : s ^ 2 * c2 = -3 := by rw [hs2]; exact div_mul_cancel₀ _ hc2.ne
  have hs6c : (s ^ 2) ^ 3 * (-c2) ^ 3 = 27 := by
    calc (s ^ 2) ^ 3 * (-c2) ^ 3 = (-(s ^ 2 * c2)) ^ 3 := by ring
      _ = 27 := by rw [hs2']; norm_num
  have hrr : rr = -(1/2) * c3 * s ^ 3 := by
    have : s ^ 3 = ((-3) / c2) * s := by rw [← hs2]; ring
    simp only [rr, this]; ring
  have hrr1 : rr ^ 2 ≤ 1 := by
    have e : rr ^ 2 = 1 / 4 * c3 ^ 2 * (s ^ 2) ^ 3 := by rw [hrr]; ring
    have hs6 : 0 < (s ^ 2) ^ 3 := by positivity
    have : 27 * c3 ^ 2 * (s ^ 2) ^ 3 ≤ -4 * c2 ^ 3 * (s ^ 2) ^ 3 :=
      mul_le_mul_of_nonneg_right hd hs6.le
    rw [e]
    have e2 : (s ^ 2) ^ 3 * (-c2) ^ 3 = -(c2 ^ 3 * (s ^ 2) ^ 3) := by ring
    rw [e2] at hs6c
    linarith
  have habs : |rr| ≤ 1 := by
    rw [← abs_one]; exact sq_le_sq.mp (by rw [one_pow]; exact hrr1)
  have hmin : minimum |rr| 1 = |rr| := by
    unfold minimum; split
    · rfl
    · linarith
  obtain ⟨h1, h2⟩ := hf |rr| (abs_nonneg _) habs
  set t := multiplySign (f |rr|) rr with ht
  have ht1 : |4 * t ^ 3 - 3 * t - rr| ≤ δ ∧ 3 ≤ 4 * t ^ 2 := by
    rcases lt_or_ge rr 0 with h | h
    · have : t = - f |rr| := by rw [ht]; unfold multiplySign; rw [if_pos h]; ring
      rw [this]
      rw [abs_of_neg h] at h1 h2 ⊢
      constructor
      · rw [← abs_neg]
        rw [show -(4 * (-f (-rr)) ^ 3 - 3 * -f (-rr) - rr) = 4 * f (-rr) ^ 3 - 3 * f (-rr) - -rr by
          ring]
        exact h1
      · rw [neg_sq]; exact h2
    · have : t = f |rr| := by
        rw [ht]; unfold multiplySign; rw [if_neg (not_lt.mpr h)]; ring
      rw [this]
      rw [abs_of_nonneg h] at h1 h2 ⊢
      exact ⟨h1, h2⟩
  have hl : l = 2 * t / s := by simp only [l, hmin, ht]
  have hls : l * s = 2 * t := by rw [hl]; field_simp
  constructor
  · have h3 : (l ^ 3 + c2 * l + c3) * s ^ 3 = 2 * (4 * t ^ 3 - 3 * t - rr) := by
      have : (l ^ 3 + c2 * l + c3) * s ^ 3
          = (l * s) ^ 3 + (s ^ 2 * c2) * (l * s) + c3 * s ^ 3 := by ring
      rw [this, hls, hs2', hrr]; ring
    have hsq : (4 * t ^ 3 - 3 * t - rr) ^ 2 ≤ δ ^ 2 := by
      rw [← sq_abs]
      exact pow_le_pow_left₀ (abs_nonneg _) ht1.1 2
    have h4 : (l ^ 3 + c2 * l + c3) ^ 2 * (s ^ 2) ^ 3 ≤ 4 * δ ^ 2 := by
      have : (l ^ 3 + c2 * l + c3) ^ 2 * (s ^ 2) ^ 3 = ((l ^ 3 + c2 * l + c3) * s ^ 3) ^ 2 := by ring
      rw [this, h3]
      nlinarith only [hsq]
    have hc : 0 < (-c2) ^ 3 := pow_pos (by linarith) 3
    have h5 := mul_le_mul_of_nonneg_right h4 hc.le
    have h6 : (l ^ 3 + c2 * l + c3) ^ 2 * (s ^ 2) ^ 3 * (-c2) ^ 3
        = 27 * (l ^ 3 + c2 * l + c3) ^ 2 := by
      rw [mul_assoc, hs6c]; ring
    rw [h6] at h5
    exact h5
  · have h5 : -c2 * s ^ 2 ≤ l ^ 2 * s ^ 2 := by
      have : l ^ 2 * s ^ 2 = (l * s) ^ 2 := by ring
      rw [this, hls]
      linarith [ht1.2, hs2']
    exact le_of_mul_le_mul_right h5 (by positivity)

/-- What the pivoting step delivers for any three rows of which two are independent. -/
structure PivotUpTo (r0 r1 r2 k a : Fin 3 → ℝ) (ki ai : ℝ) : Prop where
  orth : dot3 k a = 0
  kpos : 0 < dot3 k k
  apos : 0 < dot3 a a
  ki_eq : ki = 1 / dot3 k k
  ai_eq : ai = 1 / dot3 a a
  res : dot3 r0 (crossProduct k a) ^ 2 + dot3 r1 (crossProduct k a) ^ 2
    + dot3 r2 (crossProduct k a) ^ 2 = dot3 r0 (crossProduct r1 r2) ^ 2
  size : ∀ α β γ : ℝ, α ^ 2 ≤ dot3 (crossProduct r0 r1) (crossProduct r0 r1) →
    β ^ 2 ≤ dot3 (crossProduct r1 r2) (crossProduct r1 r2) →
    γ ^ 2 ≤ dot3 (crossProduct r0 r2) (crossProduct r0 r2) →
    (α + β + γ) ^ 2 ≤ 25 * (dot3 k k * dot3 a a)

theorem sum3_sq_le (α β γ W : ℝ) (hW : 0 ≤ W) (ha : α ^ 2 ≤ W) (hb : β ^ 2 ≤ 9 * W) (hc : γ ^ 2 ≤ W) :
    (α + β + γ) ^ 2 ≤ 25 * W := by
  set s := Real.sqrt W with hs
  have hs2 : s ^ 2 = W := Real.sq_sqrt hW
  have hs0 : 0 ≤ s := Real.sqrt_nonneg _
  rw [← hs2] at ha hb hc ⊢
  have a1 : |α| ≤ s := abs_le_of_sq_le_sq ha hs0
  have b1 : |β| ≤ 3 * s := abs_le_of_sq_le_sq (by rw [mul_pow]; linarith) (by linarith)
  have c1 : |γ| ≤ s := abs_le_of_sq_le_sq hc hs0
  have h : |α + β + γ| ≤ 5 * s := by
    have := abs_add_three α β γ
    linarith
  have := pow_le_pow_left₀ (abs_nonneg _) h 2
  rw [sq_abs] at this
  nlinarith only [this]

theorem pivot_core_upTo (x y z : Fin 3 → ℝ) (hx : dot3 y y ≤ dot3 x x) (hx' : dot3 z z ≤ dot3 x x)
    (hrank : crossProduct x y ≠ 0 ∨ crossProduct y z ≠ 0 ∨ crossProduct x z ≠ 0) :
    let ki := 1 / dot3 x x
    let y' : Fin 3 → ℝ := fun i => y i - ki * dot3 x y * x i
    let z' : Fin 3 → ℝ := fun i => z i - ki * dot3 x z * x i
    let a : Fin 3 → ℝ := fun i => if dot3 y' y' ≤ dot3 z' z' then z' i else y' i
    let ai := 1 / (if dot3 y' y' ≤ dot3 z' z' then dot3 z' z' else dot3 y' y')
    PivotUpTo x y z x a ki ai := by
  intro ki y' z' a ai
  have hxpos : 0 < dot3 x x := by
    rcases lt_or_eq_of_le (dot3_self_nonneg x) with h | h
    · exact h
    · exfalso
      have hx0 := dot3_self_eq_zero x h.symm
      have hy0 := dot3_self_eq_zero y (le_antisymm (by rw [h]; exact hx) (dot3_self_nonneg y))
      have hz0 := dot3_self_eq_zero z (le_antisymm (by rw [h]; exact hx') (dot3_self_nonneg z))
      have e : crossProduct (0 : Fin 3 → ℝ) 0 = 0 := by
        ext i; fin_cases i <;> simp [crossProduct]
      rw [hx0, hy0, hz0] at hrank
      simp [e] at hrank
  have hne := hxpos.ne'
  have hki : ki * dot3 x x = 1 := by simp only [ki]; field_simp
  have oy : dot3 x y' = 0 := by
    have : dot3 x y' = dot3 x y - ki * dot3 x x * dot3 x y := by simp only [y', dot3]; ring
    rw [this, hki]; ring
  have oz : dot3 x z' = 0 := by
    have : dot3 x z' = dot3 x z - ki * dot3 x x * dot3 x z := by simp only [z', dot3]; ring
    rw [this, hki]; ring
  have cy : crossProduct x y' = crossProduct x y := by
    ext i; fin_cases i <;> simp [crossProduct, y'] <;> ring
  have cz : crossProduct x z' = crossProduct x z := by
    ext i; fin_cases i <;> simp [crossProduct, z'] <;> ring
  have nxx : ∀ w, dot3 x (crossProduct x w) = 0 := by
    intro w; simp [dot3, crossProduct]; ring
  have nyy : ∀ w, dot3 w (crossProduct x w) = 0 := by
    intro w; simp [dot3, crossProduct]; ring
  have nzy : dot3 z (crossProduct x y) = dot3 x (crossProduct y z) := by
    simp [dot3, crossProduct]; ring
  have nyz : dot3 y (crossProduct x z) = - dot3 x (crossProduct y z) := by
    simp [dot3, crossProduct]; ring
  have notboth : ¬ (dot3 y' y' = 0 ∧ dot3 z' z' = 0) := by
    rintro ⟨h1, h2⟩
    have hy := dot3_self_eq_zero y' h1
    have hz := dot3_self_eq_zero z' h2
    have e0 : crossProduct x 0 = 0 := by ext i; fin_cases i <;> simp [crossProduct]
    have cxy : crossProduct x y = 0 := by rw [← cy, hy, e0]
    have cxz : crossProduct x z = 0 := by rw [← cz, hz, e0]
    have hyx : ∀ i, y i = ki * dot3 x y * x i := fun i => by
      have := congrFun hy i; simp only [y', Pi.zero_apply] at this; linarith
    have hzx : ∀ i, z i = ki * dot3 x z * x i := fun i => by
      have := congrFun hz i; simp only [z', Pi.zero_apply] at this; linarith
    have cyz : crossProduct y z = 0 := by
      ext i
      fin_cases i <;> simp only [crossProduct] <;> simp only [hyx, hzx] <;> simp <;> ring
    rcases hrank with h | h | h
    · exact h cxy
    · exact h cyz
    · exact h cxz
  have ny := dot3_self_nonneg y'
  have nz := dot3_self_nonneg z'
  -- sizes
  set X := dot3 x x with hX
  set Y := dot3 y' y' with hY
  set Z := dot3 z' z' with hZ
  set p := ki * dot3 x y with hp
  set q := ki * dot3 x z with hq
  set c := dot3 y' z' with hc
  have yexp : ∀ i, y i = y' i + p * x i := fun i => by simp only [y', ← hp]; ring
  have zexp : ∀ i, z i = z' i + q * x i := fun i => by simp only [z', ← hq]; ring
  have yy : dot3 y y = p ^ 2 * X + Y := by
    have : dot3 y y = p ^ 2 * X + Y + 2 * p * dot3 x y' := by
      simp only [hX, hY, dot3, yexp]; ring
    rw [this, oy]; ring
  have zz : dot3 z z = q ^ 2 * X + Z := by
    have : dot3 z z = q ^ 2 * X + Z + 2 * q * dot3 x z' := by
      simp only [hX, hZ, dot3, zexp]; ring
    rw [this, oz]; ring
  have yz : dot3 y z = p * q * X + c := by
    have : dot3 y z = p * q * X + c + p * dot3 x z' + q * dot3 x y' := by
      simp only [hX, hc, dot3, zexp, yexp]; ring
    rw [this, oz, oy]; ring
  have lag : ∀ u v : Fin 3 → ℝ, dot3 (crossProduct u v) (crossProduct u v)
      = dot3 u u * dot3 v v - dot3 u v ^ 2 := by
    intro u v; simp [dot3, crossProduct]; ring
  have cxy2 : dot3 (crossProduct x y) (crossProduct x y) = X * Y := by
    rw [← cy, lag, oy]; simp [hX, hY]
  have cxz2 : dot3 (crossProduct x z) (crossProduct x z) = X * Z := by
    rw [← cz, lag, oz]; simp [hX, hZ]
  have cyz2 : dot3 (crossProduct y z) (crossProduct y z)
      = X * (p ^ 2 * Z + q ^ 2 * Y - 2 * (p * q * c)) + (Y * Z - c ^ 2) := by
    rw [lag, yy, zz, yz]; ring
  have hc2 : c ^ 2 ≤ Y * Z := by
    have := lag y' z'
    have h2 := dot3_self_nonneg (crossProduct y' z')
    rw [this] at h2
    linarith
  have hp1 : p ^ 2 ≤ 1 := by
    have : p ^ 2 * X ≤ 1 * X := by rw [yy] at hx; linarith
    exact le_of_mul_le_mul_right this hxpos
  have hq1 : q ^ 2 ≤ 1 := by
    have : q ^ 2 * X ≤ 1 * X := by rw [zz] at hx'; linarith
    exact le_of_mul_le_mul_right this hxpos
  have bound : ∀ A, Y ≤ A → Z ≤ A → A ≤ X →
      X * (p ^ 2 * Z + q ^ 2 * Y - 2 * (p * q * c)) + (Y * Z - c ^ 2) ≤ 9 * (X * A) := by
    intro A hYA hZA hAX
    have hA : 0 ≤ A := ny.trans hYA
    have hYZ : Y * Z ≤ A * A := mul_le_mul hYA hZA nz hA
    have hcA : |c| ≤ A := abs_le_of_sq_le_sq (by nlinarith only [hc2, hYZ]) hA
    have hpq : |p * q| ≤ 1 := by
      apply abs_le_of_sq_le_sq _ (by norm_num)
      rw [mul_pow, one_pow]
      nlinarith only [hp1, hq1, sq_nonneg p, sq_nonneg q]
    have hpqc : -(p * q * c) ≤ A := by
      have h1 : |p * q * c| ≤ A := by
        rw [abs_mul]
        nlinarith only [hpq, hcA, abs_nonneg (p * q), abs_nonneg c]
      exact (neg_le_abs _).trans h1
    have h1 : p ^ 2 * Z ≤ A := by nlinarith only [hp1, sq_nonneg p, hZA, nz]
    have h2 : q ^ 2 * Y ≤ A := by nlinarith only [hq1, sq_nonneg q, hYA, ny]
    have h3 : X * (p ^ 2 * Z + q ^ 2 * Y - 2 * (p * q * c)) ≤ X * (4 * A) :=
      mul_le_mul_of_nonneg_left (by linarith) hxpos.le
    have h4 : Y * Z - c ^ 2 ≤ X * A := by nlinarith only [hYZ, sq_nonneg c, hAX, hA]
    have h5 : 0 ≤ X * A := mul_nonneg hxpos.le hA
    nlinarith only [h3, h4, h5]
  have hYX : Y ≤ X := by rw [yy] at hx; nlinarith only [hx, sq_nonneg p, hxpos]
  have hZX : Z ≤ X := by rw [zz] at hx'; nlinarith only [hx', sq_nonneg q, hxpos]
  by_cases hle : Y ≤ Z
  · have ha : a = z' := by funext i; simp only [a]; rw [if_pos hle]
    have hai : ai = 1 / dot3 z' z' := by simp only [ai]; rw [if_pos hle]
    have hpos : 0 < dot3 z' z' := by
      rcases lt_or_eq_of_le nz with h | h
      · exact h
      · exact absurd ⟨le_antisymm (by rw [h]; exact hle) ny, h.symm⟩ notboth
    refine ⟨by rw [ha]; exact oz, hxpos, by rw [ha]; exact hpos, rfl, by rw [hai, ha], ?_, ?_⟩
    · rw [ha, cz, nyz, nxx z, nyy z]; ring
    · intro α β γ h1 h2 h3
      rw [ha, ← hX, ← hZ]
      rw [cxy2] at h1
      rw [cyz2] at h2
      rw [cxz2] at h3
      exact sum3_sq_le _ _ _ _ (mul_nonneg hxpos.le nz)
        (h1.trans (mul_le_mul_of_nonneg_left hle hxpos.le)) (h2.trans (bound Z hle le_rfl hZX)) h3
  · have ha : a = y' := by funext i; simp only [a]; rw [if_neg hle]
    have hai : ai = 1 / dot3 y' y' := by simp only [ai]; rw [if_neg hle]
    have hlt := not_le.mp hle
    have hpos : 0 < dot3 y' y' := lt_of_le_of_lt nz hlt
    refine ⟨by rw [ha]; exact oy, hxpos, by rw [ha]; exact hpos, rfl, by rw [hai, ha], ?_, ?_⟩
    · rw [ha, cy, nzy, nxx y, nyy y]; ring
    · intro α β γ h1 h2 h3
      rw [ha, ← hX, ← hY]
      rw [cxy2] at h1
      rw [cyz2] at h2
      rw [cxz2] at h3
      exact sum3_sq_le _ _ _ _ (mul_nonneg hxpos.le ny) h1 (h2.trans (bound Y le_rfl hlt.le hYX))
        (h3.trans (mul_le_mul_of_nonneg_left hlt.le hxpos.le))

theorem pivotRows_upTo (r0 r1 r2 : Fin 3 → ℝ)
    (hrank : crossProduct r0 r1 ≠ 0 ∨ crossProduct r1 r2 ≠ 0 ∨ crossProduct r0 r2 ≠ 0) :
    let P := pivotRows r0 r1 r2 (dot3 r0 r0) (dot3 r1 r1) (dot3 r2 r2)
    PivotUpTo r0 r1 r2 P.1 P.2.1 P.2.2.1 P.2.2.2 := by
  have anti : ∀ u v : Fin 3 → ℝ, crossProduct v u = fun i => - crossProduct u v i := by
    intro u v
    ext i; fin_cases i <;> simp [crossProduct] <;> ring
  have anti0 : ∀ u v : Fin 3 → ℝ, crossProduct u v = 0 → crossProduct v u = 0 := by
    intro u v h
    rw [anti, h]; ext i; simp
  have anti2 : ∀ u v : Fin 3 → ℝ, dot3 (crossProduct v u) (crossProduct v u)
      = dot3 (crossProduct u v) (crossProduct u v) := by
    intro u v; rw [anti u v]; simp [dot3]
  unfold pivotRows
  by_cases h0 : dot3 r1 r1 ≤ dot3 r0 r0 ∧ dot3 r2 r2 ≤ dot3 r0 r0
  · have h1 : ¬ (dot3 r2 r2 ≤ dot3 r1 r1 ∧ ¬ dot3 r1 r1 ≤ dot3 r0 r0) := fun h => h.2 h0.1
    simp only [h0, h1, and_self, not_true, and_false, true_or, not_false_eq_true, if_true, if_false,
      add_zero, or_false]
    exact pivot_core_upTo r0 r1 r2 h0.1 h0.2 hrank
  · by_cases h1 : dot3 r2 r2 ≤ dot3 r1 r1 ∧ ¬ dot3 r1 r1 ≤ dot3 r0 r0
    · simp only [h0, h1, and_self, not_true, not_false_eq_true, if_true, if_false, zero_add,
        add_zero, or_true, false_and]
      have hd : dot3 r1 (crossProduct r0 r2) ^ 2 = dot3 r0 (crossProduct r1 r2) ^ 2 := by
        have : dot3 r1 (crossProduct r0 r2) = - dot3 r0 (crossProduct r1 r2) := by
          simp [dot3, crossProduct]; ring
        rw [this, neg_sq]
      have hr : crossProduct r1 r0 ≠ 0 ∨ crossProduct r0 r2 ≠ 0 ∨ crossProduct r1 r2 ≠ 0 := by
        rcases hrank with h | h | h
        · exact Or.inl (fun h' => h (anti0 _ _ h'))
        · exact Or.inr (Or.inr h)
        · exact Or.inr (Or.inl h)
      have := pivot_core_upTo r1 r0 r2 (not_le.mp h1.2).le h1.1 hr
      refine ⟨this.orth, this.kpos, this.apos, this.ki_eq, this.ai_eq, ?_, ?_⟩
      · rw [← hd, ← this.res]; ring
      · intro α β γ h1 h2 h3
        have := this.size α γ β (by rw [anti2]; exact h1) h3 h2
        rw [show α + β + γ = α + γ + β by ring]; exact this
    · have h2 : dot3 r0 r0 ≤ dot3 r2 r2 ∧ dot3 r1 r1 ≤ dot3 r2 r2 := by
        by_contra hc
        rcases le_total (dot3 r1 r1) (dot3 r0 r0) with h01 | h01
        · have : ¬ dot3 r2 r2 ≤ dot3 r0 r0 := fun h => h0 ⟨h01, h⟩
          exact hc ⟨(not_le.mp this).le, h01.trans (not_le.mp this).le⟩
        · rcases le_total (dot3 r2 r2) (dot3 r1 r1) with h12 | h12
          · have : dot3 r1 r1 ≤ dot3 r0 r0 := by
              by_contra h; exact h1 ⟨h12, h⟩
            exact h0 ⟨this, h12.trans this⟩
          · exact hc ⟨h01.trans h12, h12⟩
      simp only [h0, h1, or_self, not_false_eq_true, if_true, if_false, zero_add]
      have hd : dot3 r2 (crossProduct r0 r1) ^ 2 = dot3 r0 (crossProduct r1 r2) ^ 2 := by
        have : dot3 r2 (crossProduct r0 r1) = dot3 r0 (crossProduct r1 r2) := by
          simp [dot3, crossProduct]; ring
        rw [this]
      have hr : crossProduct r2 r0 ≠ 0 ∨ crossProduct r0 r1 ≠ 0 ∨ crossProduct r2 r1 ≠ 0 := by
        rcases hrank with h | h | h
        · exact Or.inr (Or.inl h)
        · exact Or.inr (Or.inr (fun h' => h (anti0 _ _ h')))
        · exact Or.inl (fun h' => h (anti0 _ _ h'))
      have := pivot_core_upTo r2 r0 r1 h2.1 h2.2 hr
      refine ⟨this.orth, this.kpos, this.apos, this.ki_eq, this.ai_eq, ?_, ?_⟩
      · rw [← hd, ← this.res]; ring
      · intro α β γ h1 h2 h3
        have := this.size γ α β (by rw [anti2]; exact h3) h1 (by rw [anti2]; exact h2)
        rw [show α + β + γ = γ + α + β by ring]; exact this

/-- The plane problem sees a symmetric matrix only through its action on `k` and `a`, projected on
`k` and `a`. -/
theorem planeProblem_congr (cxx cyy czz cxy cyz czx dxx dyy dzz dxy dyz dzx : ℝ) (k a : Fin 3 → ℝ)
    (ki ai : ℝ)
    (hk : k 0 * (cxx * k 0 + cxy * k 1 + czx * k 2) + k 1 * (cxy * k 0 + cyy * k 1 + cyz * k 2)
        + k 2 * (czx * k 0 + cyz * k 1 + czz * k 2)
      = k 0 * (dxx * k 0 + dxy * k 1 + dzx * k 2) + k 1 * (dxy * k 0 + dyy * k 1 + dyz * k 2)
        + k 2 * (dzx * k 0 + dyz * k 1 + dzz * k 2))
    (ha : a 0 * (cxx * a 0 + cxy * a 1 + czx * a 2) + a 1 * (cxy * a 0 + cyy * a 1 + cyz * a 2)
        + a 2 * (czx * a 0 + cyz * a 1 + czz * a 2)
      = a 0 * (dxx * a 0 + dxy * a 1 + dzx * a 2) + a 1 * (dxy * a 0 + dyy * a 1 + dyz * a 2)
        + a 2 * (dzx * a 0 + dyz * a 1 + dzz * a 2))
    (hka : k 0 * (cxx * a 0 + cxy * a 1 + czx * a 2) + k 1 * (cxy * a 0 + cyy * a 1 + cyz * a 2)
        + k 2 * (czx * a 0 + cyz * a 1 + czz * a 2)
      = k 0 * (dxx * a 0 + dxy * a 1 + dzx * a 2) + k 1 * (dxy * a 0 + dyy * a 1 + dyz * a 2)
        + k 2 * (dzx * a 0 + dyz * a 1 + dzz * a 2)) :
    planeProblem cxx cyy czz cxy cyz czx k a ki ai = planeProblem dxx dyy dzz dxy dyz dzx k a ki ai := by
  unfold planeProblem
  simp only [hk, ha, hka]

/-- The symmetric perturbation that turns `w` into an exact eigenvector, given the residual `r`. -/
noncomputable def backE (r w : Fin 3 → ℝ) (i j : Fin 3) : ℝ :=
  (r i * w j + w i * r j) / dot3 w w - dot3 r w * (w i * w j) / dot3 w w ^ 2

theorem backE_mulVec (r w : Fin 3 → ℝ) (hw : 0 < dot3 w w) (i : Fin 3) :
    backE r w i 0 * w 0 + backE r w i 1 * w 1 + backE r w i 2 * w 2 = r i := by
  have : backE r w i 0 * w 0 + backE r w i 1 * w 1 + backE r w i 2 * w 2
      = (r i * dot3 w w + w i * dot3 r w) / dot3 w w - dot3 r w * (w i * dot3 w w) / dot3 w w ^ 2 := by
    simp only [backE, dot3]; ring
  rw [this]
  field_simp
  ring

theorem backE_proj (r w u v : Fin 3 → ℝ) (hu : dot3 u w = 0) (hv : dot3 v w = 0) :
    u 0 * (backE r w 0 0 * v 0 + backE r w 0 1 * v 1 + backE r w 0 2 * v 2)
      + u 1 * (backE r w 1 0 * v 0 + backE r w 1 1 * v 1 + backE r w 1 2 * v 2)
      + u 2 * (backE r w 2 0 * v 0 + backE r w 2 1 * v 1 + backE r w 2 2 * v 2) = 0 := by
  have : u 0 * (backE r w 0 0 * v 0 + backE r w 0 1 * v 1 + backE r w 0 2 * v 2)
      + u 1 * (backE r w 1 0 * v 0 + backE r w 1 1 * v 1 + backE r w 1 2 * v 2)
      + u 2 * (backE r w 2 0 * v 0 + backE r w 2 1 * v 1 + backE r w 2 2 * v 2)
      = (dot3 r u * dot3 v w + dot3 u w * dot3 r v) / dot3 w w
        - dot3 r w * (dot3 u w * dot3 v w) / dot3 w w ^ 2 := by
    simp only [backE, dot3]; ring
  rw [this, hu, hv]; simp

theorem backE_symm (r w : Fin 3 → ℝ) (i j : Fin 3) : backE r w i j = backE r w j i := by
  unfold backE; ring

theorem backE_frob (r w : Fin 3 → ℝ) (hw : 0 < dot3 w w) :
    frobSq (Matrix.of (backE r w)) ≤ 2 * dot3 r r / dot3 w w := by
  have : frobSq (Matrix.of (backE r w)) = (2 * dot3 r r * dot3 w w + 2 * dot3 r w ^ 2) / dot3 w w ^ 2
      - 2 * dot3 r w * (2 * dot3 r w * dot3 w w) / dot3 w w ^ 3
      + dot3 r w ^ 2 * dot3 w w ^ 2 / dot3 w w ^ 4 := by
    have h : ∀ i j, backE r w i j ^ 2 = (r i * w j + w i * r j) ^ 2 / dot3 w w ^ 2
        - 2 * dot3 r w * ((r i * w j + w i * r j) * (w i * w j)) / dot3 w w ^ 3
        + dot3 r w ^ 2 * (w i * w j) ^ 2 / dot3 w w ^ 4 := by
      intro i j
      unfold backE
      field_simp
      ring
    simp only [frobSq, Fin.sum_univ_three, Matrix.of_apply, h]
    generalize hD : dot3 w w = D at *
    generalize hP : dot3 r w = P at *
    generalize hQ : dot3 r r = Q at *
    have e1 : 2 * Q * D + 2 * P ^ 2 = 2 * dot3 r r * dot3 w w + 2 * dot3 r w ^ 2 := by rw [hD, hP, hQ]
    have e2 : 2 * P * D = 2 * dot3 r w * dot3 w w := by rw [hD, hP]
    have e3 : D ^ 2 = dot3 w w ^ 2 := by rw [hD]
    rw [show P ^ 2 * D ^ 2 / D ^ 4 = P ^ 2 * (D ^ 2) / D ^ 4 from rfl, e1, e2]
    rw [show P ^ 2 * D ^ 2 / D ^ 4 = P ^ 2 * (dot3 w w ^ 2) / D ^ 4 by rw [hD]]
    simp only [dot3]
    ring
  rw [this]
  have hne := hw.ne'
  have e : (2 * dot3 r r * dot3 w w + 2 * dot3 r w ^ 2) / dot3 w w ^ 2
      - 2 * dot3 r w * (2 * dot3 r w * dot3 w w) / dot3 w w ^ 3
      + dot3 r w ^ 2 * dot3 w w ^ 2 / dot3 w w ^ 4
      = 2 * dot3 r r / dot3 w w - dot3 r w ^ 2 / dot3 w w ^ 2 := by
    field_simp
    ring
  rw [e]
  have : 0 ≤ dot3 r w ^ 2 / dot3 w w ^ 2 := by positivity
  linarith

/-- The deviatoric problem: exact eigensystem of a perturbed matrix. -/
theorem eigen_dev_upTo (δ : ℝ) (f : ℝ → ℝ) (hf : IsCosThirdUpTo δ f) (a b c p q r : ℝ)
    (htr : a + b + c = 0)
    (c2 c3 : ℝ) (hc2d : c2 = a * b + b * c + c * a - p * p - q * q - r * r)
    (hc3d : c3 = a * (q * q) + b * (r * r) - 2 * p * q * r + c * (p * p - a * b))
    (hc2 : c2 < 0) (l : ℝ)
    (hl : l = 2 * multiplySign (f (minimum |(-0.5) * c3 * ((-3) / c2) * Real.sqrt ((-3) / c2)| 1))
      ((-0.5) * c3 * ((-3) / c2) * Real.sqrt ((-3) / c2)) / Real.sqrt ((-3) / c2)) :
    let r0 : Fin 3 → ℝ := ![a - l, p, r]
    let r1 : Fin 3 → ℝ := ![p, b - l, q]
    let r2 : Fin 3 → ℝ := ![r, q, c - l]
    let P := pivotRows r0 r1 r2 (dot3 r0 r0) (dot3 r1 r1) (dot3 r2 r2)
    let Q := planeProblem a b c p q r P.1 P.2.1 P.2.2.1 P.2.2.2
    ∃ E : Matrix (Fin 3) (Fin 3) ℝ, Eᵀ = E ∧ frobSq E ≤ 2 * δ ^ 2 * (-c2) ∧
      IsEigenSystem (symMat ![a, b, c, p, q, r] - E) Q.1 Q.2.1 l Q.2.2.1 Q.2.2.2.1 Q.2.2.2.2 := by
  intro r0 r1 r2 P Q
  have hd := discr_le a b c p q r htr
  rw [← hc2d, ← hc3d] at hd
  obtain ⟨hroot, hbig⟩ := eval2_root_upTo δ f hf c2 c3 hc2 hd
  rw [← hl] at hroot hbig
  have hdet : dot3 r0 (crossProduct r1 r2) = -(l ^ 3 + c2 * l + c3) := by
    have : dot3 r0 (crossProduct r1 r2) = -(l ^ 3 + c2 * l + c3) + l ^ 2 * (a + b + c) := by
      rw [hc2d, hc3d]; simp [r0, r1, r2, dot3, crossProduct]; ring
    rw [this, htr]; ring
  have hsum : crossProduct r0 r1 2 + crossProduct r1 r2 0 + -(crossProduct r0 r2 1)
      = 3 * l ^ 2 + c2 := by
    rw [hc2d]
    simp [r0, r1, r2, crossProduct]
    linear_combination (-2 * l) * htr
  have hrank : crossProduct r0 r1 ≠ 0 ∨ crossProduct r1 r2 ≠ 0 ∨ crossProduct r0 r2 ≠ 0 := by
    by_contra hcon
    push Not at hcon
    obtain ⟨h1, h2, h3⟩ := hcon
    rw [h1, h2, h3] at hsum
    simp at hsum
    linarith
  have hP := pivotRows_upTo r0 r1 r2 hrank
  change PivotUpTo r0 r1 r2 P.1 P.2.1 P.2.2.1 P.2.2.2 at hP
  have comp : ∀ (v : Fin 3 → ℝ) (i : Fin 3), (v i) ^ 2 ≤ dot3 v v := by
    intro v i
    have h0 := mul_self_nonneg (v 0)
    have h1 := mul_self_nonneg (v 1)
    have h2 := mul_self_nonneg (v 2)
    fin_cases i <;> simp only [dot3] <;> simp <;> nlinarith only [h0, h1, h2]
  have hsize := hP.size (crossProduct r0 r1 2) (crossProduct r1 r2 0) (-(crossProduct r0 r2 1))
    (comp _ _) (comp _ _) (by rw [neg_sq]; exact comp _ _)
  rw [hsum] at hsize
  have hQ : Q = planeProblem a b c p q r P.1 P.2.1 P.2.2.1 P.2.2.2 := rfl
  clear_value Q
  obtain ⟨orth, kpos, apos, ki_eq, ai_eq, hres, -⟩ := hP
  generalize P.1 = k at *
  generalize P.2.1 = av at *
  generalize P.2.2.1 = ki at *
  generalize P.2.2.2 = ai at *
  set w := crossProduct k av with hw
  have hww : dot3 w w = dot3 k k * dot3 av av := cross_dot_self k av orth
  have hwpos : 0 < dot3 w w := by rw [hww]; exact mul_pos kpos apos
  have kw : dot3 k w = 0 := by simp [hw, dot3, crossProduct]; ring
  have aw : dot3 av w = 0 := by simp [hw, dot3, crossProduct]; ring
  set res : Fin 3 → ℝ := ![dot3 r0 w, dot3 r1 w, dot3 r2 w] with hresd
  have hrr : dot3 res res = (l ^ 3 + c2 * l + c3) ^ 2 := by
    have : dot3 res res = dot3 r0 w ^ 2 + dot3 r1 w ^ 2 + dot3 r2 w ^ 2 := by
      simp [hresd, dot3]; ring
    rw [this, hres, hdet, neg_sq]
  set e := backE res w with he
  have esym : ∀ i j, e i j = e j i := fun i j => backE_symm res w i j
  have hE : (Matrix.of e)ᵀ = Matrix.of e := by
    ext i j; simp [Matrix.transpose_apply]; exact esym j i
  have hsub : symMat ![a, b, c, p, q, r] - Matrix.of e
      = symMat ![a - e 0 0, b - e 1 1, c - e 2 2, p - e 0 1, q - e 1 2, r - e 2 0] := by
    ext i j
    fin_cases i <;> fin_cases j <;> simp [symMat]
    · exact esym 0 2
    · exact esym 1 0
    · exact esym 2 1
  have hproj := backE_proj res w
  rw [← he] at hproj
  have hplane : planeProblem a b c p q r k av ki ai
      = planeProblem (a - e 0 0) (b - e 1 1) (c - e 2 2) (p - e 0 1) (q - e 1 2) (r - e 2 0)
          k av ki ai := by
    have h10 := esym 1 0
    have h21 := esym 2 1
    have h02 := esym 0 2
    apply planeProblem_congr
    · have h := hproj k k kw kw
      rw [h10, h21, h02] at h
      linarith
    · have h := hproj av av aw aw
      rw [h10, h21, h02] at h
      linarith
    · have h := hproj k av kw aw
      rw [h10, h21, h02] at h
      linarith
  refine ⟨Matrix.of e, hE, ?_, ?_⟩
  · -- size of the perturbation
    have hf1 := backE_frob res w hwpos
    rw [← he] at hf1
    refine hf1.trans ?_
    rw [div_le_iff₀ hwpos, hrr, hww]
    have hc : 0 < -c2 := by linarith
    have hcc : (2 * (-c2)) ^ 2 ≤ (3 * l ^ 2 + c2) ^ 2 :=
      pow_le_pow_left₀ (by linarith) (by linarith) 2
    have hW : 4 * (-c2) ^ 2 ≤ 25 * (dot3 k k * dot3 av av) := by
      have := hcc.trans hsize
      nlinarith only [this]
    have h1 : 27 * (2 * (l ^ 3 + c2 * l + c3) ^ 2) ≤ 2 * δ ^ 2 * (-c2) * (4 * (-c2) ^ 2) := by
      nlinarith only [hroot]
    have hnn : 0 ≤ 2 * δ ^ 2 * (-c2) := by positivity
    have h2 := mul_le_mul_of_nonneg_left hW hnn
    have hnn2 : 0 ≤ 2 * δ ^ 2 * (-c2) * (dot3 k k * dot3 av av) :=
      mul_nonneg hnn (mul_pos kpos apos).le
    linarith only [h1, h2, hnn2]
  · rw [hsub, hQ, hplane]
    apply planeProblem_ok _ _ _ _ _ _ k av ki ai l orth kpos apos ki_eq ai_eq
    have hmv := backE_mulVec res w hwpos
    rw [← he] at hmv
    have h10 := esym 1 0
    have h21 := esym 2 1
    have h02 := esym 0 2
    have m0 := hmv 0
    have m1 := hmv 1
    have m2 := hmv 2
    simp [hresd, r0, r1, r2, dot3] at m0 m1 m2
    rw [h02] at m0
    rw [h10] at m1
    rw [h21] at m2
    funext i
    rw [← hw]
    clear_value w e
    fin_cases i <;> simp [symMat, Matrix.mulVec, dotProduct, Fin.sum_univ_three] <;> linarith

end NimbleSM.Tensor
