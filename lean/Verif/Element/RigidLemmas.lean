import Verif.Element.HexForces
import Mathlib.Tactic.LinearCombination
import Mathlib.Tactic.FinCases
import Mathlib.Tactic.FieldSimp

/-!
# Lemmas for C129: a strain that vanishes at the eight integration points
-/

set_option linter.unusedSectionVars false
set_option linter.unusedSimpArgs false

namespace NimbleSM.Hex

open Matrix NimbleSM.Tensor

variable {K : Type*} [Field K] [LinearOrder K] [IsStrictOrderedRing K]

/-- Cross product. -/
def cr (a b : Fin 3 → K) : Fin 3 → K :=
  ![a 1 * b 2 - a 2 * b 1, a 2 * b 0 - a 0 * b 2, a 0 * b 1 - a 1 * b 0]

/-- Determinant of three columns. -/
def det3 (a b c : Fin 3 → K) : K :=
  a 0 * (b 1 * c 2 - b 2 * c 1) + a 1 * (b 2 * c 0 - b 0 * c 2) + a 2 * (b 0 * c 1 - b 1 * c 0)

theorem cr0 (a b : Fin 3 → K) : cr a b 0 = a 1 * b 2 - a 2 * b 1 := rfl
theorem cr1 (a b : Fin 3 → K) : cr a b 1 = a 2 * b 0 - a 0 * b 2 := rfl
theorem cr2 (a b : Fin 3 → K) : cr a b 2 = a 0 * b 1 - a 1 * b 0 := rfl

/-- Two vectors with the same cross product with a nonzero `g` differ by a multiple of `g`. -/
theorem cr_eq_parallel (w w' g : Fin 3 → K) (h : cr w' g = cr w g) (hg : g ≠ 0) :
    ∃ β : K, ∀ i, w' i = w i + β * g i := by
  have h0 : w' 1 * g 2 - w' 2 * g 1 = w 1 * g 2 - w 2 * g 1 := congrFun h 0
  have h1 : w' 2 * g 0 - w' 0 * g 2 = w 2 * g 0 - w 0 * g 2 := congrFun h 1
  have h2 : w' 0 * g 1 - w' 1 * g 0 = w 0 * g 1 - w 1 * g 0 := congrFun h 2
  by_cases a0 : g 0 = 0
  · by_cases a1 : g 1 = 0
    · have a2 : g 2 ≠ 0 := fun a2 => hg (by funext i; fin_cases i <;> assumption)
      refine ⟨(w' 2 - w 2) / g 2, fun i => ?_⟩
      fin_cases i
      · show w' 0 = w 0 + (w' 2 - w 2) / g 2 * g 0
        field_simp; linear_combination -h1
      · show w' 1 = w 1 + (w' 2 - w 2) / g 2 * g 1
        field_simp; linear_combination h0
      · show w' 2 = w 2 + (w' 2 - w 2) / g 2 * g 2
        field_simp; ring
    · refine ⟨(w' 1 - w 1) / g 1, fun i => ?_⟩
      fin_cases i
      · show w' 0 = w 0 + (w' 1 - w 1) / g 1 * g 0
        field_simp; linear_combination h2
      · show w' 1 = w 1 + (w' 1 - w 1) / g 1 * g 1
        field_simp; ring
      · show w' 2 = w 2 + (w' 1 - w 1) / g 1 * g 2
        field_simp; linear_combination -h0
  · refine ⟨(w' 0 - w 0) / g 0, fun i => ?_⟩
    fin_cases i
    · show w' 0 = w 0 + (w' 0 - w 0) / g 0 * g 0
      field_simp; ring
    · show w' 1 = w 1 + (w' 0 - w 0) / g 0 * g 1
      field_simp; linear_combination -h2
    · show w' 2 = w 2 + (w' 0 - w 0) / g 0 * g 2
      field_simp; linear_combination h1

/-- One of the three loop conditions around a Gauss point: the rates of rotation in two directions
have opposite signs. -/
theorem loop_condition (w w1 w2 g1 g2 g3 g1' g2' : Fin 3 → K) (β1 β2 τ1 τ2 : K)
    (e1 : ∀ i, w1 i = w i + β1 * g1 i) (e2 : ∀ i, w2 i = w i + β2 * g2 i)
    (hg : ∀ i, τ2 * (g1' i - g1 i) = τ1 * (g2' i - g2 i))
    (hh : ∀ i, τ2 * (cr w2 g1' i - cr w g1 i) = τ1 * (cr w1 g2' i - cr w g2 i)) :
    τ2 * β2 * det3 g1' g2 g3 = - (τ1 * β1 * det3 g1 g2' g3) := by
  have h0 := hh 0
  have h1 := hh 1
  have h2 := hh 2
  simp only [cr0, cr1, cr2, e1, e2] at h0 h1 h2
  have k0 := hg 0
  have k1 := hg 1
  have k2 := hg 2
  unfold det3
  linear_combination -(g3 0 * h0 + g3 1 * h1 + g3 2 * h2)
    + (g3 0 * (w 1 * k2 - w 2 * k1) + g3 1 * (w 2 * k0 - w 0 * k2) + g3 2 * (w 0 * k1 - w 1 * k0))

/-- Three quantities whose signs are pairwise opposite vanish. -/
theorem opposite_signs (b1 b2 b3 p q r p' q' r' : K) (hp : 0 < p) (hq : 0 < q) (hr : 0 < r)
    (hp' : 0 < p') (hq' : 0 < q') (hr' : 0 < r')
    (h12 : b2 * p = -(b1 * p')) (h23 : b3 * q = -(b2 * q')) (h31 : b1 * r = -(b3 * r')) : b1 = 0 := by
  have : b1 * (p * q * r + p' * q' * r') = 0 := by
    linear_combination p * q * h31 - p * r' * h23 + q' * r' * h12
  rcases mul_eq_zero.mp this with h | h
  · exact h
  · exact absurd h (by positivity)

/-- Around one Gauss point the rotation does not change: `g1`, `g2`, `g3` are the columns of the
Jacobian there, a prime or an index marks the neighbour. -/
theorem rotation_constant_at (w w1 w2 w3 g1 g2 g3 g1s g1t g2r g2t g3r g3s : Fin 3 → K)
    (τr τs τt : K) (hτr : τr ≠ 0) (hτs : τs ≠ 0) (hτt : τt ≠ 0)
    (c1 : cr w1 g1 = cr w g1) (c2 : cr w2 g2 = cr w g2) (c3 : cr w3 g3 = cr w g3)
    (k12 : ∀ i, τs * (g1s i - g1 i) = τr * (g2r i - g2 i))
    (k23 : ∀ i, τt * (g2t i - g2 i) = τs * (g3s i - g3 i))
    (k31 : ∀ i, τr * (g3r i - g3 i) = τt * (g1t i - g1 i))
    (h12 : ∀ i, τs * (cr w2 g1s i - cr w g1 i) = τr * (cr w1 g2r i - cr w g2 i))
    (h23 : ∀ i, τt * (cr w3 g2t i - cr w g2 i) = τs * (cr w2 g3s i - cr w g3 i))
    (h31 : ∀ i, τr * (cr w1 g3r i - cr w g3 i) = τt * (cr w3 g1t i - cr w g1 i))
    (p1 : 0 < det3 g1s g2 g3) (p2 : 0 < det3 g1 g2r g3)
    (p3 : 0 < det3 g1 g2t g3) (p4 : 0 < det3 g1 g2 g3s)
    (p5 : 0 < det3 g1 g2 g3r) (p6 : 0 < det3 g1t g2 g3) :
    w1 = w ∧ w2 = w ∧ w3 = w := by
  have n1 : g1 ≠ 0 := by rintro rfl; simp [det3] at p2
  have n2 : g2 ≠ 0 := by rintro rfl; simp [det3] at p1
  have n3 : g3 ≠ 0 := by rintro rfl; simp [det3] at p1
  obtain ⟨β1, e1⟩ := cr_eq_parallel _ _ _ c1 n1
  obtain ⟨β2, e2⟩ := cr_eq_parallel _ _ _ c2 n2
  obtain ⟨β3, e3⟩ := cr_eq_parallel _ _ _ c3 n3
  have cyc : ∀ a b c : Fin 3 → K, det3 a b c = det3 c a b := by
    intro a b c; unfold det3; ring
  have l12 := loop_condition w w1 w2 g1 g2 g3 g1s g2r β1 β2 τr τs e1 e2 k12 h12
  have l23 := loop_condition w w2 w3 g2 g3 g1 g2t g3s β2 β3 τs τt e2 e3 k23 h23
  have l31 := loop_condition w w3 w1 g3 g1 g2 g3r g1t β3 β1 τt τr e3 e1 k31 h31
  rw [cyc g2t g3 g1, cyc g2 g3s g1] at l23
  rw [← cyc g1 g2 g3r, ← cyc g1t g2 g3] at l31
  have b1 : τr * β1 = 0 := opposite_signs _ _ _ _ _ _ _ _ _ p1 p3 p5 p2 p4 p6 l12 l23 l31
  have b2 : τs * β2 = 0 := opposite_signs _ _ _ _ _ _ _ _ _ p3 p5 p1 p4 p6 p2 l23 l31 l12
  have b3 : τt * β3 = 0 := opposite_signs _ _ _ _ _ _ _ _ _ p5 p1 p3 p6 p2 p4 l31 l12 l23
  have z1 := (mul_eq_zero.mp b1).resolve_left hτr
  have z2 := (mul_eq_zero.mp b2).resolve_left hτs
  have z3 := (mul_eq_zero.mp b3).resolve_left hτt
  refine ⟨funext fun i => ?_, funext fun i => ?_, funext fun i => ?_⟩
  · rw [e1 i, z1]; ring
  · rw [e2 i, z2]; ring
  · rw [e3 i, z3]; ring

/-- The sign of a half. -/
def sg : Bool → K
  | false => -1
  | true => 1

/-- The rotations at the eight Gauss points `(r,s,t)` agree when the columns `g` of the Jacobian of
the coordinates and `h` of the displacement fit together as those of trilinear fields do. -/
theorem rotation_constant (g1 g2 g3 h1 h2 h3 : Bool → Bool → Fin 3 → K)
    (w : Bool → Bool → Bool → Fin 3 → K)
    (e1 : ∀ r s t, h1 s t = cr (w r s t) (g1 s t)) (e2 : ∀ r s t, h2 r t = cr (w r s t) (g2 r t))
    (e3 : ∀ r s t, h3 r s = cr (w r s t) (g3 r s))
    (g12 : ∀ t i, g1 true t i - g1 false t i = g2 true t i - g2 false t i)
    (g23 : ∀ r i, g2 r true i - g2 r false i = g3 r true i - g3 r false i)
    (g31 : ∀ s i, g3 true s i - g3 false s i = g1 s true i - g1 s false i)
    (h12 : ∀ t i, h1 true t i - h1 false t i = h2 true t i - h2 false t i)
    (h23 : ∀ r i, h2 r true i - h2 r false i = h3 r true i - h3 r false i)
    (h31 : ∀ s i, h3 true s i - h3 false s i = h1 s true i - h1 s false i)
    (hpos : ∀ a b c d e f, 0 < det3 (g1 a b) (g2 c d) (g3 e f)) (r s t r' s' t' : Bool) :
    w r s t = w r' s' t' := by
  have sgn : ∀ (f : Bool → K) (b : Bool), -sg b * (f (!b) - f b) = f true - f false := by
    intro f b; cases b <;> simp [sg]
  have hs : ∀ b : Bool, (-sg b : K) ≠ 0 := by intro b; cases b <;> simp [sg]
  have loc : ∀ r s t, w (!r) s t = w r s t ∧ w r (!s) t = w r s t ∧ w r s (!t) = w r s t := by
    intro r s t
    refine rotation_constant_at (w r s t) (w (!r) s t) (w r (!s) t) (w r s (!t)) (g1 s t) (g2 r t)
      (g3 r s) (g1 (!s) t) (g1 s (!t)) (g2 (!r) t) (g2 r (!t)) (g3 (!r) s) (g3 r (!s))
      (-sg r) (-sg s) (-sg t) (hs r) (hs s) (hs t) ?_ ?_ ?_ ?_ ?_ ?_ ?_ ?_ ?_ (hpos _ _ _ _ _ _)
      (hpos _ _ _ _ _ _) (hpos _ _ _ _ _ _) (hpos _ _ _ _ _ _) (hpos _ _ _ _ _ _)
      (hpos _ _ _ _ _ _)
    · rw [← e1, ← e1]
    · rw [← e2, ← e2]
    · rw [← e3, ← e3]
    · intro i
      rw [sgn (fun b => g1 b t i) s, sgn (fun b => g2 b t i) r, g12]
    · intro i
      rw [sgn (fun b => g2 r b i) t, sgn (fun b => g3 r b i) s, g23]
    · intro i
      rw [sgn (fun b => g3 b s i) r, sgn (fun b => g1 s b i) t, g31]
    · intro i
      rw [← e1, ← e1, ← e2, ← e2, sgn (fun b => h1 b t i) s, sgn (fun b => h2 b t i) r, h12]
    · intro i
      rw [← e2, ← e2, ← e3, ← e3, sgn (fun b => h2 r b i) t, sgn (fun b => h3 r b i) s, h23]
    · intro i
      rw [← e1, ← e1, ← e3, ← e3, sgn (fun b => h3 b s i) r, sgn (fun b => h1 s b i) t, h31]
  have all : ∀ r s t, w r s t = w true true true := by
    intro r s t
    have a := (loc true s t).1
    have b := (loc true true t).2.1
    have c := (loc true true true).2.2
    have f1 : w r s t = w true s t := by
      cases r
      · exact a
      · rfl
    have f2 : w true s t = w true true t := by
      cases s
      · exact b
      · rfl
    have f3 : w true true t = w true true true := by
      cases t
      · exact c
      · rfl
    rw [f1, f2, f3]
  rw [all r s t, all r' s' t']

/-- The node or Gauss point with the given position along each direction. -/
def pt : Bool → Bool → Bool → Fin 8
  | false, false, false => 0 | true, false, false => 1 | true, true, false => 2
  | false, true, false => 3 | false, false, true => 4 | true, false, true => 5
  | true, true, true => 6 | false, true, true => 7

theorem pt_surj (p : Fin 8) : ∃ r s t, pt r s t = p := by revert p; decide

/-- Columns of the Jacobian as weighted edges. -/
theorem Jac_col0 (val : K) (x : ℕ → K) (r s t : Bool) (i : Fin 3) :
    Jac val x (pt r s t) i 0 = 1 / 8 *
      ((1 - sg s * val) * (1 - sg t * val) * (x (3 * 1 + i) - x (3 * 0 + i))
      + (1 + sg s * val) * (1 - sg t * val) * (x (3 * 2 + i) - x (3 * 3 + i))
      + (1 - sg s * val) * (1 + sg t * val) * (x (3 * 5 + i) - x (3 * 4 + i))
      + (1 + sg s * val) * (1 + sg t * val) * (x (3 * 6 + i) - x (3 * 7 + i))) := by
  have e : (Finset.univ.erase (0 : Fin 3)) = {1, 2} := by decide
  simp only [Jac, Matrix.of_apply, gradN, gaussPt, e, Finset.prod_pair (show (1 : Fin 3) ≠ 2 by decide),
    Fin.sum_univ_eight]
  cases r <;> cases s <;> cases t <;> simp [pt, corner, sg] <;> ring

theorem Jac_col1 (val : K) (x : ℕ → K) (r s t : Bool) (i : Fin 3) :
    Jac val x (pt r s t) i 1 = 1 / 8 *
      ((1 - sg r * val) * (1 - sg t * val) * (x (3 * 3 + i) - x (3 * 0 + i))
      + (1 + sg r * val) * (1 - sg t * val) * (x (3 * 2 + i) - x (3 * 1 + i))
      + (1 - sg r * val) * (1 + sg t * val) * (x (3 * 7 + i) - x (3 * 4 + i))
      + (1 + sg r * val) * (1 + sg t * val) * (x (3 * 6 + i) - x (3 * 5 + i))) := by
  have e : (Finset.univ.erase (1 : Fin 3)) = {0, 2} := by decide
  simp only [Jac, Matrix.of_apply, gradN, gaussPt, e, Finset.prod_pair (show (0 : Fin 3) ≠ 2 by decide),
    Fin.sum_univ_eight]
  cases r <;> cases s <;> cases t <;> simp [pt, corner, sg] <;> ring

theorem Jac_col2 (val : K) (x : ℕ → K) (r s t : Bool) (i : Fin 3) :
    Jac val x (pt r s t) i 2 = 1 / 8 *
      ((1 - sg r * val) * (1 - sg s * val) * (x (3 * 4 + i) - x (3 * 0 + i))
      + (1 + sg r * val) * (1 - sg s * val) * (x (3 * 5 + i) - x (3 * 1 + i))
      + (1 - sg r * val) * (1 + sg s * val) * (x (3 * 7 + i) - x (3 * 3 + i))
      + (1 + sg r * val) * (1 + sg s * val) * (x (3 * 6 + i) - x (3 * 2 + i))) := by
  have e : (Finset.univ.erase (2 : Fin 3)) = {0, 1} := by decide
  simp only [Jac, Matrix.of_apply, gradN, gaussPt, e, Finset.prod_pair (show (0 : Fin 3) ≠ 1 by decide),
    Fin.sum_univ_eight]
  cases r <;> cases s <;> cases t <;> simp [pt, corner, sg] <;> ring

/-- A quantity on four edges whose four weighted sums vanish vanishes. -/
theorem four_weights (v a b c d : K) (hv : v ≠ 0)
    (h : ∀ s t : Bool, 1 / 8 * ((1 - sg s * v) * (1 - sg t * v) * a + (1 + sg s * v) * (1 - sg t * v) * b
      + (1 - sg s * v) * (1 + sg t * v) * c + (1 + sg s * v) * (1 + sg t * v) * d) = 0) :
    a = 0 ∧ b = 0 ∧ c = 0 ∧ d = 0 := by
  have hff := h false false
  have htf := h true false
  have hft := h false true
  have htt := h true true
  simp only [sg] at hff htf hft htt
  have h16 : 2 * v ^ 2 ≠ 0 := by positivity
  refine ⟨?_, ?_, ?_, ?_⟩ <;> apply (mul_eq_zero.mp _).resolve_left h16
  · linear_combination (1 + v) * (1 + v) * hff - (1 - v) * (1 + v) * htf - (1 - v) * (1 + v) * hft
      + (1 - v) * (1 - v) * htt
  · linear_combination -(1 - v) * (1 + v) * hff + (1 + v) * (1 + v) * htf + (1 - v) * (1 - v) * hft
      - (1 - v) * (1 + v) * htt
  · linear_combination -(1 - v) * (1 + v) * hff + (1 - v) * (1 - v) * htf + (1 + v) * (1 + v) * hft
      - (1 - v) * (1 + v) * htt
  · linear_combination (1 - v) * (1 - v) * hff - (1 - v) * (1 + v) * htf - (1 - v) * (1 + v) * hft
      + (1 + v) * (1 + v) * htt

/-- A nodal field with zero gradient at the eight Gauss points is constant. -/
theorem Jac_zero_const (val : K) (hv : val ≠ 0) (y : ℕ → K) (h : ∀ p, Jac val y p = 0) :
    ∀ n : Fin 8, ∀ i : Fin 3, y (3 * n + i) = y i := by
  have H : ∀ r s t i j, Jac val y (pt r s t) i j = 0 := fun r s t i j => by rw [h]; rfl
  intro n i
  obtain ⟨a1, a2, a3, a4⟩ := four_weights val _ _ _ _ hv
    (fun s t => (Jac_col0 val y true s t i).symm.trans (H _ _ _ _ _))
  obtain ⟨b1, b2, b3, b4⟩ := four_weights val _ _ _ _ hv
    (fun s t => (Jac_col1 val y s true t i).symm.trans (H _ _ _ _ _))
  obtain ⟨c1, c2, c3, c4⟩ := four_weights val _ _ _ _ hv
    (fun s t => (Jac_col2 val y s t true i).symm.trans (H _ _ _ _ _))
  have z : (3 * 0 + i.val) = i.val := by omega
  rw [z] at a1 b1 c1
  fin_cases n
  · show y (3 * 0 + i) = _
    rw [z]
  · show y (3 * 1 + i) = _
    linear_combination a1
  · show y (3 * 2 + i) = _
    linear_combination a2 + b1
  · show y (3 * 3 + i) = _
    linear_combination b1
  · show y (3 * 4 + i) = _
    linear_combination c1
  · show y (3 * 5 + i) = _
    linear_combination a3 + c1
  · show y (3 * 6 + i) = _
    linear_combination a4 + b3 + c1
  · show y (3 * 7 + i) = _
    linear_combination b3 + c1

end NimbleSM.Hex
