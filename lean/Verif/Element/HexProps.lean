import Verif.Element.HexLemmas
import Mathlib.Analysis.Calculus.Deriv.Mul
import Mathlib.Analysis.Calculus.Deriv.Add
import Mathlib.LinearAlgebra.CrossProduct

/-!
# C23–C27, C29: the eight-node hexahedron

Specification side: `corner n` are the corners of the reference cube in the node order of the
element, `N n ξ = ⅛ ∏_d (1 + corner n d · ξ d)` is the trilinear shape function of node `n`,
`gradN` its gradient, `gaussPt val p` the `p`-th integration point, `Jac val x p` the Jacobian
`Σ_n x_n ⊗ ∇N_n` of the element map with nodal coordinates `x` at that point.
Flat nodal arrays hold node `n`, direction `d` at index `3 n + d`.
-/

set_option linter.unusedSectionVars false
set_option linter.unusedSimpArgs false
set_option linter.unnecessarySeqFocus false

namespace NimbleSM.Hex

open Matrix NimbleSM.Tensor

variable {K : Type*} [Field K] [LinearOrder K] [IsStrictOrderedRing K]

/-! ## Specification -/

/-- Corners of the reference cube in element node order. -/
def corner : Fin 8 → Fin 3 → K :=
  ![![-1, -1, -1], ![1, -1, -1], ![1, 1, -1], ![-1, 1, -1],
    ![-1, -1, 1], ![1, -1, 1], ![1, 1, 1], ![-1, 1, 1]]

/-- Trilinear shape function of node `n`. -/
def N (n : Fin 8) (ξ : Fin 3 → K) : K := 1 / 8 * ∏ d, (1 + corner n d * ξ d)

/-- Gradient of the shape function of node `n`. -/
def gradN (n : Fin 8) (ξ : Fin 3 → K) (d : Fin 3) : K :=
  1 / 8 * corner n d * ∏ e ∈ Finset.univ.erase d, (1 + corner n e * ξ e)

/-- Integration points: the corners scaled by `val`. -/
def gaussPt (val : K) (p : Fin 8) : Fin 3 → K := fun d => val * corner p d

/-- Jacobian of the element map at integration point `p`. -/
def Jac (val : K) (x : ℕ → K) (p : Fin 8) : Matrix (Fin 3) (Fin 3) K :=
  Matrix.of fun i j => ∑ n : Fin 8, x (3 * n + i) * gradN n (gaussPt val p) j

/-! ## C23: shape functions -/

theorem shapeAt_eq (r s t : K) (k : Fin 8) : shapeAt r s t k = N k ![r, s, t] := by
  rw [N, Fin.prod_univ_three]
  fin_cases k <;> simp [shapeAt, corner] <;> ring

theorem derivAt_eq (r s t : K) (k : Fin 8) (d : Fin 3) :
    derivAt r s t (3 * k + d) = gradN k ![r, s, t] d := by
  have e0 : (Finset.univ.erase 0 : Finset (Fin 3)) = {1, 2} := by decide
  have e1 : (Finset.univ.erase 1 : Finset (Fin 3)) = {0, 2} := by decide
  have e2 : (Finset.univ.erase 2 : Finset (Fin 3)) = {0, 1} := by decide
  fin_cases d <;> fin_cases k <;>
    simp [gradN, derivAt, corner, e0, e1, e2, Finset.prod_pair] <;> ring

/-- **C23.**  The table of shape function values holds the trilinear shape functions. -/
theorem shape_values_spec (nc : ℕ → K) (i : ℕ) (k : Fin 8) :
    shapeFunctionValues nc (8 * i + k) = N k (fun d => nc (3 * i + d)) := by
  unfold shapeFunctionValues
  have h1 : (8 * i + k.val) / 8 = i := by omega
  have h2 : (8 * i + k.val) % 8 = k.val := by omega
  simp only [h1, h2]
  rw [shapeAt_eq]
  congr 1
  funext d; fin_cases d <;> rfl

theorem shape_derivs_eq (nc : ℕ → K) (i : ℕ) (k : Fin 8) (d : Fin 3) :
    shapeFunctionDerivatives nc (24 * i + 3 * k + d) = gradN k (fun d => nc (3 * i + d)) d := by
  unfold shapeFunctionDerivatives
  have h1 : (24 * i + 3 * k.val + d.val) / 24 = i := by omega
  have h2 : (24 * i + 3 * k.val + d.val) % 24 = 3 * k.val + d.val := by omega
  simp only [h1, h2]
  rw [derivAt_eq]
  congr 1
  funext d; fin_cases d <;> rfl

/-- **C23.**  The table of derivatives holds the exact partial derivatives of the shape functions
(over the reals). -/
theorem shape_derivatives_spec (nc : ℕ → ℝ) (i : ℕ) (k : Fin 8) (d : Fin 3) :
    HasDerivAt (fun x => N k (Function.update (fun e : Fin 3 => nc (3 * i + e)) d x))
      (shapeFunctionDerivatives nc (24 * i + 3 * k + d)) (nc (3 * i + d)) := by
  rw [shape_derivs_eq]
  have h : ∀ x, N k (Function.update (fun e : Fin 3 => nc (3 * i + e)) d x)
      = 1 / 8 * ((∏ e ∈ Finset.univ.erase d, (1 + corner k e * nc (3 * i + e)))
        * (1 + corner k d * x)) := by
    intro x
    rw [N, ← Finset.prod_erase_mul _ _ (Finset.mem_univ d)]
    congr 2
    · apply Finset.prod_congr rfl
      intro e he
      rw [Function.update_of_ne (Finset.ne_of_mem_erase he)]
    · rw [Function.update_self]
  simp only [h]
  have h1 : HasDerivAt (fun x => 1 + corner k d * x) (corner k d) (nc (3 * i + d)) := by
    simpa using ((hasDerivAt_id (nc (3 * i + d))).const_mul (corner k d)).const_add (1 : ℝ)
  have h2 := (h1.const_mul (∏ e ∈ Finset.univ.erase d, (1 + corner k e * nc (3 * i + e)))).const_mul
    (1 / 8 : ℝ)
  exact h2.congr_deriv (by unfold gradN; ring)

theorem N_sum (ξ : Fin 3 → K) : ∑ k, N k ξ = 1 := by
  simp only [N, Fin.prod_univ_three, Fin.sum_univ_eight]
  simp [corner]; ring

/-- **C23.**  Partition of unity, for every natural coordinate triple. -/
theorem shape_partition_of_unity (nc : ℕ → K) (i : ℕ) :
    ∑ k : Fin 8, shapeFunctionValues nc (8 * i + k) = 1 := by
  simp only [shape_values_spec, N_sum]

/-- **C23.**  The derivatives sum to zero in each direction. -/
theorem shape_derivatives_sum_zero (nc : ℕ → K) (i : ℕ) (d : Fin 3) :
    ∑ k : Fin 8, shapeFunctionDerivatives nc (24 * i + 3 * k + d) = 0 := by
  have e0 : (Finset.univ.erase 0 : Finset (Fin 3)) = {1, 2} := by decide
  have e1 : (Finset.univ.erase 1 : Finset (Fin 3)) = {0, 2} := by decide
  have e2 : (Finset.univ.erase 2 : Finset (Fin 3)) = {0, 1} := by decide
  simp only [shape_derivs_eq, gradN, Fin.sum_univ_eight]
  fin_cases d <;> simp [corner, e0, e1, e2, Finset.prod_pair] <;> ring

/-- **C23.**  At node `n` its own function is one and the others are zero. -/
theorem shape_kronecker (nc : ℕ → K) (i : ℕ) (n k : Fin 8)
    (h : ∀ d : Fin 3, nc (3 * i + d) = corner n d) :
    shapeFunctionValues nc (8 * i + k) = if k = n then 1 else 0 := by
  rw [shape_values_spec, N, Fin.prod_univ_three]
  simp only [h]
  fin_cases k <;> fin_cases n <;> simp [corner] <;> norm_num

/-- **C23.**  The shape functions reproduce the natural coordinates (linear completeness), and
are nonnegative on the reference cube. -/
theorem shape_linear_and_nonneg (nc : ℕ → K) (i : ℕ) :
    (∀ d : Fin 3, ∑ k : Fin 8, shapeFunctionValues nc (8 * i + k) * corner k d = nc (3 * i + d)) ∧
    ((∀ d : Fin 3, |nc (3 * i + d)| ≤ 1) → ∀ k : Fin 8, 0 ≤ shapeFunctionValues nc (8 * i + k)) := by
  constructor
  · intro d
    simp only [shape_values_spec, N, Fin.prod_univ_three, Fin.sum_univ_eight]
    fin_cases d <;> simp [corner] <;> ring
  · intro h k
    rw [shape_values_spec, N]
    apply mul_nonneg (by norm_num)
    apply Finset.prod_nonneg
    intro d _
    obtain ⟨h1, h2⟩ := abs_le.mp (h d)
    have hc : (corner k d : K) = 1 ∨ (corner k d : K) = -1 := by
      fin_cases k <;> fin_cases d <;> simp [corner]
    rcases hc with hc | hc <;> rw [hc] <;> linarith

/-! ## Link between model and specification -/

theorem intPts_eq (val : K) (p : Fin 8) (d : Fin 3) : intPts val (3 * p + d) = gaussPt val p d := by
  fin_cases p <;> fin_cases d <;> simp [intPts, gaussPt, corner]

theorem dtab_spec (val : K) (p n : Fin 8) (d : Fin 3) :
    dtab val p n d = gradN n (gaussPt val p) d := by
  unfold dtab shapeFcnDeriv
  rw [shape_derivs_eq]
  congr 1
  funext d; exact intPts_eq val p d

theorem shapeFcnVals_spec (val : K) (p k : Fin 8) :
    shapeFcnVals val (p * 8 + k) = N k (gaussPt val p) := by
  unfold shapeFcnVals
  rw [Nat.mul_comm, shape_values_spec]
  congr 1
  funext d; exact intPts_eq val p d

theorem jacMat_spec (val : K) (x : ℕ → K) (p : Fin 8) : jacMat val (view3 x) p = Jac val x p := by
  ext i j
  simp only [jacMat, Jac, Matrix.of_apply, jacobian_eq, Finset.sum_range, dtab_spec, view3]

theorem jac_pos_iff (val : K) (x : ℕ → ℕ → K) :
    (∀ i ∈ List.range 8, (invert3x3 (jacobian val x i)).isSome) ↔
      ∀ p : Fin 8, 0 < (jacMat val x p).det := by
  simp only [invert3x3_isSome_iff, List.mem_range]
  exact ⟨fun h p => h p p.isLt, fun h i hi => h ⟨i, hi⟩⟩

/-! ## C24: deformation gradients -/

theorem put_fold_hit (out : ℕ → K) (p : ℕ) (dg : Fin 9 → K) (j : Fin 9) :
    (List.finRange 9).foldl (fun out i => put out (9 * p + i.val) (dg i)) out (9 * p + j) = dg j := by
  have h9 : List.finRange 9 = [0, 1, 2, 3, 4, 5, 6, 7, 8] := by decide
  rw [h9]
  fin_cases j <;> simp [put]

theorem put_fold_miss (out : ℕ → K) (p : ℕ) (dg : Fin 9 → K) (k : ℕ) (h : k / 9 ≠ p) :
    (List.finRange 9).foldl (fun out i => put out (9 * p + i.val) (dg i)) out k = out k := by
  have : ∀ i : Fin 9, k ≠ 9 * p + i.val := fun i => by omega
  generalize List.finRange 9 = L
  induction L generalizing out with
  | nil => rfl
  | cons a L ih => rw [List.foldl_cons, ih, put, if_neg (this a)]

theorem computeDeformationGradients_isSome (val : K) (X x : ℕ → K) :
    (computeDeformationGradients val X x).isSome ↔ ∀ p : Fin 8, 0 < (Jac val X p).det := by
  unfold computeDeformationGradients
  simp only []
  rw [foldlM_isSome_iff (g := fun int_pt => defGradAt val (view3 X)
    (view3 fun ii => x ii - X ii) int_pt)
    (step := fun out int_pt dg =>
        (List.finRange 9).foldl (fun out i => put out (9 * int_pt + i.val) (dg i)) out)]
  simp only [defGradAt, Option.isSome_map]
  rw [jac_pos_iff]
  simp only [jacMat_spec]

theorem computeDeformationGradients_val (val : K) (X x out : ℕ → K)
    (h : computeDeformationGradients val X x = some out) (p : Fin 8) :
    fullMat (fun i : Fin 9 => out (9 * p + i)) * Jac val X p = Jac val x p := by
  have hpos : ∀ p : Fin 8, 0 < (Jac val X p).det :=
    (computeDeformationGradients_isSome val X x).mp (by rw [h]; rfl)
  have hinv : ∀ i : ℕ, ∃ b, i ∈ List.range 8 →
      defGradAt val (view3 X) (view3 fun ii => x ii - X ii) i = some b ∧
      fullMat b * jacMat val (view3 X) i = jacMat val (view3 x) i := by
    intro i
    by_cases hi : i ∈ List.range 8
    · have hp := hpos ⟨i, List.mem_range.mp hi⟩
      rw [← jacMat_spec] at hp
      obtain ⟨inv, h1, h2, h3⟩ := invert3x3_some _ hp
      have hsum : jacobian val (fun n d => view3 X n d + view3 (fun ii => x ii - X ii) n d) i
          = jacobian val (view3 x) i := by
        apply jacobian_congr
        intro n _ d; simp [view3]
      refine ⟨_, fun _ => ⟨by
        unfold defGradAt
        simp only []
        rw [h1, Option.map_some, hsum], ?_⟩⟩
      have hm : fullMat (fun k : Fin 9 =>
          if k = K_F_XX then jacobian val (view3 x) i 0 0 * inv 0 0 + jacobian val (view3 x) i 0 1 * inv 1 0 + jacobian val (view3 x) i 0 2 * inv 2 0
          else if k = K_F_XY then jacobian val (view3 x) i 0 0 * inv 0 1 + jacobian val (view3 x) i 0 1 * inv 1 1 + jacobian val (view3 x) i 0 2 * inv 2 1
          else if k = K_F_XZ then jacobian val (view3 x) i 0 0 * inv 0 2 + jacobian val (view3 x) i 0 1 * inv 1 2 + jacobian val (view3 x) i 0 2 * inv 2 2
          else if k = K_F_YX then jacobian val (view3 x) i 1 0 * inv 0 0 + jacobian val (view3 x) i 1 1 * inv 1 0 + jacobian val (view3 x) i 1 2 * inv 2 0
          else if k = K_F_YY then jacobian val (view3 x) i 1 0 * inv 0 1 + jacobian val (view3 x) i 1 1 * inv 1 1 + jacobian val (view3 x) i 1 2 * inv 2 1
          else if k = K_F_YZ then jacobian val (view3 x) i 1 0 * inv 0 2 + jacobian val (view3 x) i 1 1 * inv 1 2 + jacobian val (view3 x) i 1 2 * inv 2 2
          else if k = K_F_ZX then jacobian val (view3 x) i 2 0 * inv 0 0 + jacobian val (view3 x) i 2 1 * inv 1 0 + jacobian val (view3 x) i 2 2 * inv 2 0
          else if k = K_F_ZY then jacobian val (view3 x) i 2 0 * inv 0 1 + jacobian val (view3 x) i 2 1 * inv 1 1 + jacobian val (view3 x) i 2 2 * inv 2 1
          else jacobian val (view3 x) i 2 0 * inv 0 2 + jacobian val (view3 x) i 2 1 * inv 1 2 + jacobian val (view3 x) i 2 2 * inv 2 2)
          = jacMat val (view3 x) i * Matrix.of inv := by
        ext a b
        fin_cases a <;> fin_cases b <;>
          simp [fullMat, jacMat, Matrix.mul_apply, Fin.sum_univ_three, K_F_XX, K_F_XY, K_F_XZ,
            K_F_YX, K_F_YY, K_F_YZ, K_F_ZX, K_F_ZY]
      rw [hm, Matrix.mul_assoc]
      change _ * (Matrix.of inv * Matrix.of (jacobian val (view3 X) i)) = _
      rw [h3, Matrix.mul_one]
    · exact ⟨fun _ => 0, fun h' => absurd h' hi⟩
  choose v hv using hinv
  have hrun := foldlM_some (g := fun int_pt => defGradAt val (view3 X)
    (view3 fun ii => x ii - X ii) int_pt)
    (step := fun (out : ℕ → K) int_pt dg =>
        (List.finRange 9).foldl (fun out i => put out (9 * int_pt + i.val) (dg i)) out)
    (List.range 8) (fun _ => (0 : K)) v (fun i hi => (hv i hi).1)
  have hout : out = (List.range 8).foldl (fun out i =>
      (List.finRange 9).foldl (fun out k => put out (9 * i + k.val) (v i k)) out) (fun _ => 0) := by
    have : computeDeformationGradients val X x = _ := hrun
    rw [h] at this
    exact Option.some.inj this
  have hval : ∀ (L : ℕ) (q : ℕ) (k : Fin 9), q < L → (List.range L).foldl (fun out i =>
      (List.finRange 9).foldl (fun out k => put out (9 * i + k.val) (v i k)) out) (fun _ => (0:K))
        (9 * q + k) = v q k := by
    intro L
    induction L with
    | zero => intro q k hq; omega
    | succ L ih =>
      intro q k hq
      rw [List.range_succ, List.foldl_append, List.foldl_cons, List.foldl_nil]
      by_cases hL : q = L
      · subst hL
        exact put_fold_hit _ _ _ _
      · rw [put_fold_miss _ _ _ _ (by omega)]
        exact ih q k (by omega)
  have hfm : (fun i : Fin 9 => out (9 * p + i)) = v p := by
    funext k
    rw [hout]
    exact hval 8 p k p.isLt
  rw [hfm, ← jacMat_spec, ← jacMat_spec]
  exact (hv p (List.mem_range.mpr p.isLt)).2

/-- **C24.**  Deformation gradients are defined exactly when the reference Jacobian is positive at
every integration point (otherwise the program aborts). -/
theorem deformation_gradients_defined (val : K) (X x : ℕ → K) :
    (∃ out, computeDeformationGradients val X x = some out) ↔ ∀ p : Fin 8, 0 < (Jac val X p).det := by
  rw [← computeDeformationGradients_isSome val X x, Option.isSome_iff_exists]

theorem Jac_affine (val : K) (X x : ℕ → K) (A : Matrix (Fin 3) (Fin 3) K) (c : Fin 3 → K)
    (h : ∀ n, n < 8 → ∀ d : Fin 3, x (3 * n + d) = (∑ e : Fin 3, A d e * X (3 * n + e)) + c d)
    (p : Fin 8) : Jac val x p = A * Jac val X p := by
  rw [← jacMat_spec, ← jacMat_spec]
  exact jacMat_affine val (view3 X) (view3 x) A c h p

/-- **C24.**  If the current coordinates are `A X + c`, every deformation gradient is `A`. -/
theorem deformation_gradient_affine (val : K) (X x out : ℕ → K) (A : Matrix (Fin 3) (Fin 3) K)
    (c : Fin 3 → K)
    (hx : ∀ n, n < 8 → ∀ d : Fin 3, x (3 * n + d) = (∑ e : Fin 3, A d e * X (3 * n + e)) + c d)
    (h : computeDeformationGradients val X x = some out) (p : Fin 8) :
    fullMat (fun i : Fin 9 => out (9 * p + i)) = A := by
  have h1 := computeDeformationGradients_val val X x out h p
  have hpos := (deformation_gradients_defined val X x).mp ⟨out, h⟩ p
  have hu : IsUnit (Jac val X p).det := isUnit_iff_ne_zero.mpr hpos.ne'
  rw [Jac_affine val X x A c hx] at h1
  have h2 := congrArg (· * (Jac val X p)⁻¹) h1
  simpa [Matrix.mul_assoc, Matrix.mul_nonsing_inv _ hu] using h2

/-- **C24.**  Superposing an affine motion `x' = A x + c` on any motion multiplies every
deformation gradient by `A` from the left (in particular a translation changes nothing). -/
theorem deformation_gradient_superposed (val : K) (X x x' out out' : ℕ → K)
    (A : Matrix (Fin 3) (Fin 3) K) (c : Fin 3 → K)
    (hx : ∀ n, n < 8 → ∀ d : Fin 3, x' (3 * n + d) = (∑ e : Fin 3, A d e * x (3 * n + e)) + c d)
    (h : computeDeformationGradients val X x = some out)
    (h' : computeDeformationGradients val X x' = some out') (p : Fin 8) :
    fullMat (fun i : Fin 9 => out' (9 * p + i)) = A * fullMat (fun i : Fin 9 => out (9 * p + i)) := by
  have h1 := computeDeformationGradients_val val X x out h p
  have h2 := computeDeformationGradients_val val X x' out' h' p
  have hpos := (deformation_gradients_defined val X x).mp ⟨out, h⟩ p
  have hu : IsUnit (Jac val X p).det := isUnit_iff_ne_zero.mpr hpos.ne'
  rw [Jac_affine val x x' A c hx, ← h1] at h2
  have h3 := congrArg (· * (Jac val X p)⁻¹) h2
  simpa [Matrix.mul_assoc, Matrix.mul_nonsing_inv _ hu] using h3

end NimbleSM.Hex
