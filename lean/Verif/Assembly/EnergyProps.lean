import Verif.Assembly.TransformLawProps
import Mathlib.Analysis.Calculus.Deriv.Pow
import Mathlib.Analysis.Calculus.Deriv.Mul
import Mathlib.Analysis.Calculus.MeanValue
import Mathlib.Analysis.SpecialFunctions.Pow.Deriv
import Mathlib.Analysis.SpecialFunctions.Log.Deriv

/-!
# C120: internal forces and stored energy

The internal forces of a neo-Hookean body derive from its strain energy, so that the work done along a path of deformations is
the change of the energy, and none is gained or lost along a closed path.
-/

open scoped BigOperators

namespace NimbleSM.Assembly

open Matrix NimbleSM.Hex NimbleSM.Tensor NimbleSM.Constitutive

/-! ## Specification -/

/-- Strain energy of the compressible neo-Hookean material per volume of the undeformed body. -/
noncomputable def neoEnergy (k g : ℝ) (F : Matrix (Fin 3) (Fin 3) ℝ) : ℝ :=
  k / 4 * (F.det ^ 2 - 1 - 2 * Real.log F.det) + g / 2 * (F.det ^ (-(2 : ℝ) / 3) * (F * Fᵀ).trace - 3)

/-- Energy of an element: energy density `W` of the deformation gradient at the integration points, times their volumes in the
undeformed element. -/
noncomputable def elementEnergy (val : ℝ) (W : Matrix (Fin 3) (Fin 3) ℝ → ℝ) (b : Blk ℝ) (X x : ℕ → ℝ) (e : ℕ) : ℝ :=
  ∑ p : Fin 8, W (Jac val (gather b e x) p * (Jac val (gather b e X) p)⁻¹) * (Jac val (gather b e X) p).det

/-- Energy of a mesh with reference positions `X` and current positions `x`; `W b` is the energy density of block `b`. -/
noncomputable def bodyEnergy (val : ℝ) (W : Blk ℝ → Matrix (Fin 3) (Fin 3) ℝ → ℝ) (X x : ℕ → ℝ) (blocks : List (Blk ℝ × List ℕ)) :
    ℝ :=
  (blocks.map fun b => (b.2.map fun e => elementEnergy val (W b.1) b.1 X x e).sum).sum

/-- The stresses of a law derive from the energy density `W` (for deformation gradients in `D`): along every path of deformation
gradients the rate of `W` is the stress power. -/
def DerivesFrom (law : (Fin 9 → ℝ) → Option (Fin 6 → ℝ)) (W : Matrix (Fin 3) (Fin 3) ℝ → ℝ)
    (D : Matrix (Fin 3) (Fin 3) ℝ → Prop) : Prop :=
  ∀ (F : Fin 9 → ℝ) σ, D (fullMat F) → law F = some σ → ∀ (M : ℝ → Matrix (Fin 3) (Fin 3) ℝ) (M' : Matrix (Fin 3) (Fin 3) ℝ) (t : ℝ),
    M t = fullMat F → (∀ i j, HasDerivAt (fun s => M s i j) (M' i j) t) →
    HasDerivAt (fun s => W (M s)) (M' * (M t).adjugate * symMat σ).trace t

/-! ## The neo-Hookean law -/

theorem det_deriv (M : ℝ → Matrix (Fin 3) (Fin 3) ℝ) (M' : Matrix (Fin 3) (Fin 3) ℝ) (t : ℝ)
    (h : ∀ i j, HasDerivAt (fun s => M s i j) (M' i j) t) : HasDerivAt (fun s => (M s).det) (M' * (M t).adjugate).trace t := by
  have e : (fun s => (M s).det) = fun s => M s 0 0 * M s 1 1 * M s 2 2 - M s 0 0 * M s 1 2 * M s 2 1 - M s 0 1 * M s 1 0 * M s 2 2 +
      M s 0 1 * M s 1 2 * M s 2 0 + M s 0 2 * M s 1 0 * M s 2 1 - M s 0 2 * M s 1 1 * M s 2 0 := by
    funext s; exact Matrix.det_fin_three _
  rw [e]
  have hd := (((((((h 0 0).mul (h 1 1)).mul (h 2 2)).sub (((h 0 0).mul (h 1 2)).mul (h 2 1))).sub (((h 0 1).mul (h 1 0)).mul (h 2 2))).add
    (((h 0 1).mul (h 1 2)).mul (h 2 0))).add (((h 0 2).mul (h 1 0)).mul (h 2 1))).sub (((h 0 2).mul (h 1 1)).mul (h 2 0))
  refine HasDerivAt.congr_deriv hd ?_
  simp [Matrix.trace, Matrix.mul_apply, Fin.sum_univ_three, Matrix.adjugate_fin_three]
  ring

theorem trace_sq_deriv (M : ℝ → Matrix (Fin 3) (Fin 3) ℝ) (M' : Matrix (Fin 3) (Fin 3) ℝ) (t : ℝ)
    (h : ∀ i j, HasDerivAt (fun s => M s i j) (M' i j) t) :
    HasDerivAt (fun s => (M s * (M s)ᵀ).trace) (2 * (M' * (M t)ᵀ).trace) t := by
  have e : (fun s => (M s * (M s)ᵀ).trace) = fun s => ∑ i : Fin 3, ∑ j : Fin 3, M s i j * M s i j := by
    funext s; simp [Matrix.trace, Matrix.mul_apply]
  rw [e]
  have hd := HasDerivAt.fun_sum (u := Finset.univ) fun (i : Fin 3) (_ : i ∈ Finset.univ) =>
    HasDerivAt.fun_sum (u := Finset.univ) fun (j : Fin 3) (_ : j ∈ Finset.univ) => (h i j).mul (h i j)
  refine HasDerivAt.congr_deriv hd ?_
  simp only [Matrix.trace, Matrix.diag_apply, Matrix.mul_apply, Matrix.transpose_apply, Finset.mul_sum]
  apply Finset.sum_congr rfl; intro i _
  apply Finset.sum_congr rfl; intro j _
  ring

/-- The neo-Hookean stress formula derives from the neo-Hookean energy. -/
theorem neo_energy_deriv (k g : ℝ) (M : ℝ → Matrix (Fin 3) (Fin 3) ℝ) (M' : Matrix (Fin 3) (Fin 3) ℝ) (t : ℝ)
    (hpos : 0 < (M t).det) (h : ∀ i j, HasDerivAt (fun s => M s i j) (M' i j) t) :
    HasDerivAt (fun s => neoEnergy k g (M s)) (M' * (M t).adjugate * neoHooke k g (M t)).trace t := by
  have hJ := det_deriv M M' t h
  have hT := trace_sq_deriv M M' t h
  have hlog := hJ.log hpos.ne'
  have hpow := hJ.rpow_const (p := -(2 : ℝ) / 3) (Or.inl hpos.ne')
  have hsq := hJ.pow 2
  have hd := (((hsq.sub_const 1).sub (hlog.const_mul 2)).const_mul (k / 4)).add (((hpow.mul hT).sub_const 3).const_mul (g / 2))
  unfold neoEnergy
  refine HasDerivAt.congr_deriv hd ?_
  have hp : (M t).det ^ (-(2 : ℝ) / 3 - 1) = (M t).det ^ (-(2 : ℝ) / 3) / (M t).det := by
    rw [Real.rpow_sub hpos, Real.rpow_one]
  have hB : M' * (M t).adjugate * (M t * (M t)ᵀ) = (M t).det • (M' * (M t)ᵀ) := by
    rw [Matrix.mul_assoc, ← Matrix.mul_assoc (M t).adjugate, Matrix.adjugate_mul, Matrix.smul_mul, Matrix.one_mul, Matrix.mul_smul]
  rw [hp, neoHooke, dev, Matrix.mul_add, Matrix.mul_smul, Matrix.mul_one, Matrix.mul_smul, Matrix.mul_sub, Matrix.mul_smul,
    Matrix.mul_smul, Matrix.mul_one, hB]
  simp only [Matrix.trace_add, Matrix.trace_sub, Matrix.trace_smul, smul_eq_mul]
  field_simp
  ring

theorem neohookean_derives (f : ℝ → ℝ) (hf : IsCosThird f) (m : Material ℝ) :
    DerivesFrom (neohookeanStress f m) (neoEnergy m.bulk m.shear) NeoDomain := by
  intro F σ hD hσ M M' t hM h
  obtain ⟨σ0, h1, h2⟩ := neohookean_stress_formula_partial f hf m F hD.1 (fun inv d h => hD.2 F inv d rfl h)
  rw [hσ] at h1
  obtain rfl := Option.some.inj h1
  rw [h2, ← hM]
  exact neo_energy_deriv _ _ M M' t (by rw [hM]; exact hD.1) h

/-! ## Elements and meshes -/

theorem jac_deriv (val : ℝ) (x : ℝ → ℕ → ℝ) (v : ℕ → ℝ) (t : ℝ) (h : ∀ (n : Fin 8) (d : Fin 3), HasDerivAt (fun s => x s (3 * n + d)) (v (3 * n + d)) t)
    (p : Fin 8) (i j : Fin 3) : HasDerivAt (fun s => Jac val (x s) p i j) (Jac val v p i j) t := by
  simp only [Jac, Matrix.of_apply]
  exact HasDerivAt.fun_sum fun n _ => (h n i).mul_const _

/-- The power of the element forces is the rate of the element energy. -/
theorem element_power (val : ℝ) (b : Blk ℝ) (X : ℕ → ℝ) (u : ℝ → ℕ → ℝ) (v : ℕ → ℝ) (e : ℕ) (t : ℝ)
    (W : Matrix (Fin 3) (Fin 3) ℝ → ℝ) (D : Matrix (Fin 3) (Fin 3) ℝ → Prop) (hW : DerivesFrom b.law W D)
    (hD : Deforms val D b e X fun k => X k + u t k)
    (hu : ∀ n < 8, ∀ d : Fin 3, HasDerivAt (fun s => u s (3 * b.nodeId e n + d)) (v (3 * b.nodeId e n + d)) t)
    (f : ℕ → Fin 3 → ℝ) (hf : elementForce val b X (u t) e = some f) :
    HasDerivAt (fun s => elementEnergy val W b X (fun k => X k + u s k) e)
      (- ∑ d : Fin 3, ∑ n ∈ Finset.range 8, v (3 * b.nodeId e n + d) * f n d) t := by
  unfold elementForce at hf
  simp only [Option.bind_eq_bind, Option.bind_eq_some_iff] at hf
  obtain ⟨G, hG, σ, hσ, hf⟩ := hf
  have hJX := (deformation_gradients_defined val (gather b e X) (gather b e fun k => X k + u t k)).mp ⟨G, hG⟩
  have hx : ∀ (n : Fin 8) (d : Fin 3), HasDerivAt (fun s => gather b e (fun k => X k + u s k) (3 * n + d)) (gather b e v (3 * n + d)) t := by
    intro n d
    simp only [gather_val _ _ _ n.isLt]
    exact (hu n n.isLt d).const_add _
  have hp : ∀ p : Fin 8, HasDerivAt (fun s => W (Jac val (gather b e fun k => X k + u s k) p * (Jac val (gather b e X) p)⁻¹) *
        (Jac val (gather b e X) p).det)
      ((Jac val (gather b e v) p * (Jac val (gather b e fun k => X k + u t k) p).adjugate *
        symMat (fun c : Fin 6 => σ (6 * p + c))).trace) t := by
    intro p
    have hunit : IsUnit (Jac val (gather b e X) p).det := (hJX p).ne'.isUnit
    have h1 := computeDeformationGradients_val val _ _ G hG p
    have hFt : Jac val (gather b e fun k => X k + u t k) p * (Jac val (gather b e X) p)⁻¹ = fullMat (fun i : Fin 9 => G (9 * p + i)) := by
      rw [← h1, Matrix.mul_assoc, Matrix.mul_nonsing_inv _ hunit, Matrix.mul_one]
    obtain ⟨sig, hs, hv⟩ := (pointLoop_val _ 8 G _ σ hσ).1 p p.isLt
    have hσp : (fun c : Fin 6 => σ (6 * p + c)) = sig := by funext c; exact hv c
    have hM : ∀ i j, HasDerivAt (fun s => (Jac val (gather b e fun k => X k + u s k) p * (Jac val (gather b e X) p)⁻¹) i j)
        ((Jac val (gather b e v) p * (Jac val (gather b e X) p)⁻¹) i j) t := by
      intro i j
      simp only [Matrix.mul_apply]
      exact HasDerivAt.fun_sum fun k _ => (jac_deriv val _ _ t hx p i k).mul_const _
    have h2 := hW _ sig (hD p _ h1) hs _ _ t hFt hM
    refine HasDerivAt.congr_deriv (h2.mul_const _) ?_
    rw [hσp, hFt]
    conv_rhs => rw [← h1, Matrix.adjugate_mul_distrib]
    have h3 : Jac val (gather b e v) p * ((Jac val (gather b e X) p).adjugate * (fullMat fun i : Fin 9 => G (9 * p + i)).adjugate) * symMat sig
        = (Jac val (gather b e X) p).det • (Jac val (gather b e v) p * (Jac val (gather b e X) p)⁻¹ *
          (fullMat fun i : Fin 9 => G (9 * p + i)).adjugate * symMat sig) := by
      have : (Jac val (gather b e X) p).adjugate = (Jac val (gather b e X) p).det • (Jac val (gather b e X) p)⁻¹ := by
        rw [Matrix.inv_def, smul_smul, Ring.mul_inverse_cancel _ hunit, one_smul]
      rw [this]
      simp only [Matrix.smul_mul, Matrix.mul_smul, Matrix.mul_assoc]
    rw [h3, Matrix.trace_smul, smul_eq_mul, mul_comm]
  have hsum := HasDerivAt.fun_sum (u := Finset.univ) fun p (_ : p ∈ Finset.univ) => hp p
  unfold elementEnergy
  refine HasDerivAt.congr_deriv hsum ?_
  have hfn : ∀ d : Fin 3, ∀ n ∈ Finset.range 8, v (3 * b.nodeId e n + d) * f n d
      = - ∑ p : Fin 8, ∑ k : Fin 3, gather b e v (3 * n + d) * gradN (⟨n % 8, Nat.mod_lt _ (by norm_num)⟩ : Fin 8) (gaussPt val p) k *
        ((Jac val (gather b e fun k => X k + u t k) p).adjugate * symMat (fun c : Fin 6 => σ (6 * p + c))) k d := by
    intro d n hn
    have hn8 := Finset.mem_range.mp hn
    have hmod : (⟨n % 8, Nat.mod_lt _ (by norm_num)⟩ : Fin 8) = ⟨n, hn8⟩ := by ext; exact Nat.mod_eq_of_lt hn8
    rw [nodal_forces_adjugate val _ σ f hf ⟨n, hn8⟩ d, gather_val _ _ _ hn8, hmod, mul_neg, Finset.mul_sum]
    congr 1
    apply Finset.sum_congr rfl; intro p _
    rw [Finset.mul_sum]
    apply Finset.sum_congr rfl; intro k _
    ring
  rw [Finset.sum_congr rfl fun d _ => Finset.sum_congr rfl (hfn d)]
  simp only [Finset.sum_neg_distrib, neg_neg]
  have hflip : ∀ d : Fin 3, ∑ n ∈ Finset.range 8, ∑ p : Fin 8, ∑ k : Fin 3, gather b e v (3 * n + d) *
        gradN (⟨n % 8, Nat.mod_lt _ (by norm_num)⟩ : Fin 8) (gaussPt val p) k *
        ((Jac val (gather b e fun k => X k + u t k) p).adjugate * symMat (fun c : Fin 6 => σ (6 * p + c))) k d
      = ∑ p : Fin 8, (Jac val (gather b e v) p * ((Jac val (gather b e fun k => X k + u t k) p).adjugate *
          symMat (fun c : Fin 6 => σ (6 * p + c)))) d d := by
    intro d
    rw [Finset.sum_comm]
    apply Finset.sum_congr rfl; intro p _
    rw [Finset.sum_comm, Matrix.mul_apply]
    apply Finset.sum_congr rfl; intro k _
    rw [← Finset.sum_mul, Finset.sum_range]
    congr 1
  simp only [hflip]
  rw [Finset.sum_comm]
  apply Finset.sum_congr rfl; intro p _
  rw [Matrix.mul_assoc, Matrix.trace]
  rfl

theorem sum_deriv {α : Type*} (l : List α) (φ : α → ℝ → ℝ) (φ' : α → ℝ) (t : ℝ) (h : ∀ a ∈ l, HasDerivAt (φ a) (φ' a) t) :
    HasDerivAt (fun s => (l.map fun a => φ a s).sum) (l.map φ').sum t := by
  induction l with
  | nil => simpa using hasDerivAt_const t (0 : ℝ)
  | cons a l ih =>
    simp only [List.map_cons, List.sum_cons]
    exact (h a (List.mem_cons_self ..)).add (ih fun b hb => h b (List.mem_cons_of_mem _ hb))

/-- **C120.**  For every mesh whose laws derive from energy densities, and every path of displacements: the rate of the energy of
the body is minus the power of the internal forces. -/
theorem internal_power (val : ℝ) (blocks : List (Blk ℝ × List ℕ)) (N : ℕ) (hmesh : InMesh N blocks)
    (W : Blk ℝ → Matrix (Fin 3) (Fin 3) ℝ → ℝ) (D : Matrix (Fin 3) (Fin 3) ℝ → Prop)
    (hW : ∀ b ∈ blocks, DerivesFrom b.1.law (W b.1) D) (X : ℕ → ℝ) (u : ℝ → ℕ → ℝ) (v : ℕ → ℝ) (t : ℝ)
    (hD : ∀ b ∈ blocks, ∀ e ∈ b.2, Deforms val D b.1 e X fun k => X k + u t k)
    (hu : ∀ n < N, ∀ d : Fin 3, HasDerivAt (fun s => u s (3 * n + d)) (v (3 * n + d)) t)
    (F : ℕ → ℝ) (hF : computeInternalForce val X (u t) blocks = some F) :
    HasDerivAt (fun s => bodyEnergy val W X (fun k => X k + u s k) blocks)
      (- ∑ n ∈ Finset.range N, ∑ d : Fin 3, v (3 * n + d) * F (3 * n + d)) t := by
  have hdef := (internal_force_defined val X (u t) blocks).mp ⟨F, hF⟩
  have hb : ∀ b ∈ blocks, HasDerivAt (fun s => (b.2.map fun e => elementEnergy val (W b.1) b.1 X (fun k => X k + u s k) e).sum)
      (b.2.map fun e => - ∑ d : Fin 3, (elementForce val b.1 X (u t) e).elim 0 fun f =>
        ∑ n ∈ Finset.range 8, v (3 * b.1.nodeId e n + d) * f n d).sum t := by
    intro b hb
    apply sum_deriv b.2 (fun e s => elementEnergy val (W b.1) b.1 X (fun k => X k + u s k) e)
    intro e he
    obtain ⟨f, hf⟩ := hdef b hb e he
    rw [hf]
    exact element_power val b.1 X u v e t (W b.1) D (hW b hb) (hD b hb e he) (fun n hn d => hu _ (hmesh b hb e he n hn) d) f hf
  have hs := sum_deriv blocks (fun b s => (b.2.map fun e => elementEnergy val (W b.1) b.1 X (fun k => X k + u s k) e).sum) _ t hb
  refine HasDerivAt.congr_deriv hs ?_
  rw [Finset.sum_comm]
  have hw := fun d : Fin 3 => internal_force_work val X (u t) F blocks N hmesh hF (fun n => v (3 * n + d)) d
  simp only [hw]
  have hneg : ∀ {α : Type} (l : List α) (φ : α → ℝ), (l.map fun a => - φ a).sum = - (l.map φ).sum := by
    intro α l φ
    induction l with
    | nil => simp
    | cons a l ih => simp only [List.map_cons, List.sum_cons, ih]; ring
  rw [← sum_map_fin, ← hneg]
  congr 1
  apply List.map_congr_left
  intro b _
  rw [hneg, sum_map_fin]

/-- **C120.**  Work along a path: whatever path the displacements of a neo-Hookean body take from time `a` to time `c`, the work
`w` done by the internal forces is the decrease of the strain energy.  In particular no work is gained or lost when the body
returns to its initial shape. -/
theorem internal_work_partial (val : ℝ) (f : ℝ → ℝ) (hf : IsCosThird f) (blocks : List (Blk ℝ × List ℕ)) (N : ℕ) (hmesh : InMesh N blocks)
    (m : Blk ℝ → Material ℝ) (hlaw : ∀ b ∈ blocks, b.1.law = neohookeanStress f (m b.1)) (X : ℕ → ℝ) (u v F : ℝ → ℕ → ℝ) (w : ℝ → ℝ)
    (a c : ℝ)
    (hD : ∀ t ∈ Set.Icc a c, ∀ b ∈ blocks, ∀ e ∈ b.2, Deforms val NeoDomain b.1 e X fun k => X k + u t k)
    (hu : ∀ t ∈ Set.Icc a c, ∀ n < N, ∀ d : Fin 3, HasDerivAt (fun s => u s (3 * n + d)) (v t (3 * n + d)) t)
    (hF : ∀ t ∈ Set.Icc a c, computeInternalForce val X (u t) blocks = some (F t))
    (hw : ∀ t ∈ Set.Icc a c, HasDerivAt w (∑ n ∈ Finset.range N, ∑ d : Fin 3, v t (3 * n + d) * F t (3 * n + d)) t)
    (hac : a ≤ c) :
    w c - w a = bodyEnergy val (fun b => neoEnergy (m b).bulk (m b).shear) X (fun k => X k + u a k) blocks
      - bodyEnergy val (fun b => neoEnergy (m b).bulk (m b).shear) X (fun k => X k + u c k) blocks := by
  have hder : ∀ t ∈ Set.Icc a c, HasDerivAt (fun s => w s + bodyEnergy val (fun b => neoEnergy (m b).bulk (m b).shear) X
      (fun k => X k + u s k) blocks) 0 t := by
    intro t ht
    have h1 := internal_power val blocks N hmesh (fun b => neoEnergy (m b).bulk (m b).shear) NeoDomain (fun b hb => by
      rw [hlaw b hb]; exact neohookean_derives f hf (m b.1)) X u (v t) t (hD t ht) (hu t ht) (F t) (hF t ht)
    refine HasDerivAt.congr_deriv ((hw t ht).add h1) (by ring)
  have hc := constant_of_has_deriv_right_zero (fun t ht => (hder t ht).continuousAt.continuousWithinAt)
    (fun t ht => (hder t ⟨ht.1, ht.2.le⟩).hasDerivWithinAt) c ⟨hac, le_refl _⟩
  linarith

end NimbleSM.Assembly
