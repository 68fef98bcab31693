import Verif.Assembly.TransformLawProps

/-!
# C119: internal forces and rigid motions
-/

open scoped BigOperators

namespace NimbleSM.Assembly

open Matrix NimbleSM.Hex NimbleSM.Tensor NimbleSM.Constitutive

/-- Specification: the deformed positions `X + u'` are the deformed positions `X + u` after the rigid motion `Q · + c`. -/
def RigidlyMoved {K : Type*} [Field K] (X u u' : ℕ → K) (Q : Matrix (Fin 3) (Fin 3) K) (c : Fin 3 → K) : Prop :=
  ∀ n (d : Fin 3), X (3 * n + d) + u' (3 * n + d) = (∑ k : Fin 3, Q d k * (X (3 * n + k) + u (3 * n + k))) + c d

/-- **C119.**  Moving a deformed neo-Hookean body as a rigid body turns its internal forces with it, for every mesh and every
deformation (within the domain of C30). -/
theorem internal_force_objective_partial (val : ℝ) (f : ℝ → ℝ) (hf : IsCosThird f) (blocks : List (Blk ℝ × List ℕ))
    (hlaw : ∀ b ∈ blocks, ∃ m, b.1.law = neohookeanStress f m) (X u u' : ℕ → ℝ) (Q : Matrix (Fin 3) (Fin 3) ℝ)
    (hQ : Q * Qᵀ = 1) (hdet : Q.det = 1) (c : Fin 3 → ℝ) (hu : RigidlyMoved X u u' Q c)
    (hD : ∀ b ∈ blocks, ∀ e ∈ b.2, Deforms val NeoDomain b.1 e X fun k => X k + u k)
    (F : ℕ → ℝ) (hF : computeInternalForce val X u blocks = some F) :
    ∃ F', computeInternalForce val X u' blocks = some F' ∧
      ∀ n (d : Fin 3), F' (3 * n + d) = ∑ k : Fin 3, Q d k * F (3 * n + k) := by
  have hone : ∀ (x : Fin 3 → ℝ) (d : Fin 3), ∑ k : Fin 3, (1 : Matrix (Fin 3) (Fin 3) ℝ) d k * x k = x d := by
    intro x d
    have := congrFun (Matrix.one_mulVec x) d
    simpa [Matrix.mulVec, dotProduct] using this
  obtain ⟨F', h1, h2⟩ := internal_force_transformed val blocks id id ⟨Function.injective_id, fun _ _ _ _ _ _ => rfl⟩ X X u u'
    1 Q Qᵀ 0 c (by simp) (by rw [hdet]; exact one_pos)
    (fun b _ e _ n _ d => by
      rw [hone fun k => X (3 * b.1.nodeId e n + k)]; simp)
    (fun b _ e _ n _ d => hu _ d) NeoDomain hD
    (fun b hb => by
      obtain ⟨m, hm⟩ := hlaw b hb
      have := neohookean_corresponding_partial f hf m m 1 1 one_ne_zero 1 Q (by simp) (by simp) hQ hdet (one_mul _).symm
        (one_mul _).symm
      rw [id, hm]
      simpa using this) F hF
  have hid : mapBlocks id blocks = blocks := by unfold mapBlocks; simp
  rw [hid] at h1
  refine ⟨F', h1, fun n d => ?_⟩
  rw [show 3 * n + (d : ℕ) = 3 * id n + d from rfl, h2]
  apply Finset.sum_congr rfl
  intro k _
  rw [Matrix.transpose_apply]; ring

section Elastic

variable {K : Type*} [Field K] [LinearOrder K] [IsStrictOrderedRing K]

/-- A rotation other than the identity has trace less than three. -/
theorem trace_lt_three (Q : Matrix (Fin 3) (Fin 3) K) (hQ : Q * Qᵀ = 1) (h1 : Q ≠ 1) : Q.trace < 3 := by
  have h2 : ∑ i : Fin 3, ∑ j : Fin 3, (Q i j - (1 : Matrix (Fin 3) (Fin 3) K) i j) ^ 2 = 6 - 2 * Q.trace := by
    have hd := fun i : Fin 3 => congrFun (congrFun hQ i) i
    have d0 := hd 0
    have d1 := hd 1
    have d2 := hd 2
    simp only [Matrix.mul_apply, Fin.sum_univ_three, Matrix.transpose_apply, Matrix.one_apply_eq] at d0 d1 d2
    simp [Fin.sum_univ_three, Matrix.trace]
    linear_combination d0 + d1 + d2
  obtain ⟨i, j, hij⟩ : ∃ i j, Q i j ≠ (1 : Matrix (Fin 3) (Fin 3) K) i j := by
    by_contra hall
    push Not at hall
    exact h1 (by ext i j; exact hall i j)
  have h3 : 0 < ∑ i : Fin 3, ∑ j : Fin 3, (Q i j - (1 : Matrix (Fin 3) (Fin 3) K) i j) ^ 2 := by
    apply Finset.sum_pos' (fun a _ => Finset.sum_nonneg fun b _ => sq_nonneg _)
    refine ⟨i, Finset.mem_univ i, Finset.sum_pos' (fun b _ => sq_nonneg _) ⟨j, Finset.mem_univ j, ?_⟩⟩
    exact pow_pos_of_ne_zero hij
  linarith
where
  pow_pos_of_ne_zero {a b : K} (h : a ≠ b) : 0 < (a - b) ^ 2 := by
    have := sub_ne_zero.mpr h
    positivity

/-- **C119 fails for the elastic material.**  A mesh of elastic blocks (with positive bulk moduli) that is turned by any rotation
other than the identity, without being deformed, has internal forces: they do not vanish at all nodes. -/
theorem elastic_turned_force (val : K) (blocks : List (Blk K × List ℕ)) (hne : ∃ b ∈ blocks, b.2 ≠ []) (N : ℕ)
    (hmesh : InMesh N blocks)
    (hlaw : ∀ b ∈ blocks, ∃ m : Material K, 0 < m.bulk ∧ b.1.law = fun F => some (elasticStress m F)) (X u : ℕ → K)
    (Q : Matrix (Fin 3) (Fin 3) K) (hQ : Q * Qᵀ = 1) (hQ1 : Q ≠ 1) (c : Fin 3 → K)
    (hu : ∀ n (d : Fin 3), X (3 * n + d) + u (3 * n + d) = (∑ k : Fin 3, Q d k * X (3 * n + k)) + c d)
    (F : ℕ → K) (hF : computeInternalForce val X u blocks = some F) :
    ∃ n < N, ∃ d : Fin 3, F (3 * n + d) ≠ 0 := by
  by_contra hall
  push Not at hall
  have htr := trace_lt_three Q hQ hQ1
  have hdef := (internal_force_defined val X u blocks).mp ⟨F, hF⟩
  have hz : ∑ d : Fin 3, ∑ n ∈ Finset.range N, (X (3 * n + d) + u (3 * n + d)) * F (3 * n + d) = 0 := by
    apply Finset.sum_eq_zero; intro d _
    apply Finset.sum_eq_zero; intro n hn
    rw [hall n (Finset.mem_range.mp hn) d, mul_zero]
  have hw := fun d : Fin 3 => internal_force_work val X u F blocks N hmesh hF (fun n => X (3 * n + d) + u (3 * n + d)) d
  simp only [hw] at hz
  rw [← sum_map_fin] at hz
  -- every element does positive work
  have hpos : ∀ b ∈ blocks, ∀ e ∈ b.2, 0 < ∑ d : Fin 3, (elementForce val b.1 X u e).elim 0 fun f =>
      ∑ n ∈ Finset.range 8, (X (3 * b.1.nodeId e n + d) + u (3 * b.1.nodeId e n + d)) * f n d := by
    intro b hb e he
    obtain ⟨f, hf⟩ := hdef b hb e he
    rw [hf]
    simp only [Option.elim_some]
    unfold elementForce at hf
    simp only [Option.bind_eq_bind, Option.bind_eq_some_iff] at hf
    obtain ⟨G, hG, σ, hσ, hf⟩ := hf
    have hJX := (deformation_gradients_defined val (gather b.1 e X) (gather b.1 e fun k => X k + u k)).mp ⟨G, hG⟩
    have hJx := (nodal_forces_defined val _ σ).mp ⟨f, hf⟩
    have hmv : Moved b.1 b.1 e e X (fun k => X k + u k) Q c := fun n _ d => hu _ d
    have hGQ : ∀ p : Fin 8, fullMat (fun i : Fin 9 => G (9 * p + i)) = Q := by
      intro p
      have h1 := computeDeformationGradients_val val _ _ G hG p
      rw [moved_jac val hmv p] at h1
      have hunit : IsUnit (Jac val (gather b.1 e X) p) := by
        rw [Matrix.isUnit_iff_isUnit_det]; exact (hJX p).ne'.isUnit
      exact hunit.mul_right_cancel h1
    obtain ⟨m, hm, hl⟩ := hlaw b hb
    have hσp : ∀ p : Fin 8, ∑ d : Fin 3, symMat (fun k : Fin 6 => σ (6 * p + k)) d d = 3 * m.bulk * (Q.trace - 3) := by
      intro p
      obtain ⟨sig, hs, hv⟩ := (pointLoop_val _ 8 G _ σ hσ).1 p p.isLt
      rw [hl] at hs
      have e1 : (fun k : Fin 6 => σ (6 * p + k)) = elasticStress m (fun i : Fin 9 => G (9 * p + i.val)) := by
        funext k; rw [hv, ← Option.some.inj hs]
      rw [e1, elastic_stress_spec, hGQ p]
      simp [hooke, smallStrain, Matrix.trace, Fin.sum_univ_three]
      ring
    have hwork := nodal_forces_virtual_work val _ σ f hf 1 0
    have hone : ∀ n < 8, ∀ d : Fin 3, ∑ k : Fin 3, (1 : Matrix (Fin 3) (Fin 3) K) d k *
        gather b.1 e (fun k => X k + u k) (3 * n + k) = X (3 * b.1.nodeId e n + d) + u (3 * b.1.nodeId e n + d) := by
      intro n hn d
      have := congrFun (Matrix.one_mulVec fun k : Fin 3 => gather b.1 e (fun k => X k + u k) (3 * n + k)) d
      simp only [Matrix.mulVec, dotProduct] at this
      rw [this, gather_val _ _ _ hn]
    have hL : ∑ d : Fin 3, ∑ n ∈ Finset.range 8, (X (3 * b.1.nodeId e n + d) + u (3 * b.1.nodeId e n + d)) * f n d
        = ∑ n ∈ Finset.range 8, ∑ d : Fin 3, f n d * ((∑ k : Fin 3, (1 : Matrix (Fin 3) (Fin 3) K) d k *
        gather b.1 e (fun k => X k + u k) (3 * n + k)) + (0 : Fin 3 → K) d) := by
      rw [Finset.sum_comm]
      apply Finset.sum_congr rfl; intro n hn
      apply Finset.sum_congr rfl; intro d _
      rw [hone n (Finset.mem_range.mp hn) d]
      simp [mul_comm]
    rw [hL, hwork, ← Finset.sum_neg_distrib]
    apply Finset.sum_pos _ ⟨0, Finset.mem_univ 0⟩
    intro p _
    have hs : ∑ d : Fin 3, ∑ k : Fin 3, symMat (fun k : Fin 6 => σ (6 * p + k)) d k * (1 : Matrix (Fin 3) (Fin 3) K) d k
        = 3 * m.bulk * (Q.trace - 3) := by
      rw [← hσp p]
      apply Finset.sum_congr rfl; intro d _
      rw [Finset.sum_eq_single d]
      · rw [Matrix.one_apply_eq, mul_one]
      · intro k _ hk; rw [Matrix.one_apply_ne (Ne.symm hk), mul_zero]
      · intro h; exact absurd (Finset.mem_univ d) h
    rw [hs]
    have h3 : 0 < (Jac val (gather b.1 e fun k => X k + u k) p).det * (3 * m.bulk * (3 - Q.trace)) := by
      have := hJx p
      have : 0 < 3 - Q.trace := by linarith
      positivity
    linarith
  simp only [← sum_map_fin] at hz
  obtain ⟨b, hb, hbne⟩ := hne
  have hnn : ∀ x ∈ blocks.map (fun b => (b.2.map fun e => ∑ d : Fin 3, (elementForce val b.1 X u e).elim 0 fun f =>
      ∑ n ∈ Finset.range 8, (X (3 * b.1.nodeId e n + d) + u (3 * b.1.nodeId e n + d)) * f n d).sum), 0 ≤ x := by
    intro x hx
    obtain ⟨b, hb, rfl⟩ := List.mem_map.mp hx
    apply List.sum_nonneg
    intro y hy
    obtain ⟨e, he, rfl⟩ := List.mem_map.mp hy
    exact (hpos b hb e he).le
  have hlt : 0 < (b.2.map fun e => ∑ d : Fin 3, (elementForce val b.1 X u e).elim 0 fun f =>
      ∑ n ∈ Finset.range 8, (X (3 * b.1.nodeId e n + d) + u (3 * b.1.nodeId e n + d)) * f n d).sum := by
    apply List.sum_pos
    · intro y hy
      obtain ⟨e, he, rfl⟩ := List.mem_map.mp hy
      exact hpos b hb e he
    · simpa using hbne
  have hle := List.single_le_sum hnn _ (List.mem_map.mpr ⟨b, hb, rfl⟩)
  rw [hz] at hle
  exact absurd hlt (not_lt.mpr hle)

end Elastic

end NimbleSM.Assembly
