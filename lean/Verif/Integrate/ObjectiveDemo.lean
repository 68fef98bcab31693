import Verif.Assembly.ObjectiveProps
import Verif.Integrate.InvarianceDemo

/-!
# C119: cases that meet the hypotheses
-/

open scoped BigOperators

namespace NimbleSM.Integrate

open Matrix NimbleSM.Bc NimbleSM.Assembly NimbleSM.Hex NimbleSM.Tensor NimbleSM.Constitutive

/-- **C119 fails**, a case: the elastic unit cube after a quarter turn about an edge and a translation. -/
example : ∃ F, computeInternalForce (1 / 2 : ℝ) (flat unitX) (fun k => flat turnedX k - flat unitX k)
      [(cubeBlk (⟨1, 1, 1⟩ : Material ℝ), [0])] = some F ∧ ∃ n < 8, ∃ d : Fin 3, F (3 * n + d) ≠ 0 := by
  have hx : (fun k => flat unitX k + (flat turnedX k - flat unitX k)) = flat turnedX := by funext k; ring
  obtain ⟨F, hF⟩ := (internal_force_defined (1 / 2 : ℝ) (flat unitX) (fun k => flat turnedX k - flat unitX k)
      [(cubeBlk (⟨1, 1, 1⟩ : Material ℝ), [0])]).mpr (by
    intro b hb e he
    rw [List.mem_singleton] at hb
    subst hb
    rw [List.mem_singleton] at he
    subst he
    apply elementForce_defined
    · intro F; exact ⟨_, rfl⟩
    · intro p; rw [unitX_jac]; simp [Matrix.det_diagonal]
    · intro p; rw [hx]; exact turnedX_jac _ _ p)
  refine ⟨F, hF, elastic_turned_force (1 / 2) _ ⟨_, List.mem_singleton.mpr rfl, by simp [cubeBlk]⟩ 8 (cube_inMesh _) ?_ (flat unitX) _ quarter
    quarter_orth ?_ ![5, 6, 7] ?_ F hF⟩
  · intro b hb
    rw [List.mem_singleton] at hb
    subst hb
    exact ⟨⟨1, 1, 1⟩, one_pos, rfl⟩
  · intro h
    have := congrFun (congrFun h 0) 0
    simp [quarter] at this
  · intro n d
    simp only [flat_apply]
    rw [add_sub_cancel, turnedX_eq]

/-- A neo-Hookean cube. -/
noncomputable def neoBlk (f : ℝ → ℝ) : Blk ℝ := { cubeBlk (⟨1, 1, 1⟩ : Material ℝ) with law := neohookeanStress f ⟨1, 1, 1⟩ }

/-- The unit cube stretched to twice its length. -/
noncomputable def stretchU : Nodal ℝ := fun n d => if d = 0 then unitX n 0 else 0

theorem stretch_domain : NeoDomain (Matrix.diagonal ![2, 1, 1]) := by
  refine ⟨by simp [Matrix.det_diagonal, Fin.prod_univ_three], fun F inv d hF h => ?_⟩
  have hF' : F = store9 2 0 0 0 1 0 0 0 1 := by
    funext i
    have e := fun a b => congrFun (congrFun hF a) b
    fin_cases i
    · simpa [fullMat, store9, K_F_XX, K_F_XY, K_F_XZ, K_F_YX, K_F_YY, K_F_YZ, K_F_ZX, K_F_ZY, K_F_ZZ] using e 0 0
    · simpa [fullMat, store9, K_F_XX, K_F_XY, K_F_XZ, K_F_YX, K_F_YY, K_F_YZ, K_F_ZX, K_F_ZY, K_F_ZZ] using e 1 1
    · simpa [fullMat, store9, K_F_XX, K_F_XY, K_F_XZ, K_F_YX, K_F_YY, K_F_YZ, K_F_ZX, K_F_ZY, K_F_ZZ] using e 2 2
    · simpa [fullMat, store9, K_F_XX, K_F_XY, K_F_XZ, K_F_YX, K_F_YY, K_F_YZ, K_F_ZX, K_F_ZY, K_F_ZZ] using e 0 1
    · simpa [fullMat, store9, K_F_XX, K_F_XY, K_F_XZ, K_F_YX, K_F_YY, K_F_YZ, K_F_ZX, K_F_ZY, K_F_ZZ] using e 1 2
    · simpa [fullMat, store9, K_F_XX, K_F_XY, K_F_XZ, K_F_YX, K_F_YY, K_F_YZ, K_F_ZX, K_F_ZY, K_F_ZZ] using e 2 0
    · simpa [fullMat, store9, K_F_XX, K_F_XY, K_F_XZ, K_F_YX, K_F_YY, K_F_YZ, K_F_ZX, K_F_ZY, K_F_ZZ] using e 1 0
    · simpa [fullMat, store9, K_F_XX, K_F_XY, K_F_XZ, K_F_YX, K_F_YY, K_F_YZ, K_F_ZX, K_F_ZY, K_F_ZZ] using e 2 1
    · simpa [fullMat, store9, K_F_XX, K_F_XY, K_F_XZ, K_F_YX, K_F_YY, K_F_YZ, K_F_ZX, K_F_ZY, K_F_ZZ] using e 0 2
  subst hF'
  right
  simp [invertFull33, store9, K_F_XX, K_F_XY, K_F_XZ, K_F_YX, K_F_YY, K_F_YZ, K_F_ZX, K_F_ZY,
    K_F_ZZ] at h
  obtain ⟨h, -⟩ := h
  rw [← h]
  simp [devNorm, meanDiag, squareFull33TFull33, store6, store9, K_F_XX, K_F_XY, K_F_XZ, K_F_YX,
    K_F_YY, K_F_YZ, K_F_ZX, K_F_ZY, K_F_ZZ, K_S_XX, K_S_YY, K_S_ZZ, K_S_XY, K_S_YZ, K_S_ZX]
  norm_num

theorem neo_force (f : ℝ → ℝ) (hf : IsCosThird f) (val : ℝ) :
    ∃ F, computeInternalForce val (flat unitX) (flat stretchU) [(neoBlk f, [0])] = some F ∧
      Deforms val NeoDomain (neoBlk f) 0 (flat unitX) fun k => flat unitX k + flat stretchU k := by
  have hJX : ∀ p, Jac val (gather (neoBlk f) 0 (flat unitX)) p = Matrix.diagonal fun _ => 1 / 2 := unitX_jac val ⟨1, 1, 1⟩
  have hmv : Moved (neoBlk f) (neoBlk f) 0 0 (flat unitX) (fun k => flat unitX k + flat stretchU k) (Matrix.diagonal ![2, 1, 1]) 0 := by
    intro n hn d
    simp only [flat_apply, stretchU]
    fin_cases d <;> simp [Fin.sum_univ_three, Matrix.diagonal]; ring
  have hJx : ∀ p, Jac val (gather (neoBlk f) 0 fun k => flat unitX k + flat stretchU k) p
      = Matrix.diagonal ![2, 1, 1] * Matrix.diagonal fun _ => 1 / 2 := by
    intro p; rw [moved_jac val hmv p, hJX]
  have hD : Deforms val NeoDomain (neoBlk f) 0 (flat unitX) fun k => flat unitX k + flat stretchU k := by
    intro p F hF
    rw [hJx, hJX] at hF
    have hunit : IsUnit (Matrix.diagonal fun _ : Fin 3 => (1 / 2 : ℝ)) := by
      rw [Matrix.isUnit_iff_isUnit_det]; simp [Matrix.det_diagonal]
    rw [hunit.mul_right_cancel hF]
    exact stretch_domain
  obtain ⟨G, hG⟩ := (deformation_gradients_defined val (gather (neoBlk f) 0 (flat unitX))
    (gather (neoBlk f) 0 fun k => flat unitX k + flat stretchU k)).mpr (fun p => by rw [hJX]; simp [Matrix.det_diagonal])
  have hs : ∃ σ, pointLoop (neoBlk f).law 8 G (fun _ => 0) = some σ := by
    rw [← Option.isSome_iff_exists]
    unfold pointLoop
    rw [foldlM_isSome (fun pt => (neoBlk f).law fun i => G (9 * pt + i.val))
      (fun pt sig (out : ℕ → ℝ) => (List.finRange 6).foldl (fun out c => put out (6 * pt + c.val) (sig c)) out)]
    intro pt hp
    have hd := hD ⟨pt, List.mem_range.mp hp⟩ _ (computeDeformationGradients_val val _ _ G hG ⟨pt, List.mem_range.mp hp⟩)
    obtain ⟨σ, h1, -⟩ := neohookean_stress_formula_partial f hf ⟨1, 1, 1⟩ (fun i => G (9 * pt + i.val)) hd.1
      (fun inv d h => hd.2 _ inv d rfl h)
    rw [Option.isSome_iff_exists]
    exact ⟨σ, h1⟩
  obtain ⟨σ, hσ⟩ := hs
  obtain ⟨fo, hfo⟩ := (nodal_forces_defined val (gather (neoBlk f) 0 fun k => flat unitX k + flat stretchU k) σ).mpr (fun p => by
    rw [hJx, Matrix.det_mul]; simp [Matrix.det_diagonal, Fin.prod_univ_three])
  obtain ⟨F, hF⟩ := (internal_force_defined val (flat unitX) (flat stretchU) [(neoBlk f, [0])]).mpr (by
    intro b hb e he
    rw [List.mem_singleton] at hb
    subst hb
    rw [List.mem_singleton] at he
    subst he
    exact ⟨fo, by unfold elementForce; simp only [hG, Option.bind_eq_bind, Option.bind_some, hσ, hfo]⟩)
  exact ⟨F, hF, hD⟩

/-- **C119**, a case: the neo-Hookean cube stretched to twice its length and then turned by a quarter. -/
example (f : ℝ → ℝ) (hf : IsCosThird f) : ∃ F F',
    computeInternalForce (1 / 2) (flat unitX) (flat stretchU) [(neoBlk f, [0])] = some F ∧
    computeInternalForce (1 / 2) (flat unitX)
      (flat fun n d => if hd : d < 3 then (∑ k : Fin 3, quarter ⟨d, hd⟩ k * (unitX n k + stretchU n k)) - unitX n d else 0)
      [(neoBlk f, [0])] = some F' ∧
    ∀ n, F' (3 * n) = - F (3 * n + 1) ∧ F' (3 * n + 1) = F (3 * n) ∧ F' (3 * n + 2) = F (3 * n + 2) := by
  obtain ⟨F, hF, hD⟩ := neo_force f hf (1 / 2)
  obtain ⟨F', h1, h2⟩ := internal_force_objective_partial (1 / 2) f hf [(neoBlk f, [0])]
    (fun b hb => by rw [List.mem_singleton.mp hb]; exact ⟨_, rfl⟩) (flat unitX) (flat stretchU)
    (flat fun n d => if hd : d < 3 then (∑ k : Fin 3, quarter ⟨d, hd⟩ k * (unitX n k + stretchU n k)) - unitX n d else 0)
    quarter quarter_orth quarter_det 0 (by
      intro n d
      simp only [flat_apply, d.isLt, dif_pos, Pi.zero_apply, add_zero, Fin.eta]
      ring) (by
      intro b hb e he
      rw [List.mem_singleton] at hb
      subst hb
      rw [List.mem_singleton] at he
      subst he
      exact hD) F hF
  refine ⟨F, F', hF, h1, fun n => ⟨?_, ?_, ?_⟩⟩
  · simpa [quarter, Fin.sum_univ_three] using h2 n 0
  · simpa [quarter, Fin.sum_univ_three] using h2 n 1
  · simpa [quarter, Fin.sum_univ_three] using h2 n 2

end NimbleSM.Integrate
