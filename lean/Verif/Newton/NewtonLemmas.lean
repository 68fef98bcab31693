import Verif.Assembly.EnergyProps
import Verif.Solver.SupportedProps

/-!
# Lemmas for C131: elastic element forces and the element tangent in closed form
-/

set_option linter.unusedSectionVars false

open scoped BigOperators

namespace NimbleSM.Hex

open Matrix NimbleSM.Tensor NimbleSM.Constitutive

variable {K : Type*} [Field K] [LinearOrder K] [IsStrictOrderedRing K]

/-- An array with a given matrix. -/
def arrayOf (A : Matrix (Fin 3) (Fin 3) K) : Fin 9 → K :=
  ![A 0 0, A 1 1, A 2 2, A 0 1, A 1 2, A 2 0, A 1 0, A 2 1, A 0 2]

theorem fullMat_arrayOf (A : Matrix (Fin 3) (Fin 3) K) : fullMat (arrayOf A) = A := by
  ext i j
  fin_cases i <;> fin_cases j <;> rfl

/-- The material tangent applied to the strain of `G` is Hooke's law. -/
theorem tangent_hooke (m : Material K) (num_pts : ℕ) (out : ℕ → K) (p : ℕ) (hp : p < num_pts)
    (G : Matrix (Fin 3) (Fin 3) K) :
    symMat (fun k : Fin 6 => ∑ l : Fin 6, getTangent m num_pts out (36 * p + 6 * k + l) * strainVec G l)
      = hooke m.bulk m.shear (smallStrain (1 + G)) := by
  have h := elastic_stress_spec m (arrayOf (1 + G))
  rw [fullMat_arrayOf] at h
  rw [← h]
  congr 1
  funext k
  have := elastic_tangent_spec m num_pts out p hp (arrayOf (1 + G)) k
  rw [fullMat_arrayOf] at this
  simp only [add_sub_cancel_left] at this
  rw [this]
  rfl

/-- The product of the element tangent with nodal displacements. -/
theorem tangent_product (val : K) (x : ℕ → K) (m : Material K) (out : ℕ → K) (T : ℕ → ℕ → K)
    (h : computeTangent val x (getTangent m 8 out) = some T) (w : ℕ → K) (n : Fin 8) (d : Fin 3) :
    ∑ j : Fin 8, ∑ e : Fin 3, T (3 * n + d) (3 * j + e) * w (3 * j + e)
      = ∑ p : Fin 8, ∑ k : Fin 3, gradN n (gaussPt val p) k * ((Jac val x p).adjugate *
        hooke m.bulk m.shear (smallStrain (1 + Jac val w p * (Jac val x p)⁻¹))) k d := by
  obtain ⟨inv, hinv, hT⟩ := (computeTangent_val val x (getTangent m 8 out)).2 T h
  have hpos := (tangent_defined val x (getTangent m 8 out)).mp ⟨T, h⟩
  have hI : ∀ p : Fin 8, Matrix.of (inv p) = (Jac val x p)⁻¹ := by
    intro p
    have h1 := hinv p
    rw [jacMat_spec] at h1
    exact (Matrix.inv_eq_right_inv h1).symm
  have e1 : ∀ (j : Fin 8) (e : Fin 3), T (3 * n + d) (3 * j + e) * w (3 * j + e)
      = ∑ p : Fin 8, (Jac val x p).det * ∑ k : Fin 6, strainOf (dNdx val (inv p) p n) d k *
        ∑ l : Fin 6, getTangent m 8 out (36 * p + 6 * k + l) * (w (3 * j + e) * strainOf (dNdx val (inv p) p j) e l) := by
    intro j e
    rw [hT n n.isLt j j.isLt d e, Finset.sum_mul]
    apply Finset.sum_congr rfl; intro p _
    rw [mul_assoc, Finset.sum_mul]
    congr 1
    apply Finset.sum_congr rfl; intro k _
    rw [Finset.sum_mul, Finset.mul_sum]
    apply Finset.sum_congr rfl; intro l _
    ring
  simp only [e1]
  have hs : ∀ (p : Fin 8) (k : Fin 6),
      ∑ j : Fin 8, ∑ e : Fin 3, w (3 * j + e) * strainOf (dNdx val (inv p) p j) e k
      = strainVec (Jac val w p * Matrix.of (inv p)) k := by
    intro p k
    have hg : ∀ a b : Fin 3, (Jac val w p * Matrix.of (inv p)) a b
        = ∑ n : Fin 8, w (3 * n + a) * dNdx val (inv p) p n b := by
      intro a b
      rw [Matrix.mul_apply]
      simp only [Jac, Matrix.of_apply, dNdx_eq, dtab_spec, Finset.mul_sum, Finset.sum_mul]
      rw [Finset.sum_comm]
      apply Finset.sum_congr rfl; intro n _
      apply Finset.sum_congr rfl; intro e _
      ring
    have e0 : ∀ n : Fin 8, ∑ d : Fin 3, w (3 * n + d) * strainOf (dNdx val (inv p) p n) d k
        = w (3 * n + (0 : Fin 3)) * strainOf (dNdx val (inv p) p n) 0 k
          + w (3 * n + (1 : Fin 3)) * strainOf (dNdx val (inv p) p n) 1 k
          + w (3 * n + (2 : Fin 3)) * strainOf (dNdx val (inv p) p n) 2 k :=
      fun n => Fin.sum_univ_three _
    rw [Finset.sum_congr rfl (fun n _ => e0 n)]
    fin_cases k <;> simp [strainVec, strainOf, hg, Finset.sum_add_distrib, add_comm]
  have e2 : ∑ j : Fin 8, ∑ e : Fin 3, ∑ p : Fin 8, (Jac val x p).det * ∑ k : Fin 6,
        strainOf (dNdx val (inv p) p n) d k * ∑ l : Fin 6, getTangent m 8 out (36 * p + 6 * k + l) *
          (w (3 * j + e) * strainOf (dNdx val (inv p) p j) e l)
      = ∑ p : Fin 8, (Jac val x p).det * ∑ k : Fin 6, strainOf (dNdx val (inv p) p n) d k *
        ∑ l : Fin 6, getTangent m 8 out (36 * p + 6 * k + l) * strainVec (Jac val w p * Matrix.of (inv p)) l := by
    simp only [← hs, Finset.mul_sum]
    rw [Finset.sum_congr rfl (fun j _ => Finset.sum_comm), Finset.sum_comm]
    apply Finset.sum_congr rfl; intro p _
    rw [Finset.sum_congr rfl (fun j _ => Finset.sum_comm), Finset.sum_comm]
    apply Finset.sum_congr rfl; intro k _
    rw [Finset.sum_congr rfl (fun j _ => Finset.sum_comm), Finset.sum_comm]
  rw [e2]
  apply Finset.sum_congr rfl; intro p _
  have hv : ∀ (g : Fin 3 → K) (s : Fin 6 → K), ∑ k : Fin 6, strainOf g d k * s k
      = ∑ e : Fin 3, g e * symMat s e d := by
    intro g s
    fin_cases d <;> simp [strainOf, symMat, Fin.sum_univ_six, Fin.sum_univ_three] <;> ring
  rw [hv, tangent_hooke m 8 out p p.isLt, hI p, Finset.mul_sum]
  have hadj : ∀ k e : Fin 3, (Jac val x p).det * inv p k e = (Jac val x p).adjugate k e := by
    intro k e
    have h1 := hI p
    rw [Matrix.inv_def] at h1
    have h2 := congrFun (congrFun h1 k) e
    simp only [Matrix.of_apply, Matrix.smul_apply, smul_eq_mul] at h2
    rw [h2, ← mul_assoc, Ring.mul_inverse_cancel _ (hpos p).ne'.isUnit, one_mul]
  simp only [Matrix.mul_apply, Finset.mul_sum]
  conv_rhs => rw [Finset.sum_comm]
  apply Finset.sum_congr rfl; intro e _
  rw [dNdx_eq, ← mul_assoc, Finset.mul_sum, Finset.sum_mul]
  apply Finset.sum_congr rfl; intro k _
  rw [dtab_spec, ← hadj]; ring

end NimbleSM.Hex

namespace NimbleSM.Assembly

open Matrix NimbleSM.Hex NimbleSM.Tensor NimbleSM.Constitutive

variable {K : Type*} [Field K] [LinearOrder K] [IsStrictOrderedRing K]

/-- The nodal forces of an elastic element. -/
theorem elastic_element_force (val : K) (b : Blk K) (m : Material K) (hlaw : b.law = fun F => some (elasticStress m F))
    (X u : ℕ → K) (e : ℕ) (f : ℕ → Fin 3 → K) (hf : elementForce val b X u e = some f) (n : Fin 8) (d : Fin 3) :
    f n d = - ∑ p : Fin 8, ∑ k : Fin 3, gradN n (gaussPt val p) k *
      ((Jac val (gather b e fun k => X k + u k) p).adjugate * hooke m.bulk m.shear (smallStrain
        (Jac val (gather b e fun k => X k + u k) p * (Jac val (gather b e X) p)⁻¹))) k d := by
  unfold elementForce at hf
  simp only [Option.bind_eq_bind, Option.bind_eq_some_iff] at hf
  obtain ⟨G, hG, σ, hσ, hf⟩ := hf
  have hJX := (deformation_gradients_defined val (gather b e X) (gather b e fun k => X k + u k)).mp ⟨G, hG⟩
  rw [nodal_forces_adjugate val _ σ f hf n d]
  congr 1
  apply Finset.sum_congr rfl; intro p _
  apply Finset.sum_congr rfl; intro k _
  have hunit : IsUnit (Jac val (gather b e X) p).det := (hJX p).ne'.isUnit
  have h1 := computeDeformationGradients_val val _ _ G hG p
  have hFt : Jac val (gather b e fun k => X k + u k) p * (Jac val (gather b e X) p)⁻¹ = fullMat (fun i : Fin 9 => G (9 * p + i)) := by
    rw [← h1, Matrix.mul_assoc, Matrix.mul_nonsing_inv _ hunit, Matrix.mul_one]
  obtain ⟨sig, hs, hv⟩ := (pointLoop_val _ 8 G _ σ hσ).1 p p.isLt
  rw [hlaw] at hs
  have hσp : (fun c : Fin 6 => σ (6 * p + c)) = elasticStress m (fun i : Fin 9 => G (9 * p + i)) := by
    funext c; rw [hv c, ← Option.some.inj hs]
  rw [hσp, elastic_stress_spec, hFt]

/-- The element positions along a straight path of displacements. -/
theorem path_jac (val : K) (b : Blk K) (e : ℕ) (X v : ℕ → K) (t : K) (p : Fin 8) :
    Jac val (gather b e fun k => X k + t * v k) p = Jac val (gather b e X) p + t • Jac val (gather b e v) p := by
  ext i j
  simp only [Jac, Matrix.of_apply, Matrix.add_apply, Matrix.smul_apply, smul_eq_mul, Finset.mul_sum, ← Finset.sum_add_distrib]
  apply Finset.sum_congr rfl; intro n _
  simp only [gather_val _ _ _ n.isLt]
  ring

theorem smallStrain_line (H : Matrix (Fin 3) (Fin 3) K) (t : K) : smallStrain (1 + t • H) = t • smallStrain (1 + H) := by
  ext i j
  simp only [smallStrain, Matrix.sub_apply, Matrix.smul_apply, Matrix.add_apply, Matrix.transpose_apply, smul_eq_mul]
  by_cases h : i = j
  · subst h; simp only [Matrix.one_apply_eq]; ring
  · simp only [Matrix.one_apply_ne h, Matrix.one_apply_ne (Ne.symm h)]; ring

theorem hooke_smul (k g t : K) (ε : Matrix (Fin 3) (Fin 3) K) : hooke k g (t • ε) = t • hooke k g ε := by
  ext i j
  simp only [hooke, Matrix.add_apply, Matrix.smul_apply, smul_eq_mul, Matrix.trace_smul]
  ring

end NimbleSM.Assembly
