import Verif.Element.RigidLemmas
import Verif.Material.MaterialProps

/-!
# C129 (element part): the only displacements of an element without strain energy are rigid motions

Specification: a hexahedron has four edges along each of its three directions (`edge`); it is
`EdgesOriented` when any three edges, one per direction, form a right-handed frame.  Boxes,
parallelepipeds and moderately distorted bricks are; the condition does not mention integration
points.  The integration rule of the code (two points per direction) then leaves no hourglass mode:
the strain energy of a nodal displacement vanishes only for infinitesimal rigid motions.
-/

set_option linter.unusedSectionVars false
set_option linter.unusedSimpArgs false

namespace NimbleSM.Hex

open Matrix NimbleSM.Tensor

variable {K : Type*} [Field K] [LinearOrder K] [IsStrictOrderedRing K]

/-- The four edges along each direction: start and end node (Exodus numbering of the hexahedron). -/
def edge : Fin 3 → Fin 4 → ℕ × ℕ :=
  ![![(0, 1), (3, 2), (4, 5), (7, 6)], ![(0, 3), (1, 2), (4, 7), (5, 6)],
    ![(0, 4), (1, 5), (3, 7), (2, 6)]]

/-- Vector along an edge. -/
def edgeVec (x : ℕ → K) (d : Fin 3) (k : Fin 4) : Fin 3 → K := fun i =>
  x (3 * (edge d k).2 + i) - x (3 * (edge d k).1 + i)

/-- Any three edges, one along each direction, form a right-handed frame. -/
def EdgesOriented (x : ℕ → K) : Prop :=
  ∀ a b c : Fin 4, 0 < (Matrix.of ![edgeVec x 0 a, edgeVec x 1 b, edgeVec x 2 c]).det

/-- The nodal displacements `u` are an infinitesimal rigid motion of the element: a rotation (skew
matrix) applied to the nodal positions plus a translation. -/
def RigidMotion (x u : ℕ → K) : Prop :=
  ∃ (W : Matrix (Fin 3) (Fin 3) K) (c : Fin 3 → K), Wᵀ = -W ∧
    ∀ n, n < 8 → ∀ d : Fin 3, u (3 * n + d) = (∑ g : Fin 3, W d g * x (3 * n + g)) + c d

/-- The strain energy (twice) of nodal displacements `u` under an element stiffness `T`. -/
def energy (T : ℕ → ℕ → K) (u : ℕ → K) : K :=
  ∑ n : Fin 8, ∑ d : Fin 3, ∑ m : Fin 8, ∑ e : Fin 3,
    u (3 * n + d) * T (3 * n + d) (3 * m + e) * u (3 * m + e)

theorem det3_eq (a b c : Fin 3 → K) : (Matrix.of ![a, b, c]).det = det3 a b c := by
  rw [Matrix.det_fin_three]
  simp [det3]; ring

theorem weight_pos (val : K) (h1 : 0 < val) (h2 : val < 1) (b : Bool) :
    0 < 1 - sg b * val ∧ 0 < 1 + sg b * val := by
  cases b <;> simp only [sg] <;> constructor <;> linarith

theorem pos_comb (f : Fin 4 → K) (hf : ∀ k, 0 < f k) (a b c d : K) (ha : 0 < a) (hb : 0 < b)
    (hc : 0 < c) (hd : 0 < d) : 0 < 1 / 8 * (a * f 0 + b * f 1 + c * f 2 + d * f 3) := by
  have := hf 0; have := hf 1; have := hf 2; have := hf 3
  positivity

/-- Columns of the Jacobians at the Gauss points are right-handed in every combination. -/
theorem cols_pos (val : K) (h1 : 0 < val) (h2 : val < 1) (x : ℕ → K) (hx : EdgesOriented x)
    (r₁ s₁ t₁ r₂ s₂ t₂ r₃ s₃ t₃ : Bool) :
    0 < det3 (fun i => Jac val x (pt r₁ s₁ t₁) i 0) (fun i => Jac val x (pt r₂ s₂ t₂) i 1)
      (fun i => Jac val x (pt r₃ s₃ t₃) i 2) := by
  have w := weight_pos val h1 h2
  have E : ∀ a b c, 0 < det3 (edgeVec x 0 a) (edgeVec x 1 b) (edgeVec x 2 c) := fun a b c => by
    rw [← det3_eq]; exact hx a b c
  have step3 : ∀ a b, 0 < det3 (edgeVec x 0 a) (edgeVec x 1 b)
      (fun i => Jac val x (pt r₃ s₃ t₃) i 2) := by
    intro a b
    have := pos_comb (fun c => det3 (edgeVec x 0 a) (edgeVec x 1 b) (edgeVec x 2 c)) (E a b)
      _ _ _ _ (mul_pos (w r₃).1 (w s₃).1) (mul_pos (w r₃).2 (w s₃).1) (mul_pos (w r₃).1 (w s₃).2)
      (mul_pos (w r₃).2 (w s₃).2)
    refine this.trans_eq ?_
    simp only [Jac_col2, det3]
    generalize edgeVec x 0 a = A
    generalize edgeVec x 1 b = B
    simp only [edgeVec, edge, Matrix.cons_val_zero, Matrix.cons_val_one, Matrix.cons_val]
    ring
  have step2 : ∀ a, 0 < det3 (edgeVec x 0 a) (fun i => Jac val x (pt r₂ s₂ t₂) i 1)
      (fun i => Jac val x (pt r₃ s₃ t₃) i 2) := by
    intro a
    have := pos_comb (fun b => det3 (edgeVec x 0 a) (edgeVec x 1 b)
      (fun i => Jac val x (pt r₃ s₃ t₃) i 2)) (step3 a)
      _ _ _ _ (mul_pos (w r₂).1 (w t₂).1) (mul_pos (w r₂).2 (w t₂).1) (mul_pos (w r₂).1 (w t₂).2)
      (mul_pos (w r₂).2 (w t₂).2)
    refine this.trans_eq ?_
    generalize (fun i => Jac val x (pt r₃ s₃ t₃) i 2) = C
    simp only [Jac_col1, det3]
    generalize edgeVec x 0 a = A
    simp only [edgeVec, edge, Matrix.cons_val_zero, Matrix.cons_val_one, Matrix.cons_val]
    ring
  have := pos_comb (fun a => det3 (edgeVec x 0 a) (fun i => Jac val x (pt r₂ s₂ t₂) i 1)
      (fun i => Jac val x (pt r₃ s₃ t₃) i 2)) step2
      _ _ _ _ (mul_pos (w s₁).1 (w t₁).1) (mul_pos (w s₁).2 (w t₁).1) (mul_pos (w s₁).1 (w t₁).2)
      (mul_pos (w s₁).2 (w t₁).2)
  refine this.trans_eq ?_
  generalize (fun i => Jac val x (pt r₃ s₃ t₃) i 2) = C
  generalize (fun i => Jac val x (pt r₂ s₂ t₂) i 1) = B
  simp only [Jac_col0, det3]
  simp only [edgeVec, edge, Matrix.cons_val_zero, Matrix.cons_val_one, Matrix.cons_val]
  ring

/-- Every integration point of an oriented element has a positive Jacobian. -/
theorem oriented_jac_pos (val : K) (h1 : 0 < val) (h2 : val < 1) (x : ℕ → K) (hx : EdgesOriented x)
    (p : Fin 8) : 0 < (Jac val x p).det := by
  obtain ⟨r, s, t, rfl⟩ := pt_surj p
  refine (cols_pos val h1 h2 x hx r s t r s t r s t).trans_eq ?_
  rw [Matrix.det_fin_three]
  simp only [det3]; ring

/-- The stiffness of an oriented element is always computed, whatever the material tangent. -/
theorem oriented_tangent_defined (val : K) (h1 : 0 < val) (h2 : val < 1) (x C : ℕ → K)
    (hx : EdgesOriented x) : ∃ T, computeTangent val x C = some T :=
  (tangent_defined val x C).mpr (oriented_jac_pos val h1 h2 x hx)

/-- A skew displacement gradient acts as a cross product. -/
theorem skew_cross (G : Matrix (Fin 3) (Fin 3) K) (hG : ∀ a b, G a b + G b a = 0) (v : Fin 3 → K) :
    (fun i => ∑ e : Fin 3, G i e * v e) = cr ![G 2 1, G 0 2, G 1 0] v := by
  have d : ∀ a, G a a = 0 := fun a => by have := hG a a; linarith
  have h01 := hG 0 1
  have h12 := hG 1 2
  have h20 := hG 2 0
  funext i
  rw [Fin.sum_univ_three]
  fin_cases i
  · simp [cr, d]; linear_combination v 1 * h01
  · simp [cr, d]; linear_combination v 2 * h12
  · simp [cr, d]; linear_combination v 0 * h20

/-- **No hourglass modes.**  If the displacement gradient `Hₚ Jₚ⁻¹` is skew at the eight integration
points then the nodal displacements are a rigid motion. -/
theorem zero_strain_rigid (val : K) (h1 : 0 < val) (h2 : val < 1) (x u : ℕ → K)
    (hx : EdgesOriented x) (G : Fin 8 → Matrix (Fin 3) (Fin 3) K)
    (hG : ∀ p, G p * Jac val x p = Jac val u p) (hsk : ∀ p a b, G p a b + G p b a = 0) :
    RigidMotion x u := by
  have hcol : ∀ p j, (fun i => Jac val u p i j)
      = cr ![G p 2 1, G p 0 2, G p 1 0] (fun i => Jac val x p i j) := by
    intro p j
    rw [← skew_cross (G p) (hsk p)]
    funext i
    rw [← hG p, Matrix.mul_apply]
  have ind0 : ∀ (y : ℕ → K) r s t, (fun i => Jac val y (pt r s t) i 0)
      = fun i => Jac val y (pt true s t) i 0 := fun y r s t => by
    funext i; rw [Jac_col0, Jac_col0]
  have ind1 : ∀ (y : ℕ → K) r s t, (fun i => Jac val y (pt r s t) i 1)
      = fun i => Jac val y (pt r true t) i 1 := fun y r s t => by
    funext i; rw [Jac_col1, Jac_col1]
  have ind2 : ∀ (y : ℕ → K) r s t, (fun i => Jac val y (pt r s t) i 2)
      = fun i => Jac val y (pt r s true) i 2 := fun y r s t => by
    funext i; rw [Jac_col2, Jac_col2]
  have c12 : ∀ (y : ℕ → K) t i, Jac val y (pt true true t) i 0 - Jac val y (pt true false t) i 0
      = Jac val y (pt true true t) i 1 - Jac val y (pt false true t) i 1 := by
    intro y t i
    rw [Jac_col0, Jac_col0, Jac_col1, Jac_col1]; simp only [sg]; ring
  have c23 : ∀ (y : ℕ → K) r i, Jac val y (pt r true true) i 1 - Jac val y (pt r true false) i 1
      = Jac val y (pt r true true) i 2 - Jac val y (pt r false true) i 2 := by
    intro y r i
    rw [Jac_col1, Jac_col1, Jac_col2, Jac_col2]; simp only [sg]; ring
  have c31 : ∀ (y : ℕ → K) s i, Jac val y (pt true s true) i 2 - Jac val y (pt false s true) i 2
      = Jac val y (pt true s true) i 0 - Jac val y (pt true s false) i 0 := by
    intro y s i
    rw [Jac_col2, Jac_col2, Jac_col0, Jac_col0]; simp only [sg]; ring
  have hw := rotation_constant (fun s t i => Jac val x (pt true s t) i 0)
    (fun r t i => Jac val x (pt r true t) i 1) (fun r s i => Jac val x (pt r s true) i 2)
    (fun s t i => Jac val u (pt true s t) i 0)
    (fun r t i => Jac val u (pt r true t) i 1) (fun r s i => Jac val u (pt r s true) i 2)
    (fun r s t => ![G (pt r s t) 2 1, G (pt r s t) 0 2, G (pt r s t) 1 0])
    (fun r s t => by rw [← ind0 u r s t, hcol, ind0 x r s t])
    (fun r s t => by rw [← ind1 u r s t, hcol, ind1 x r s t])
    (fun r s t => by rw [← ind2 u r s t, hcol, ind2 x r s t])
    (fun t i => c12 x t i) (fun r i => c23 x r i) (fun s i => c31 x s i)
    (fun t i => c12 u t i) (fun r i => c23 u r i) (fun s i => c31 u s i)
    (fun a b c d e f => cols_pos val h1 h2 x hx _ _ _ _ _ _ _ _ _)
  have hGG : ∀ p, G p = G 0 := by
    intro p
    obtain ⟨r, s, t, rfl⟩ := pt_surj p
    have := hw r s t false false false
    have e0 : G (pt r s t) 2 1 = G 0 2 1 := congrFun this 0
    have e1 : G (pt r s t) 0 2 = G 0 0 2 := congrFun this 1
    have e2 : G (pt r s t) 1 0 = G 0 1 0 := congrFun this 2
    have k := hsk (pt r s t)
    have k0 := hsk 0
    ext a b
    fin_cases a <;> fin_cases b
    · show G (pt r s t) 0 0 = G 0 0 0
      have := k 0 0; have := k0 0 0; linarith
    · show G (pt r s t) 0 1 = G 0 0 1
      have := k 0 1; have := k0 0 1; linarith
    · exact e1
    · exact e2
    · show G (pt r s t) 1 1 = G 0 1 1
      have := k 1 1; have := k0 1 1; linarith
    · show G (pt r s t) 1 2 = G 0 1 2
      have := k 1 2; have := k0 1 2; linarith
    · show G (pt r s t) 2 0 = G 0 2 0
      have := k 2 0; have := k0 2 0; linarith
    · exact e0
    · show G (pt r s t) 2 2 = G 0 2 2
      have := k 2 2; have := k0 2 2; linarith
  -- the displacement minus the rotation is constant
  set W := G 0 with hWdef
  set y : ℕ → K := fun k => u k - ∑ g : Fin 3, W ⟨k % 3, Nat.mod_lt _ (by norm_num)⟩ g
    * x (3 * (k / 3) + g) with hy
  have yval : ∀ (n : ℕ) (d : Fin 3), y (3 * n + d) = u (3 * n + d) - ∑ g : Fin 3, W d g * x (3 * n + g) := by
    intro n d
    have e1 : (3 * n + d.val) / 3 = n := by omega
    have e2 : (⟨(3 * n + d.val) % 3, Nat.mod_lt _ (by norm_num)⟩ : Fin 3) = d := by
      apply Fin.ext; simp only; omega
    simp only [hy, e1, e2]
  have hJy : ∀ p, Jac val y p = 0 := by
    intro p
    have hp := hG p
    rw [hGG p] at hp
    ext i j
    have hij := congrFun (congrFun hp i) j
    rw [Matrix.mul_apply] at hij
    simp only [Jac, Matrix.of_apply] at hij ⊢
    simp only [yval, sub_mul, Finset.sum_sub_distrib, ← hij, Matrix.zero_apply]
    rw [sub_eq_zero]
    simp only [Finset.mul_sum, Finset.sum_mul]
    rw [Finset.sum_comm]
    apply Finset.sum_congr rfl; intro n _
    apply Finset.sum_congr rfl; intro e _
    ring
  have hc := Jac_zero_const val h1.ne' y hJy
  refine ⟨W, fun d => y d, ?_, ?_⟩
  · ext a b
    have := hsk 0 b a
    rw [Matrix.transpose_apply, Matrix.neg_apply]
    linarith
  · intro n hn d
    have := hc ⟨n, hn⟩ d
    rw [yval] at this
    show _ = _ + y d
    rw [← this]; ring

/-- The strain energy is the sum over the integration points of the energy of the strain there. -/
theorem energy_eq (val : K) (x C : ℕ → K) (T : ℕ → ℕ → K) (h : computeTangent val x C = some T)
    (u : ℕ → K) : ∃ G : Fin 8 → Matrix (Fin 3) (Fin 3) K,
      (∀ p, G p * Jac val x p = Jac val u p) ∧
      energy T u = ∑ p : Fin 8, (Jac val x p).det * ∑ k : Fin 6, ∑ l : Fin 6,
        strainVec (G p) k * C (36 * p + 6 * k + l) * strainVec (G p) l := by
  obtain ⟨inv, hinv, hT⟩ := (computeTangent_val val x C).2 T h
  refine ⟨fun p => Jac val u p * Matrix.of (inv p), ?_, ?_⟩
  · intro p
    have := mul_eq_one_comm.mp (hinv p)
    rw [jacMat_spec] at this
    rw [Matrix.mul_assoc, this, Matrix.mul_one]
  · have e1 : ∀ (n : Fin 8) (d : Fin 3) (m : Fin 8) (e : Fin 3),
        u (3 * n + d) * T (3 * n + d) (3 * m + e) * u (3 * m + e)
        = ∑ p : Fin 8, ∑ k : Fin 6, ∑ l : Fin 6, (Jac val x p).det *
          ((u (3 * n + d) * strainOf (dNdx val (inv p) p n) d k) * C (36 * p + 6 * k + l) *
            (u (3 * m + e) * strainOf (dNdx val (inv p) p m) e l)) := by
      intro n d m e
      rw [hT n n.isLt m m.isLt d e, Finset.mul_sum, Finset.sum_mul]
      apply Finset.sum_congr rfl; intro p _
      simp only [Finset.mul_sum, Finset.sum_mul]
      apply Finset.sum_congr rfl; intro k _
      apply Finset.sum_congr rfl; intro l _
      ring
    unfold energy
    simp only [e1]
    rw [energy_swap (fun n d p k => u (3 * n + d) * strainOf (dNdx val (inv p) p n) d k)
      (fun p => (Jac val x p).det) (fun p k l => C (36 * p + 6 * k + l))]
    have hs : ∀ (p : Fin 8) (k : Fin 6),
        ∑ n : Fin 8, ∑ d : Fin 3, u (3 * n + d) * strainOf (dNdx val (inv p) p n) d k
        = strainVec (Jac val u p * Matrix.of (inv p)) k := by
      intro p k
      have hg : ∀ a b : Fin 3, (Jac val u p * Matrix.of (inv p)) a b
          = ∑ n : Fin 8, u (3 * n + a) * dNdx val (inv p) p n b := by
        intro a b
        rw [Matrix.mul_apply]
        simp only [Jac, Matrix.of_apply, dNdx_eq, dtab_spec, Finset.mul_sum, Finset.sum_mul]
        rw [Finset.sum_comm]
        apply Finset.sum_congr rfl; intro n _
        apply Finset.sum_congr rfl; intro e _
        ring
      have e0 : ∀ n : Fin 8, ∑ d : Fin 3, u (3 * n + d) * strainOf (dNdx val (inv p) p n) d k
          = u (3 * n + (0 : Fin 3)) * strainOf (dNdx val (inv p) p n) 0 k
            + u (3 * n + (1 : Fin 3)) * strainOf (dNdx val (inv p) p n) 1 k
            + u (3 * n + (2 : Fin 3)) * strainOf (dNdx val (inv p) p n) 2 k :=
        fun n => Fin.sum_univ_three _
      rw [Finset.sum_congr rfl (fun n _ => e0 n)]
      fin_cases k <;> simp [strainVec, strainOf, hg, Finset.sum_add_distrib, add_comm]
    simp only [hs]

end NimbleSM.Hex

namespace NimbleSM.Constitutive

open NimbleSM.Hex

variable {K : Type*} [Field K] [LinearOrder K] [IsStrictOrderedRing K]

/-- For positive moduli only the zero strain has no energy. -/
theorem tangent_definite (m : Material K) (hk : 0 < m.bulk) (hg : 0 < m.shear) (num_pts : ℕ)
    (out : ℕ → K) (p : ℕ) (hp : p < num_pts) (ε : Fin 6 → K)
    (h : ∑ k : Fin 6, ∑ l : Fin 6, ε k * getTangent m num_pts out (36 * p + 6 * k + l) * ε l = 0) :
    ∀ k, ε k = 0 := by
  have hv : ∀ k l : Fin 6, getTangent m num_pts out (36 * p + 6 * k + l)
      = tangentEntry m (6 * k + l) := fun k l => by
    have := k.isLt; have := l.isLt
    rw [getTangent_val, if_pos (by omega)]
    congr 1; omega
  simp only [hv, Fin.sum_univ_six] at h
  simp [tangentEntry] at h
  have e : m.bulk * (ε 0 + ε 1 + ε 2) ^ 2 + m.shear * (2 / 3) * ((ε 0 - ε 1) ^ 2 + (ε 1 - ε 2) ^ 2
      + (ε 2 - ε 0) ^ 2) + m.shear * (ε 3 ^ 2 + ε 4 ^ 2 + ε 5 ^ 2) = 0 := by
    linear_combination h
  have hb : 0 ≤ m.bulk * (ε 0 + ε 1 + ε 2) ^ 2 := by positivity
  have h01 : 0 ≤ m.shear * (ε 0 - ε 1) ^ 2 := by positivity
  have h12 : 0 ≤ m.shear * (ε 1 - ε 2) ^ 2 := by positivity
  have h20 : 0 ≤ m.shear * (ε 2 - ε 0) ^ 2 := by positivity
  have h3 : 0 ≤ m.shear * ε 3 ^ 2 := by positivity
  have h4 : 0 ≤ m.shear * ε 4 ^ 2 := by positivity
  have h5 : 0 ≤ m.shear * ε 5 ^ 2 := by positivity
  have sq0 : ∀ c a : K, 0 < c → 0 ≤ c * a ^ 2 → c * a ^ 2 ≤ 0 → a = 0 := by
    intro c a hc h1 h2
    have := le_antisymm h2 h1
    rcases mul_eq_zero.mp this with h | h
    · exact absurd h hc.ne'
    · exact pow_eq_zero_iff (by norm_num) |>.mp h
  have z := sq0 _ _ hk hb (by linarith)
  have z1 := sq0 _ _ hg h01 (by linarith)
  have z2 := sq0 _ _ hg h12 (by linarith)
  have z3 := sq0 _ _ hg h3 (by linarith)
  have z4 := sq0 _ _ hg h4 (by linarith)
  have z5 := sq0 _ _ hg h5 (by linarith)
  intro k
  fin_cases k
  · show ε 0 = 0
    linarith
  · show ε 1 = 0
    linarith
  · show ε 2 = 0
    linarith
  · exact z3
  · exact z4
  · exact z5

/-- **C129.**  The stiffness of an oriented element with positive moduli has no zero-energy
displacement besides the rigid motions (and those have none). -/
theorem energy_zero_iff_rigid (m : Material K) (hk : 0 < m.bulk) (hg : 0 < m.shear) (val : K)
    (h1 : 0 < val) (h2 : val < 1) (x out u : ℕ → K) (hx : EdgesOriented x) (T : ℕ → ℕ → K)
    (h : computeTangent val x (getTangent m 8 out) = some T) :
    energy T u = 0 ↔ RigidMotion x u := by
  have hpos := oriented_jac_pos val h1 h2 x hx
  constructor
  · intro h0
    obtain ⟨G, hG, hE⟩ := energy_eq val x _ T h u
    rw [h0] at hE
    have hz := (Finset.sum_eq_zero_iff_of_nonneg (fun p _ => mul_nonneg (hpos p).le
      (tangent_psd m hk.le hg.le 8 out p p.isLt (strainVec (G p))))).mp hE.symm
    refine zero_strain_rigid val h1 h2 x u hx G hG ?_
    intro p
    have hp := tangent_definite m hk hg 8 out p p.isLt (strainVec (G p))
      ((mul_eq_zero.mp (hz p (Finset.mem_univ p))).resolve_left (hpos p).ne')
    have s0 : G p 0 0 = 0 := hp 0
    have s1 : G p 1 1 = 0 := hp 1
    have s2 : G p 2 2 = 0 := hp 2
    have s3 : G p 0 1 + G p 1 0 = 0 := hp 3
    have s4 : G p 1 2 + G p 2 1 = 0 := hp 4
    have s5 : G p 2 0 + G p 0 2 = 0 := hp 5
    intro a b
    fin_cases a <;> fin_cases b <;> simp only [Fin.zero_eta, Fin.mk_one, Fin.reduceFinMk] <;> linarith
  · rintro ⟨W, c, hW, hu⟩
    have hz := tangent_rigid_motion val x _ T h W hW c
    unfold energy
    apply Finset.sum_eq_zero; intro n _
    apply Finset.sum_eq_zero; intro d _
    have := hz (3 * n + d) (by omega)
    rw [Finset.sum_range] at this
    have e : ∑ m : Fin 8, ∑ e : Fin 3, u (3 * n + d) * T (3 * n + d) (3 * m + e) * u (3 * m + e)
        = u (3 * n + d) * ∑ m : Fin 8, ∑ e : Fin 3, T (3 * n + d) (3 * m + e) *
          ((∑ g : Fin 3, W e g * x (3 * m + g)) + c e) := by
      simp only [Finset.mul_sum]
      apply Finset.sum_congr rfl; intro m _
      apply Finset.sum_congr rfl; intro e _
      rw [hu m m.isLt e]; ring
    rw [e, this, mul_zero]

/-- The sheared cube of the earlier examples is oriented, and the theorem separates a rigid rotation
from an hourglass displacement of it. -/
theorem demo_oriented : EdgesOriented (demo : ℕ → ℚ) := by
  intro a b c
  rw [Hex.det3_eq]
  revert a b c
  decide +kernel

/-- An hourglass displacement of the cube: the `x` component is `±1` as in `(2r-1)(2s-1)`. -/
def hourglass : ℕ → ℚ
  | 0 => 1 | 3 => -1 | 6 => 1 | 9 => -1 | 12 => 1 | 15 => -1 | 18 => 1 | 21 => -1 | _ => 0

/-- It is no rigid motion, so it has energy under the code's rule; a rule with one point per element
(`val = 0`) would give it none. -/
theorem hourglass_not_rigid : ¬ RigidMotion (demo : ℕ → ℚ) hourglass := by
  rintro ⟨W, c, hW, h⟩
  have h0 := h 0 (by norm_num) 0
  have h1 := h 1 (by norm_num) 0
  have h2 := h 2 (by norm_num) 0
  have h3 := h 3 (by norm_num) 0
  simp [Fin.sum_univ_three, demo, hourglass] at h0 h1 h2 h3
  linarith

/-- The energy criterion on the example, with the code's integration rule. -/
theorem hourglass_has_energy (m : Material ℚ) (hk : 0 < m.bulk) (hg : 0 < m.shear) (out : ℕ → ℚ) :
    ∃ T, computeTangent gaussVal demo (getTangent m 8 out) = some T ∧ energy T hourglass ≠ 0 := by
  have v1 : (0 : ℚ) < gaussVal := by unfold gaussVal; norm_num
  have v2 : (gaussVal : ℚ) < 1 := by unfold gaussVal; norm_num
  obtain ⟨T, hT⟩ := oriented_tangent_defined gaussVal v1 v2 demo (getTangent m 8 out) demo_oriented
  exact ⟨T, hT, fun h0 => hourglass_not_rigid
    ((energy_zero_iff_rigid m hk hg gaussVal v1 v2 demo out hourglass demo_oriented T hT).mp h0)⟩

/-- With a single integration point at the centre the hourglass displacement would have zero gradient
at it: the statement above depends on the two-point rule. -/
theorem one_point_rule_blind : ∀ p, Jac 0 hourglass p = 0 := by
  intro p
  ext i j
  simp only [Jac, Matrix.of_apply]
  rw [show gaussPt (0 : ℚ) p = fun _ => 0 by funext d; simp [gaussPt], Matrix.zero_apply]
  revert i j
  decide +kernel

end NimbleSM.Constitutive
