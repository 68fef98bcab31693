import Verif.Assembly.TransformProps
import Verif.Assembly.TimeStepProps
import Verif.Element.FaceProps
import Mathlib.LinearAlgebra.Matrix.Permutation

/-!
# C121: the corner from which an element is listed does not matter

Mesh generators list the eight corners of a hexahedron starting from any corner and along any edge.  The 24 orders that differ by a
rotation of the reference cube give the same internal forces, masses, volumes, volume averages and critical time step; the 24
orders that differ by a reflection are refused.
-/

open scoped BigOperators

namespace NimbleSM.Hex

open Matrix NimbleSM.Tensor

variable {K : Type*} [Field K] [LinearOrder K] [IsStrictOrderedRing K]

/-! ## Specification -/

/-- The renumbering `ρ` of the eight corners is the symmetry of the reference cube that permutes the axes by `τ` and turns some of
them around (`s`): corner `ρ n` is the image of corner `n`. -/
structure CubeSymmetry (ρ : Equiv.Perm (Fin 8)) (τ : Equiv.Perm (Fin 3)) (s : Fin 3 → ℤˣ) : Prop where
  image : ∀ (n : Fin 8) (d : Fin 3), cornerZ (ρ n) d = s d * cornerZ n (τ d)

/-- A symmetry of the reference cube that is a rotation: its determinant is one. -/
def CubeRotation (ρ : Equiv.Perm (Fin 8)) : Prop :=
  ∃ τ s, CubeSymmetry ρ τ s ∧ (Equiv.Perm.sign τ : ℤˣ) * ∏ d, s d = 1

/-- A symmetry of the reference cube that is not a rotation. -/
def CubeReflection (ρ : Equiv.Perm (Fin 8)) : Prop :=
  ∃ τ s, CubeSymmetry ρ τ s ∧ (Equiv.Perm.sign τ : ℤˣ) * ∏ d, s d = -1

/-! ## Shape functions -/

theorem CubeSymmetry.corner {ρ : Equiv.Perm (Fin 8)} {τ : Equiv.Perm (Fin 3)} {s : Fin 3 → ℤˣ} (h : CubeSymmetry ρ τ s) (n : Fin 8)
    (d : Fin 3) : (corner (ρ n) d : K) = ((s d : ℤ) : K) * corner n (τ d) := by
  rw [corner_cast, h.image, corner_cast n (τ d)]
  push_cast; ring

theorem sgn_sq (u : ℤˣ) : ((u : ℤ) : K) * ((u : ℤ) : K) = 1 := by
  rcases Int.units_eq_one_or u with h | h <;> simp [h]

theorem CubeSymmetry.factor {ρ : Equiv.Perm (Fin 8)} {τ : Equiv.Perm (Fin 3)} {s : Fin 3 → ℤˣ} (h : CubeSymmetry ρ τ s) (val : K)
    (n p : Fin 8) (d : Fin 3) : 1 + (Hex.corner (ρ n) d : K) * gaussPt val (ρ p) d
      = 1 + Hex.corner n (τ d) * gaussPt val p (τ d) := by
  simp only [gaussPt]
  rw [h.corner, h.corner]
  linear_combination (val * Hex.corner n (τ d) * Hex.corner p (τ d)) * sgn_sq (K := K) (s d)

/-- The shape functions turn with the cube. -/
theorem CubeSymmetry.shape {ρ : Equiv.Perm (Fin 8)} {τ : Equiv.Perm (Fin 3)} {s : Fin 3 → ℤˣ} (h : CubeSymmetry ρ τ s) (val : K)
    (n p : Fin 8) : N (ρ n) (gaussPt val (ρ p)) = N n (gaussPt val p) := by
  unfold N
  congr 1
  simp only [h.factor val n p]
  exact Equiv.prod_comp τ fun d => 1 + Hex.corner n d * gaussPt val p d

theorem CubeSymmetry.grad {ρ : Equiv.Perm (Fin 8)} {τ : Equiv.Perm (Fin 3)} {s : Fin 3 → ℤˣ} (h : CubeSymmetry ρ τ s) (val : K)
    (n p : Fin 8) (k : Fin 3) :
    gradN (ρ n) (gaussPt val (ρ p)) k = ((s k : ℤ) : K) * gradN n (gaussPt val p) (τ k) := by
  unfold gradN
  rw [h.corner]
  simp only [h.factor val n p]
  have : ∏ e ∈ Finset.univ.erase k, (1 + Hex.corner n (τ e) * gaussPt val p (τ e))
      = ∏ e ∈ Finset.univ.erase (τ k), (1 + Hex.corner n e * gaussPt val p e) := by
    refine Finset.prod_bij (fun e _ => τ e) ?_ ?_ ?_ ?_
    · intro e he
      simp only [Finset.mem_erase, Finset.mem_univ, and_true] at he ⊢
      exact fun h' => he (τ.injective h')
    · intro a _ b _ hab; exact τ.injective hab
    · intro b hb
      simp only [Finset.mem_erase, Finset.mem_univ, and_true] at hb
      refine ⟨τ.symm b, ?_, by simp⟩
      simp only [Finset.mem_erase, Finset.mem_univ, and_true]
      intro h'; exact hb (by rw [← h']; simp)
    · intro e _; rfl
  rw [this]; ring

/-- The signed permutation of the axes. -/
def turn (τ : Equiv.Perm (Fin 3)) (s : Fin 3 → ℤˣ) : Matrix (Fin 3) (Fin 3) K :=
  Matrix.of fun j k => if j = τ k then ((s k : ℤ) : K) else 0

theorem mul_turn (A : Matrix (Fin 3) (Fin 3) K) (τ : Equiv.Perm (Fin 3)) (s : Fin 3 → ℤˣ) (i k : Fin 3) :
    (A * (turn τ s : Matrix (Fin 3) (Fin 3) K)) i k = A i (τ k) * ((s k : ℤ) : K) := by
  simp [Matrix.mul_apply, turn]

theorem det_turn (τ : Equiv.Perm (Fin 3)) (s : Fin 3 → ℤˣ) :
    (turn τ s : Matrix (Fin 3) (Fin 3) K).det = (((Equiv.Perm.sign τ : ℤˣ) * ∏ d, s d : ℤˣ) : ℤ) := by
  have h : (turn τ s : Matrix (Fin 3) (Fin 3) K)
      = ((1 : Matrix (Fin 3) (Fin 3) K).submatrix id τ) * Matrix.diagonal fun k => ((s k : ℤ) : K) := by
    ext i k
    rw [Matrix.mul_diagonal]
    by_cases h : i = τ k
    · subst h; simp [turn, Matrix.submatrix, Matrix.one_apply]
    · simp [turn, h]
  rw [h, Matrix.det_mul, Matrix.det_permute', Matrix.det_diagonal]
  push_cast
  simp

theorem turn_transpose (τ : Equiv.Perm (Fin 3)) (s : Fin 3 → ℤˣ) :
    (turn τ s : Matrix (Fin 3) (Fin 3) K)ᵀ * turn τ s = 1 := by
  ext i k
  rw [mul_turn, Matrix.transpose_apply]
  by_cases h : i = k
  · subst h; simp [turn, sgn_sq]
  · simp only [turn, Matrix.of_apply, Matrix.one_apply_ne h]
    rw [if_neg (fun h' => h (τ.injective h').symm), zero_mul]

/-- The positions `x'` are the positions `x`, listed in the order `ρ`. -/
def Listed (ρ : Equiv.Perm (Fin 8)) (x x' : ℕ → K) : Prop :=
  ∀ (n : Fin 8) (d : Fin 3), x' (3 * (ρ n : Fin 8) + d) = x (3 * n + d)

theorem listed_jac {ρ : Equiv.Perm (Fin 8)} {τ : Equiv.Perm (Fin 3)} {s : Fin 3 → ℤˣ} (h : CubeSymmetry ρ τ s) (val : K)
    {x x' : ℕ → K} (hx : Listed ρ x x') (p : Fin 8) : Jac val x' (ρ p) = Jac val x p * turn τ s := by
  ext i k
  rw [mul_turn]
  simp only [Jac, Matrix.of_apply]
  rw [← Equiv.sum_comp ρ, Finset.sum_mul]
  apply Finset.sum_congr rfl; intro n _
  rw [hx, h.grad]; ring

theorem listed_det {ρ : Equiv.Perm (Fin 8)} {τ : Equiv.Perm (Fin 3)} {s : Fin 3 → ℤˣ} (h : CubeSymmetry ρ τ s)
    (hs : (Equiv.Perm.sign τ : ℤˣ) * ∏ d, s d = 1) (val : K)
    {x x' : ℕ → K} (hx : Listed ρ x x') (p : Fin 8) : (Jac val x' (ρ p)).det = (Jac val x p).det := by
  rw [listed_jac h val hx, Matrix.det_mul, det_turn, hs]; simp

theorem turn_adjugate (τ : Equiv.Perm (Fin 3)) (s : Fin 3 → ℤˣ) (hs : (Equiv.Perm.sign τ : ℤˣ) * ∏ d, s d = 1) :
    (turn τ s : Matrix (Fin 3) (Fin 3) K).adjugate = (turn τ s)ᵀ := by
  have h1 : (turn τ s : Matrix (Fin 3) (Fin 3) K) * (turn τ s)ᵀ = 1 := mul_eq_one_comm.mp (turn_transpose τ s)
  have h2 : (turn τ s : Matrix (Fin 3) (Fin 3) K).adjugate * (turn τ s * (turn τ s)ᵀ) = (turn τ s)ᵀ := by
    rw [← Matrix.mul_assoc, Matrix.adjugate_mul, det_turn, hs]; simp
  rwa [h1, Matrix.mul_one] at h2

theorem perm_inv {α : Type*} (π : Equiv.Perm α) (a : α) : π (π⁻¹ a) = a := Equiv.apply_symm_apply π a

/-! ## The symmetries form a group of 48 elements, one for each choice of `τ` and `s` -/

theorem CubeSymmetry.symm {ρ : Equiv.Perm (Fin 8)} {τ : Equiv.Perm (Fin 3)} {s : Fin 3 → ℤˣ} (h : CubeSymmetry ρ τ s) :
    CubeSymmetry ρ⁻¹ τ⁻¹ fun d => s (τ⁻¹ d) := by
  refine ⟨fun n d => ?_⟩
  have := h.image (ρ⁻¹ n) (τ⁻¹ d)
  rw [perm_inv, perm_inv] at this
  rw [this, ← mul_assoc]
  rcases Int.units_eq_one_or (s (τ⁻¹ d)) with h | h <;> simp [h]

theorem CubeSymmetry.comp {ρ ρ' : Equiv.Perm (Fin 8)} {τ τ' : Equiv.Perm (Fin 3)} {s s' : Fin 3 → ℤˣ} (h : CubeSymmetry ρ τ s)
    (h' : CubeSymmetry ρ' τ' s') : CubeSymmetry (ρ' * ρ) (τ * τ') fun d => s' d * s (τ' d) := by
  refine ⟨fun n d => ?_⟩
  rw [Equiv.Perm.mul_apply, h'.image, h.image, Equiv.Perm.mul_apply]
  push_cast; ring

theorem CubeRotation.symm {ρ : Equiv.Perm (Fin 8)} (h : CubeRotation ρ) : CubeRotation ρ⁻¹ := by
  obtain ⟨τ, s, h, hs⟩ := h
  refine ⟨_, _, h.symm, ?_⟩
  rw [Equiv.Perm.sign_inv, Equiv.prod_comp τ⁻¹ s, hs]

theorem CubeRotation.comp {ρ ρ' : Equiv.Perm (Fin 8)} (h : CubeRotation ρ) (h' : CubeRotation ρ') : CubeRotation (ρ' * ρ) := by
  obtain ⟨τ, s, h, hs⟩ := h
  obtain ⟨τ', s', h', hs'⟩ := h'
  refine ⟨_, _, h.comp h', ?_⟩
  rw [Finset.prod_mul_distrib, Equiv.prod_comp τ' s, Equiv.Perm.sign_mul]
  calc _ = (Equiv.Perm.sign τ * ∏ d, s d) * (Equiv.Perm.sign τ' * ∏ d, s' d) := by
        simp only [mul_assoc, mul_comm, mul_left_comm]
    _ = 1 := by rw [hs, hs', one_mul]

/-- Every permutation of the axes with every choice of directions is the symmetry of exactly one order of the corners. -/
theorem symmetry_exists (τ : Equiv.Perm (Fin 3)) (s : Fin 3 → ℤˣ) : ∃! ρ, CubeSymmetry ρ τ s := by
  have h1 : ∀ (τ : Equiv.Perm (Fin 3)) (s : Fin 3 → ℤˣ) (n : Fin 8), ∃ m : Fin 8, ∀ d, cornerZ m d = s d * cornerZ n (τ d) := by
    decide +kernel
  have h2 : ∀ m m' : Fin 8, (∀ d, cornerZ m d = cornerZ m' d) → m = m' := by decide +kernel
  choose g hg using h1 τ s
  have hinj : Function.Injective g := by
    intro a b hab
    refine h2 _ _ fun d => ?_
    have ha := hg a (τ⁻¹ d)
    have hb := hg b (τ⁻¹ d)
    rw [perm_inv] at ha hb
    rw [hab] at ha
    have := ha.symm.trans hb
    rcases Int.units_eq_one_or (s (τ⁻¹ d)) with h | h <;> simpa [h] using this
  refine ⟨Equiv.ofBijective g ((Finite.injective_iff_bijective).mp hinj), ⟨fun n d => hg n d⟩, ?_⟩
  intro ρ' h'
  ext1 n
  refine h2 _ _ fun d => ?_
  rw [h'.image]
  exact (hg n d).symm

/-! ## The characteristic length -/

theorem dist2_comm (x : ℕ → K) (n m : ℕ) : dist2 x n m = dist2 x m n := by
  unfold dist2
  apply Finset.sum_congr rfl; intro d _; ring

theorem dist2_self (x : ℕ → K) (n : ℕ) : dist2 x n n = 0 := by simp [dist2]

/-- The characteristic length does not depend on the order of the corners (any order). -/
theorem characteristic_length_listed (sqrt : K → K) (dmax : K) {ρ : Equiv.Perm (Fin 8)} {x x' : ℕ → K} (hx : Listed ρ x x') :
    computeCharacteristicLength sqrt dmax x' = computeCharacteristicLength sqrt dmax x := by
  have hlo : ∀ d : Fin 3, (List.range 8).foldl (fun a n => min a (x' (3 * n + d))) dmax
      = (List.range 8).foldl (fun a n => min a (x (3 * n + d))) dmax := by
    intro d
    apply eq_of_forall_le_iff
    intro c
    rw [le_foldl_min, le_foldl_min]
    refine and_congr_right fun _ => ⟨fun h n hn => ?_, fun h n hn => ?_⟩
    · rw [← hx ⟨n, List.mem_range.mp hn⟩ d]; exact h _ (List.mem_range.mpr (ρ _).isLt)
    · obtain ⟨q, hq⟩ := ρ.surjective ⟨n, List.mem_range.mp hn⟩
      have := hx q d
      rw [hq] at this
      simp only at this
      rw [this]; exact h _ (List.mem_range.mpr q.isLt)
  have hhi : ∀ d : Fin 3, (List.range 8).foldl (fun a n => max a (x' (3 * n + d))) 0
      = (List.range 8).foldl (fun a n => max a (x (3 * n + d))) 0 := by
    intro d
    apply eq_of_forall_ge_iff
    intro c
    rw [foldl_max_le, foldl_max_le]
    refine and_congr_right fun _ => ⟨fun h n hn => ?_, fun h n hn => ?_⟩
    · rw [← hx ⟨n, List.mem_range.mp hn⟩ d]; exact h _ (List.mem_range.mpr (ρ _).isLt)
    · obtain ⟨q, hq⟩ := ρ.surjective ⟨n, List.mem_range.mp hn⟩
      have := hx q d
      rw [hq] at this
      simp only at this
      rw [this]; exact h _ (List.mem_range.mpr q.isLt)
  have hdd : ∀ n m : Fin 8, dist2 x' (ρ n : Fin 8) (ρ m : Fin 8) = dist2 x n m := by
    intro n m
    unfold dist2
    apply Finset.sum_congr rfl; intro d _
    rw [hx, hx]
  have hdist : (List.range 8).foldl (fun a n => (List.range' (n + 1) (8 - (n + 1))).foldl
        (fun a m => min a (dist2 x' n m)) a) dmax
      = (List.range 8).foldl (fun a n => (List.range' (n + 1) (8 - (n + 1))).foldl
        (fun a m => min a (dist2 x n m)) a) dmax := by
    have key : ∀ (y : ℕ → K) (c : K), (∀ n ∈ List.range 8, ∀ m, n < m → m < 8 → c ≤ dist2 y n m)
        ↔ ∀ n m : Fin 8, n ≠ m → c ≤ dist2 y n m := by
      intro y c
      constructor
      · intro h n m hnm
        rcases lt_or_gt_of_ne hnm with h' | h'
        · exact h n (List.mem_range.mpr n.isLt) m h' m.isLt
        · rw [dist2_comm]; exact h m (List.mem_range.mpr m.isLt) n h' n.isLt
      · intro h n hn m hnm hm
        exact h ⟨n, List.mem_range.mp hn⟩ ⟨m, hm⟩ (fun h' => by simp at h'; omega)
    apply eq_of_forall_le_iff
    intro c
    rw [le_outer_min, le_outer_min, key, key]
    refine and_congr_right fun _ => ⟨fun h n m hnm => ?_, fun h n m hnm => ?_⟩
    · rw [← hdd]; exact h _ _ fun h' => hnm (ρ.injective h')
    · obtain ⟨a, rfl⟩ := ρ.surjective n
      obtain ⟨b, rfl⟩ := ρ.surjective m
      rw [hdd]; exact h _ _ fun h' => hnm (by rw [h'])
  have e0 := hlo 0
  have e1 := hlo 1
  have e2 := hlo 2
  have g0 := hhi 0
  have g1 := hhi 1
  have g2 := hhi 2
  simp only [Fin.val_zero, Fin.val_one, Fin.val_two, add_zero] at e0 e1 e2 g0 g1 g2
  unfold computeCharacteristicLength
  rw [outer_fold, outer_fold]
  simp only [hdist, e0, e1, e2, g0, g1, g2]

end NimbleSM.Hex

namespace NimbleSM.Assembly

open Matrix NimbleSM.Hex NimbleSM.Tensor NimbleSM.Constitutive

variable {K : Type*} [Field K] [LinearOrder K] [IsStrictOrderedRing K]

/-! ## Specification -/

/-- Block `b'` is block `b` with the corners of element `e` listed in the order `ρ`. -/
def ListedAs (b b' : Blk K) (e : ℕ) (ρ : Equiv.Perm (Fin 8)) : Prop :=
  ∀ n : Fin 8, b'.nodeId e (ρ n : Fin 8) = b.nodeId e n

/-- Block `b'` is block `b`, each element listed from any corner along any edge. -/
structure Relisted (b b' : Blk K) (elems : List ℕ) : Prop where
  density : b'.density = b.density
  bulk : b'.bulk = b.bulk
  law : b'.law = b.law
  numElem : b'.numElem = b.numElem
  corners : ∀ e ∈ elems, ∃ ρ, CubeRotation ρ ∧ ListedAs b b' e ρ

/-- The same mesh with the elements listed from other corners. -/
def RelistedMesh (blocks blocks' : List (Blk K × List ℕ)) : Prop :=
  List.Forall₂ (fun b b' => b'.2 = b.2 ∧ Relisted b.1 b'.1 b.2) blocks blocks'

/-! ## One element -/

theorem gather_listed {b b' : Blk K} {e : ℕ} {ρ : Equiv.Perm (Fin 8)} (h : ListedAs b b' e ρ) (x : ℕ → K) :
    Listed ρ (gather b e x) (gather b' e x) := by
  intro n d
  rw [gather_val _ _ _ (ρ n).isLt, gather_val _ _ _ n.isLt, h n]

theorem element_force_relisted (val : K) (b b' : Blk K) (e : ℕ) (ρ : Equiv.Perm (Fin 8)) (hρ : CubeRotation ρ)
    (h : ListedAs b b' e ρ) (hlaw : b'.law = b.law) (X u : ℕ → K) (f : ℕ → Fin 3 → K) (hf : elementForce val b X u e = some f) :
    ∃ f', elementForce val b' X u e = some f' ∧ ∀ (n : Fin 8) (d : Fin 3), f' (ρ n : Fin 8) d = f n d := by
  obtain ⟨τ, s, hsym, hs⟩ := hρ
  unfold elementForce at hf
  simp only [Option.bind_eq_bind, Option.bind_eq_some_iff] at hf
  obtain ⟨G, hG, σ, hσ, hf⟩ := hf
  have hJX := (deformation_gradients_defined val (gather b e X) (gather b e fun k => X k + u k)).mp ⟨G, hG⟩
  have hJx := (nodal_forces_defined val _ σ).mp ⟨f, hf⟩
  obtain ⟨G', hG'⟩ := (deformation_gradients_defined val (gather b' e X) (gather b' e fun k => X k + u k)).mpr (fun p => by
    obtain ⟨q, rfl⟩ := ρ.surjective p
    rw [listed_det hsym hs val (gather_listed h X)]; exact hJX q)
  have hFG : ∀ p : Fin 8, (fun i : Fin 9 => G' (9 * (ρ p : Fin 8) + i)) = fun i : Fin 9 => G (9 * p + i) := by
    intro p
    have h1 := computeDeformationGradients_val val _ _ G hG p
    have h2 := computeDeformationGradients_val val _ _ G' hG' (ρ p)
    rw [listed_jac hsym val (gather_listed h X), listed_jac hsym val (gather_listed h fun k => X k + u k), ← h1,
      ← Matrix.mul_assoc, Matrix.mul_assoc, Matrix.mul_assoc] at h2
    have hu : IsUnit (Jac val (gather b e X) p * (turn τ s : Matrix (Fin 3) (Fin 3) K)) := by
      rw [Matrix.isUnit_iff_isUnit_det, Matrix.det_mul, det_turn, hs]
      simpa using (hJX p).ne'
    have h3 := hu.mul_right_cancel h2
    exact fullMat_injective h3
  have hpt := (pointLoop_val _ 8 G _ σ hσ).1
  obtain ⟨σ', hσ'⟩ : ∃ σ', pointLoop b'.law 8 G' (fun _ => 0) = some σ' := by
    rw [← Option.isSome_iff_exists]
    unfold pointLoop
    rw [foldlM_isSome (fun pt => b'.law fun i => G' (9 * pt + i.val))
      (fun pt sig (out : ℕ → K) => (List.finRange 6).foldl (fun out c => put out (6 * pt + c.val) (sig c)) out)]
    intro pt hp
    obtain ⟨q, hq⟩ := ρ.surjective ⟨pt, List.mem_range.mp hp⟩
    obtain ⟨sg, hsg, -⟩ := hpt q q.isLt
    have := hFG q
    rw [hq] at this
    rw [hlaw, this, hsg]; rfl
  have hS : ∀ p : Fin 8, (fun c : Fin 6 => σ' (6 * (ρ p : Fin 8) + c)) = fun c : Fin 6 => σ (6 * p + c) := by
    intro p
    obtain ⟨s1, hs1, hv1⟩ := hpt p p.isLt
    obtain ⟨s2, hs2, hv2⟩ := (pointLoop_val _ 8 G' _ σ' hσ').1 (ρ p) (ρ p).isLt
    have hF := hFG p
    rw [hlaw, hF] at hs2
    have h12 : s2 = s1 := Option.some.inj (hs2.symm.trans hs1)
    funext c
    rw [hv1, hv2, h12]
  obtain ⟨f', hf'⟩ := (nodal_forces_defined val (gather b' e fun k => X k + u k) σ').mpr (fun p => by
    obtain ⟨q, rfl⟩ := ρ.surjective p
    rw [listed_det hsym hs val (gather_listed h _)]; exact hJx q)
  refine ⟨f', by unfold elementForce; simp only [hG', Option.bind_eq_bind, Option.bind_some, hσ', hf'], fun n d => ?_⟩
  rw [nodal_forces_adjugate val _ σ' f' hf' (ρ n) d, nodal_forces_adjugate val _ σ f hf n d]
  congr 1
  rw [← Equiv.sum_comp ρ]
  apply Finset.sum_congr rfl; intro p _
  rw [hS p, listed_jac hsym val (gather_listed h _), Matrix.adjugate_mul_distrib, turn_adjugate τ s hs, Matrix.mul_assoc]
  generalize (Jac val (gather b e fun k => X k + u k) p).adjugate * symMat (fun c : Fin 6 => σ (6 * p + c)) = M
  have hM : ∀ k, ((turn τ s : Matrix (Fin 3) (Fin 3) K)ᵀ * M) k d = ((s k : ℤ) : K) * M (τ k) d := by
    intro k
    simp [Matrix.mul_apply, turn]
  simp only [hM, hsym.grad]
  rw [← Equiv.sum_comp τ fun k => gradN n (gaussPt val p) k * M k d]
  apply Finset.sum_congr rfl; intro k _
  linear_combination (gradN n (gaussPt val p) (τ k) * M (τ k) d) * sgn_sq (K := K) (s k)

theorem ListedAs.symm {b b' : Blk K} {e : ℕ} {ρ : Equiv.Perm (Fin 8)} (h : ListedAs b b' e ρ) : ListedAs b' b e ρ⁻¹ := by
  intro n
  have := h (ρ⁻¹ n)
  rw [perm_inv] at this
  exact this.symm

theorem Relisted.symm {b b' : Blk K} {L : List ℕ} (h : Relisted b b' L) : Relisted b' b L :=
  ⟨h.density.symm, h.bulk.symm, h.law.symm, h.numElem.symm, fun e he => by
    obtain ⟨ρ, h1, h2⟩ := h.corners e he
    exact ⟨ρ⁻¹, h1.symm, h2.symm⟩⟩

theorem RelistedMesh.symm {blocks blocks' : List (Blk K × List ℕ)} (h : RelistedMesh blocks blocks') :
    RelistedMesh blocks' blocks := by
  unfold RelistedMesh at h ⊢
  induction h with
  | nil => exact List.Forall₂.nil
  | cons h _ ih => exact List.Forall₂.cons ⟨h.1.symm, by rw [h.1]; exact h.2.symm⟩ ih

/-- A sum over the corners at node `n`, in either order. -/
theorem corner_sum {b b' : Blk K} {e : ℕ} {ρ : Equiv.Perm (Fin 8)} (h : ListedAs b b' e ρ) (f f' : ℕ → K)
    (hf : ∀ c : Fin 8, f' (ρ c : Fin 8) = f c) (n : ℕ) :
    (∑ c ∈ Finset.range 8, if b'.nodeId e c = n then f' c else 0) = ∑ c ∈ Finset.range 8, if b.nodeId e c = n then f c else 0 := by
  rw [Finset.sum_range, Finset.sum_range, ← Equiv.sum_comp ρ]
  apply Finset.sum_congr rfl; intro c _
  rw [h c, hf c]

/-! ## Meshes -/

theorem internal_force_relisted_aux (val : K) (blocks blocks' : List (Blk K × List ℕ)) (h : RelistedMesh blocks blocks') (X u F : ℕ → K)
    (hF : computeInternalForce val X u blocks = some F) : computeInternalForce val X u blocks' = some F := by
  have hdef := (internal_force_defined val X u blocks).mp ⟨F, hF⟩
  have hel : ∀ (b b' : Blk K × List ℕ), (b'.2 = b.2 ∧ Relisted b.1 b'.1 b.2) → (∀ e ∈ b.2, ∃ f, elementForce val b.1 X u e = some f) →
      (∀ e ∈ b'.2, ∃ f, elementForce val b'.1 X u e = some f) ∧ ∀ n (d : Fin 3),
      (b'.2.map fun e => (elementForce val b'.1 X u e).elim 0 fun f =>
        ∑ c ∈ Finset.range 8, if b'.1.nodeId e c = n then f c d else 0).sum
      = (b.2.map fun e => (elementForce val b.1 X u e).elim 0 fun f =>
        ∑ c ∈ Finset.range 8, if b.1.nodeId e c = n then f c d else 0).sum := by
    intro b b' hbb hd
    obtain ⟨hL, hr⟩ := hbb
    rw [hL]
    refine ⟨fun e he => ?_, fun n d => ?_⟩
    · obtain ⟨ρ, h1, h2⟩ := hr.corners e he
      obtain ⟨f, hf⟩ := hd e he
      obtain ⟨f', hf', -⟩ := element_force_relisted val b.1 b'.1 e ρ h1 h2 hr.law X u f hf
      exact ⟨f', hf'⟩
    · refine congrArg List.sum (List.map_congr_left ?_)
      intro e he
      obtain ⟨ρ, h1, h2⟩ := hr.corners e he
      obtain ⟨f, hf⟩ := hd e he
      obtain ⟨f', hf', hv⟩ := element_force_relisted val b.1 b'.1 e ρ h1 h2 hr.law X u f hf
      rw [hf, hf', Option.elim_some, Option.elim_some]
      exact corner_sum h2 (fun c => f c d) (fun c => f' c d) (fun c => hv c d) n
  have hall : (∀ b ∈ blocks', ∀ e ∈ b.2, ∃ f, elementForce val b.1 X u e = some f) ∧ ∀ n (d : Fin 3),
      (blocks'.map fun b' => (b'.2.map fun e => (elementForce val b'.1 X u e).elim 0 fun f =>
        ∑ c ∈ Finset.range 8, if b'.1.nodeId e c = n then f c d else 0).sum).sum
      = (blocks.map fun b => (b.2.map fun e => (elementForce val b.1 X u e).elim 0 fun f =>
        ∑ c ∈ Finset.range 8, if b.1.nodeId e c = n then f c d else 0).sum).sum := by
    clear hF
    unfold RelistedMesh at h
    induction h with
    | nil => exact ⟨fun b hb => absurd hb List.not_mem_nil, fun _ _ => rfl⟩
    | cons h _ ih =>
      obtain ⟨i1, i2⟩ := ih fun b hb => hdef b (List.mem_cons_of_mem _ hb)
      obtain ⟨j1, j2⟩ := hel _ _ h (hdef _ List.mem_cons_self)
      refine ⟨fun b hb => ?_, fun n d => ?_⟩
      · rcases List.mem_cons.mp hb with rfl | hb
        · exact j1
        · exact i1 b hb
      · simp only [List.map_cons, List.sum_cons, i2 n d, j2 n d]
  obtain ⟨F', hF'⟩ := (internal_force_defined val X u blocks').mpr hall.1
  rw [hF']
  congr 1
  funext k
  obtain ⟨n, d, rfl⟩ := flat_form k
  rw [internal_force_sum val X u F' _ hF' n d, internal_force_sum val X u F _ hF n d, hall.2]

/-- **C121.**  The internal force (or the abort) is the same whichever corner and edge each element is listed from: for every mesh,
material law, coordinates and displacements. -/
theorem internal_force_relisted (val : K) (blocks blocks' : List (Blk K × List ℕ)) (h : RelistedMesh blocks blocks') (X u : ℕ → K) :
    computeInternalForce val X u blocks' = computeInternalForce val X u blocks := by
  rcases hF : computeInternalForce val X u blocks with _ | F
  · rcases hF' : computeInternalForce val X u blocks' with _ | F'
    · rfl
    · rw [internal_force_relisted_aux val blocks' blocks h.symm X u F' hF'] at hF; exact absurd hF (by simp)
  · exact internal_force_relisted_aux val blocks blocks' h X u F hF

/-- The mesh with all elements in their serial order. -/
def RelistedBlocks (blocks blocks' : List (Blk K)) : Prop :=
  List.Forall₂ (fun b b' => Relisted b b' (List.range b.numElem)) blocks blocks'

theorem RelistedBlocks.serial {blocks blocks' : List (Blk K)} (h : RelistedBlocks blocks blocks') :
    RelistedMesh (serial blocks) (Assembly.serial blocks') := by
  unfold RelistedBlocks at h
  unfold RelistedMesh Assembly.serial
  induction h with
  | nil => exact List.Forall₂.nil
  | cons h _ ih => exact List.Forall₂.cons ⟨by simp only [h.numElem], h⟩ ih

theorem RelistedBlocks.symm {blocks blocks' : List (Blk K)} (h : RelistedBlocks blocks blocks') : RelistedBlocks blocks' blocks := by
  unfold RelistedBlocks at h ⊢
  induction h with
  | nil => exact List.Forall₂.nil
  | cons h _ ih => exact List.Forall₂.cons (by rw [h.numElem]; exact h.symm) ih

theorem lumped_mass_relisted_aux (val : K) (blocks blocks' : List (Blk K)) (h : RelistedBlocks blocks blocks') (X m0 m : ℕ → K)
    (hm : computeLumpedMassField val X blocks m0 = some m) : computeLumpedMassField val X blocks' m0 = some m := by
  have hdef := (lumped_mass_field_defined val X m0 blocks).mp ⟨m, hm⟩
  have hel : ∀ (b b' : Blk K), Relisted b b' (List.range b.numElem) →
      (∀ e < b.numElem, ∀ p : Fin 8, 0 < (Jac val (gather b e X) p).det) →
      (∀ e < b'.numElem, ∀ p : Fin 8, 0 < (Jac val (gather b' e X) p).det) ∧ ∀ n,
      ((List.range b'.numElem).map fun e => (computeLumpedMass val b'.density (gather b' e X)).elim 0 fun me =>
        ∑ c ∈ Finset.range 8, if b'.nodeId e c = n then me c else 0).sum
      = ((List.range b.numElem).map fun e => (computeLumpedMass val b.density (gather b e X)).elim 0 fun me =>
        ∑ c ∈ Finset.range 8, if b.nodeId e c = n then me c else 0).sum := by
    intro b b' hr hd
    rw [hr.numElem]
    have hJ : ∀ e < b.numElem, ∀ p : Fin 8, 0 < (Jac val (gather b' e X) p).det := by
      intro e he p
      obtain ⟨ρ, ⟨τ, s, hsym, hs⟩, h2⟩ := hr.corners e (List.mem_range.mpr he)
      obtain ⟨q, rfl⟩ := ρ.surjective p
      rw [listed_det hsym hs val (gather_listed h2 X)]
      exact hd e he q
    refine ⟨hJ, fun n => ?_⟩
    refine congrArg List.sum (List.map_congr_left ?_)
    intro e he
    obtain ⟨ρ, ⟨τ, s, hsym, hs⟩, h2⟩ := hr.corners e he
    have he' := List.mem_range.mp he
    obtain ⟨me, hme⟩ := (lumped_mass_defined val b.density (gather b e X)).mpr (hd e he')
    obtain ⟨me', hme'⟩ := (lumped_mass_defined val b'.density (gather b' e X)).mpr (hJ e he')
    rw [hme, hme', Option.elim_some, Option.elim_some]
    refine corner_sum h2 me me' (fun c => ?_) n
    rw [(computeLumpedMass_val val _ _).2 me hme c, (computeLumpedMass_val val _ _).2 me' hme' (ρ c), hr.density]
    congr 1
    rw [← Equiv.sum_comp ρ]
    apply Finset.sum_congr rfl; intro p _
    rw [hsym.shape, listed_det hsym hs val (gather_listed h2 X)]
  have hall : (∀ b ∈ blocks', ∀ e < b.numElem, ∀ p : Fin 8, 0 < (Jac val (gather b e X) p).det) ∧ ∀ n,
      (blocks'.map fun b' => ((List.range b'.numElem).map fun e => (computeLumpedMass val b'.density (gather b' e X)).elim 0 fun me =>
        ∑ c ∈ Finset.range 8, if b'.nodeId e c = n then me c else 0).sum).sum
      = (blocks.map fun b => ((List.range b.numElem).map fun e => (computeLumpedMass val b.density (gather b e X)).elim 0 fun me =>
        ∑ c ∈ Finset.range 8, if b.nodeId e c = n then me c else 0).sum).sum := by
    clear hm
    unfold RelistedBlocks at h
    induction h with
    | nil => exact ⟨fun b hb => absurd hb List.not_mem_nil, fun _ => rfl⟩
    | cons h _ ih =>
      obtain ⟨i1, i2⟩ := ih fun b hb => hdef b (List.mem_cons_of_mem _ hb)
      obtain ⟨j1, j2⟩ := hel _ _ h (hdef _ List.mem_cons_self)
      refine ⟨fun b hb => ?_, fun n => ?_⟩
      · rcases List.mem_cons.mp hb with rfl | hb
        · exact j1
        · exact i1 b hb
      · simp only [List.map_cons, List.sum_cons, i2 n, j2 n]
  obtain ⟨m', hm'⟩ := (lumped_mass_field_defined val X m0 blocks').mpr hall.1
  rw [hm']
  congr 1
  funext n
  rw [lumped_mass_sum val X m0 m' _ hm' n, lumped_mass_sum val X m0 m _ hm n, hall.2]

/-- **C121.**  The lumped masses (or the abort) are the same whichever corner and edge each element is listed from. -/
theorem lumped_mass_relisted (val : K) (blocks blocks' : List (Blk K)) (h : RelistedBlocks blocks blocks') (X m0 : ℕ → K) :
    computeLumpedMassField val X blocks' m0 = computeLumpedMassField val X blocks m0 := by
  rcases hF : computeLumpedMassField val X blocks m0 with _ | F
  · rcases hF' : computeLumpedMassField val X blocks' m0 with _ | F'
    · rfl
    · rw [lumped_mass_relisted_aux val blocks' blocks h.symm X m0 F' hF'] at hF; exact absurd hF (by simp)
  · exact lumped_mass_relisted_aux val blocks blocks' h X m0 F hF

/-- **C121.**  The critical time step is the same. -/
theorem critical_time_step_relisted (sqrt : K → K) (dmax : K) (blocks blocks' : List (Blk K)) (h : RelistedBlocks blocks blocks')
    (X u : ℕ → K) : criticalTimeStep sqrt dmax X u blocks' = criticalTimeStep sqrt dmax X u blocks := by
  have hb : ∀ b b' : Blk K, Relisted b b' (List.range b.numElem) →
      blockCriticalTimeStep sqrt dmax X u b' = blockCriticalTimeStep sqrt dmax X u b := by
    intro b b' hr
    unfold blockCriticalTimeStep
    rw [hr.numElem, hr.density, hr.bulk]
    apply List.foldl_ext
    intro c e he
    obtain ⟨ρ, -, h2⟩ := hr.corners e he
    simp only [characteristic_length_listed sqrt dmax (gather_listed h2 fun k => X k + u k)]
  unfold criticalTimeStep
  have hf : ∀ start : K, blocks'.foldl (fun critical b => let block_critical := blockCriticalTimeStep sqrt dmax X u b
        if block_critical < critical then block_critical else critical) start
      = blocks.foldl (fun critical b => let block_critical := blockCriticalTimeStep sqrt dmax X u b
        if block_critical < critical then block_critical else critical) start := by
    unfold RelistedBlocks at h
    induction h with
    | nil => intro start; rfl
    | cons h _ ih =>
      intro start
      rw [List.foldl_cons, List.foldl_cons, hb _ _ h]
      exact ih _
  exact hf dmax

/-- **C121.**  The volume and the volume averages of an element are the same, with the data of the integration points listed in the
corresponding order. -/
theorem volume_average_relisted (val : K) (b b' : Blk K) (e : ℕ) (ρ : Equiv.Perm (Fin 8)) (hρ : CubeRotation ρ)
    (h : ListedAs b b' e ρ) (x q q' : ℕ → K) (nq : ℕ) (hq : ∀ (p : Fin 8) (i : ℕ), q' (nq * (ρ p : Fin 8) + i) = q (nq * p + i)) :
    computeVolumeAverage val (gather b' e x) nq q' = computeVolumeAverage val (gather b e x) nq q := by
  obtain ⟨τ, s, hsym, hs⟩ := hρ
  have hdet := fun p => listed_det hsym hs val (gather_listed h x) p
  obtain ⟨i1, i2⟩ := computeVolumeAverage_val val (gather b e x) q nq
  obtain ⟨j1, j2⟩ := computeVolumeAverage_val val (gather b' e x) q' nq
  have hiff : (computeVolumeAverage val (gather b' e x) nq q').isSome ↔ (computeVolumeAverage val (gather b e x) nq q).isSome := by
    rw [i1, j1]
    constructor
    · intro hp p; rw [← hdet]; exact hp _
    · intro hp p
      obtain ⟨q, rfl⟩ := ρ.surjective p
      rw [hdet]; exact hp _
  have hV : quadVolume val (gather b' e x) = quadVolume val (gather b e x) := by
    unfold quadVolume
    rw [← Equiv.sum_comp ρ]
    simp only [hdet]
  rcases h1 : computeVolumeAverage val (gather b e x) nq q with _ | ⟨V, A⟩ <;>
    rcases h2 : computeVolumeAverage val (gather b' e x) nq q' with _ | ⟨V', A'⟩
  · rfl
  · rw [h1, h2] at hiff; simp at hiff
  · rw [h1, h2] at hiff; simp at hiff
  · obtain ⟨a1, a2⟩ := i2 V A h1
    obtain ⟨b1, b2⟩ := j2 V' A' h2
    have : A' = A := by
      funext i
      rw [a2, b2, hV]
      congr 1
      rw [← Equiv.sum_comp ρ]
      apply Finset.sum_congr rfl; intro p _
      rw [hq, hdet]
    rw [this, a1, b1, hV]

/-- **C121.**  The element tangent is the same, its rows and columns listed in the corresponding order. -/
theorem tangent_relisted (val : K) (b b' : Blk K) (e : ℕ) (ρ : Equiv.Perm (Fin 8)) (hρ : CubeRotation ρ)
    (h : ListedAs b b' e ρ) (x C C' : ℕ → K)
    (hC : ∀ (p : Fin 8) (k l : Fin 6), C' (36 * (ρ p : Fin 8) + 6 * k + l) = C (36 * p + 6 * k + l))
    (T : ℕ → ℕ → K) (hT : computeTangent val (gather b e x) C = some T) :
    ∃ T', computeTangent val (gather b' e x) C' = some T' ∧ ∀ (m n : Fin 8) (i j : Fin 3),
      T' (3 * (ρ m : Fin 8) + i) (3 * (ρ n : Fin 8) + j) = T (3 * m + i) (3 * n + j) := by
  obtain ⟨τ, s, hsym, hs⟩ := hρ
  have hx := gather_listed h x
  have hJ := (tangent_defined val _ C).mp ⟨T, hT⟩
  obtain ⟨T', hT'⟩ := (tangent_defined val (gather b' e x) C').mpr (fun p => by
    obtain ⟨q, rfl⟩ := ρ.surjective p
    rw [listed_det hsym hs val hx]; exact hJ q)
  refine ⟨T', hT', fun m n i j => ?_⟩
  obtain ⟨inv, hi, hv⟩ := (computeTangent_val val _ C).2 T hT
  obtain ⟨inv', hi', hv'⟩ := (computeTangent_val val _ C').2 T' hT'
  have hinv : ∀ p k d, inv' (ρ p) k d = ((s k : ℤ) : K) * inv p (τ k) d := by
    intro p k d
    have h1 := hi p
    have h2 := hi' (ρ p)
    rw [jacMat_spec] at h1 h2
    rw [listed_jac hsym val hx] at h2
    have h3 : Jac val (gather b e x) p * ((turn τ s : Matrix (Fin 3) (Fin 3) K) * Matrix.of (inv' (ρ p)))
        = Jac val (gather b e x) p * Matrix.of (inv p) := by rw [← Matrix.mul_assoc, h2, h1]
    have hu : IsUnit (Jac val (gather b e x) p) := by
      rw [Matrix.isUnit_iff_isUnit_det]; exact (hJ p).ne'.isUnit
    have h4 := hu.mul_left_cancel h3
    have h5 : Matrix.of (inv' (ρ p)) = (turn τ s : Matrix (Fin 3) (Fin 3) K)ᵀ * Matrix.of (inv p) := by
      rw [← h4, ← Matrix.mul_assoc, turn_transpose, Matrix.one_mul]
    have h6 := congrFun (congrFun h5 k) d
    rw [Matrix.of_apply] at h6
    rw [h6]
    simp [Matrix.mul_apply, turn]
  have hN : ∀ p n : Fin 8, dNdx val (inv' (ρ p)) (ρ p : Fin 8) (ρ n : Fin 8) = dNdx val (inv p) p n := by
    intro p n
    funext d
    rw [dNdx_eq, dNdx_eq]
    simp only [dtab_spec, hsym.grad, hinv]
    rw [← Equiv.sum_comp τ fun k => gradN n (gaussPt val p) k * inv p k d]
    apply Finset.sum_congr rfl; intro k _
    linear_combination (gradN n (gaussPt val p) (τ k) * inv p (τ k) d) * sgn_sq (K := K) (s k)
  rw [hv m m.isLt n n.isLt, hv' (ρ m) (ρ m).isLt (ρ n) (ρ n).isLt, ← Equiv.sum_comp ρ]
  apply Finset.sum_congr rfl; intro p _
  rw [listed_det hsym hs val hx]
  simp only [hN, hC]

/-- **C121.**  An element listed in the order of a mirror image is refused: if the element is acceptable in one order, then with the
corners in the mirrored order neither masses nor forces are computed, whatever else is in the mesh. -/
theorem mirrored_refused (val : K) (b b' : Blk K) (e : ℕ) (ρ : Equiv.Perm (Fin 8)) (hρ : CubeReflection ρ)
    (h : ListedAs b b' e ρ) (X u : ℕ → K) (p : Fin 8) (hp : 0 < (Jac val (gather b e X) p).det) :
    (∀ (blocks : List (Blk K)) (m0 : ℕ → K), b' ∈ blocks → e < b'.numElem → computeLumpedMassField val X blocks m0 = none) ∧
    ∀ blocks : List (Blk K × List ℕ), ∀ L, (b', L) ∈ blocks → e ∈ L → computeInternalForce val X u blocks = none := by
  obtain ⟨τ, s, hsym, hs⟩ := hρ
  have hneg : ¬ 0 < (Jac val (gather b' e X) (ρ p)).det := by
    rw [listed_jac hsym val (gather_listed h X), Matrix.det_mul, det_turn, hs]
    push_cast
    linarith
  refine ⟨fun blocks m0 hb he => ?_, fun blocks L hb he => ?_⟩
  · rw [← Option.not_isSome_iff_eq_none, Option.isSome_iff_exists, lumped_mass_field_defined]
    intro h'; exact hneg (h' b' hb e he _)
  · rw [← Option.not_isSome_iff_eq_none, Option.isSome_iff_exists, internal_force_defined]
    intro h'
    obtain ⟨f, hf⟩ := h' (b', L) hb e he
    unfold elementForce at hf
    simp only [Option.bind_eq_bind, Option.bind_eq_some_iff] at hf
    obtain ⟨G, hG, -⟩ := hf
    exact hneg ((deformation_gradients_defined val _ _).mp ⟨G, hG⟩ _)

end NimbleSM.Assembly
