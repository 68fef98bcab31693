import Verif.Assembly.CornerProps
import Verif.Assembly.TransformLawProps

/-!
# Rotated and mirrored meshes, with the elements in any order and listed from any corner

An isometry `x ↦ R x + o` (a rotation or a reflection) maps one mesh onto another, nodes by the numbering `π`, elements in any order,
corners by any listing of matching orientation.  Internal forces are then mapped by `R`, masses are the same.  Used for C122.
-/

open scoped BigOperators

namespace NimbleSM.Assembly

open Matrix NimbleSM.Hex NimbleSM.Tensor NimbleSM.Constitutive

variable {K : Type*} [Field K] [LinearOrder K] [IsStrictOrderedRing K]

/-! ## Specification -/

/-- The stress of `law'` at the mapped deformation gradient is the mapped stress of `law`, for deformation gradients in `D`. -/
def MapsStress (law law' : (Fin 9 → K) → Option (Fin 6 → K)) (D : Matrix (Fin 3) (Fin 3) K → Prop) (R : Matrix (Fin 3) (Fin 3) K) :
    Prop :=
  ∀ F F' σ, D (fullMat F) → fullMat F' * R = R * fullMat F → law F = some σ →
    ∃ σ', law' F' = some σ' ∧ symMat σ' = R * symMat σ * Rᵀ

/-- Element `be'` has the nodes `π n` for the nodes `n` of element `be`, listed by a symmetry of the cube: a rotation if `R` is a
rotation, a reflection if `R` is a reflection. -/
def MapsCorners (R : Matrix (Fin 3) (Fin 3) K) (π : ℕ → ℕ) (be be' : Blk K × ℕ) : Prop :=
  ∃ ρ, (R.det = 1 ∧ CubeRotation ρ ∨ R.det = -1 ∧ CubeReflection ρ) ∧
    ∀ n : Fin 8, be'.1.nodeId be'.2 (ρ n : Fin 8) = π (be.1.nodeId be.2 n)

/-- Element `be'` is the image of element `be`. -/
structure MapsElement (D : Matrix (Fin 3) (Fin 3) K → Prop) (R : Matrix (Fin 3) (Fin 3) K) (π : ℕ → ℕ) (be be' : Blk K × ℕ) :
    Prop where
  density : be'.1.density = be.1.density
  law : MapsStress be.1.law be'.1.law D R
  corners : MapsCorners R π be be'

/-- The elements of the second mesh are the images of the elements of the first, in any order and in any blocks. -/
def MapsMesh (D : Matrix (Fin 3) (Fin 3) K → Prop) (R : Matrix (Fin 3) (Fin 3) K) (π : ℕ → ℕ) (blocks blocks' : List (Blk K × List ℕ)) :
    Prop :=
  ∃ L, List.Forall₂ (MapsElement D R π) (elements blocks) L ∧ L.Perm (elements blocks')

/-- Positions `x'` of the nodes of the second mesh are the images of the positions `x` of the nodes of element `be` of the first. -/
def MapsPositions (R : Matrix (Fin 3) (Fin 3) K) (c : Fin 3 → K) (π : ℕ → ℕ) (x x' : ℕ → K) (be : Blk K × ℕ) : Prop :=
  ∀ n < 8, ∀ d : Fin 3, x' (3 * π (be.1.nodeId be.2 n) + d) = (∑ k : Fin 3, R d k * x (3 * be.1.nodeId be.2 n + k)) + c d

/-! ## One element -/

theorem MapsCorners.signed {R : Matrix (Fin 3) (Fin 3) K} {π : ℕ → ℕ} {be be' : Blk K × ℕ} (h : MapsCorners R π be be') :
    ∃ ρ τ s, CubeSymmetry ρ τ s ∧ R.det = (turn τ s : Matrix (Fin 3) (Fin 3) K).det ∧ R.det * R.det = 1 ∧
      ∀ n : Fin 8, be'.1.nodeId be'.2 (ρ n : Fin 8) = π (be.1.nodeId be.2 n) := by
  obtain ⟨ρ, h | h, hn⟩ := h
  · obtain ⟨h1, τ, s, h2, h3⟩ := h
    exact ⟨ρ, τ, s, h2, by rw [det_turn, h3, h1]; simp, by rw [h1]; ring, hn⟩
  · obtain ⟨h1, τ, s, h2, h3⟩ := h
    exact ⟨ρ, τ, s, h2, by rw [det_turn, h3, h1]; simp, by rw [h1]; ring, hn⟩

theorem mapped_jac {R : Matrix (Fin 3) (Fin 3) K} {c : Fin 3 → K} {π : ℕ → ℕ} {x x' : ℕ → K} {be be' : Blk K × ℕ}
    (hx : MapsPositions R c π x x' be) {ρ : Equiv.Perm (Fin 8)} {τ : Equiv.Perm (Fin 3)} {s : Fin 3 → ℤˣ} (hsym : CubeSymmetry ρ τ s)
    (hn : ∀ n : Fin 8, be'.1.nodeId be'.2 (ρ n : Fin 8) = π (be.1.nodeId be.2 n)) (val : K) (p : Fin 8) :
    Jac val (gather be'.1 be'.2 x') (ρ p) = R * Jac val (gather be.1 be.2 x) p * turn τ s := by
  let y : ℕ → K := fun k => if h : k / 3 < 8 then gather be'.1 be'.2 x' (3 * (ρ ⟨k / 3, h⟩ : Fin 8) + k % 3) else 0
  have hy : ∀ (n : Fin 8) (d : Fin 3), y (3 * n + d) = gather be'.1 be'.2 x' (3 * (ρ n : Fin 8) + d) := by
    intro n d
    have h1 : (3 * (n : ℕ) + d) / 3 = n := by omega
    have h2 : (3 * (n : ℕ) + d) % 3 = d := by omega
    simp only [y, h1, h2, n.isLt, dif_pos]
  rw [listed_jac hsym val (x := y) (fun n d => (hy n d).symm) p]
  congr 1
  refine Jac_affine val _ _ R c ?_ p
  intro n hn8 d
  have := hy ⟨n, hn8⟩ d
  simp only at this
  rw [this, gather_val _ _ _ (ρ ⟨n, hn8⟩).isLt, hn ⟨n, hn8⟩, hx n hn8 d]
  simp only [gather_val be.1 be.2 x hn8]

theorem isometry_adjugate {R : Matrix (Fin 3) (Fin 3) K} (hR : R * Rᵀ = 1) : R.adjugate = R.det • Rᵀ := by
  calc R.adjugate = R.adjugate * (R * Rᵀ) := by rw [hR, Matrix.mul_one]
    _ = R.det • Rᵀ := by rw [← Matrix.mul_assoc, Matrix.adjugate_mul, Matrix.smul_mul, Matrix.one_mul]

theorem element_force_mapped (val : K) (be be' : Blk K × ℕ) (X X' u u' : ℕ → K) (R : Matrix (Fin 3) (Fin 3) K) (hR : R * Rᵀ = 1)
    (a c : Fin 3 → K) (π : ℕ → ℕ) (D : Matrix (Fin 3) (Fin 3) K → Prop) (hE : MapsElement D R π be be')
    (hX : MapsPositions R a π X X' be) (hx : MapsPositions R c π (fun k => X k + u k) (fun k => X' k + u' k) be)
    (hD : Deforms val D be.1 be.2 X fun k => X k + u k) (f : ℕ → Fin 3 → K) (hf : elementForce val be.1 X u be.2 = some f) :
    ∃ f', elementForce val be'.1 X' u' be'.2 = some f' ∧ ∃ ρ : Equiv.Perm (Fin 8), 
      (∀ n : Fin 8, be'.1.nodeId be'.2 (ρ n : Fin 8) = π (be.1.nodeId be.2 n)) ∧
      ∀ (n : Fin 8) (d : Fin 3), f' (ρ n : Fin 8) d = ∑ k : Fin 3, R d k * f n k := by
  obtain ⟨ρ, τ, s, hsym, hdet, hdd, hn⟩ := hE.corners.signed
  unfold elementForce at hf
  simp only [Option.bind_eq_bind, Option.bind_eq_some_iff] at hf
  obtain ⟨G, hG, σ, hσ, hf⟩ := hf
  have hJX := (deformation_gradients_defined val (gather be.1 be.2 X) (gather be.1 be.2 fun k => X k + u k)).mp ⟨G, hG⟩
  have hJx := (nodal_forces_defined val _ σ).mp ⟨f, hf⟩
  have hpos : ∀ M : Matrix (Fin 3) (Fin 3) K, (R * M * (turn τ s : Matrix (Fin 3) (Fin 3) K)).det = M.det := by
    intro M
    rw [Matrix.det_mul, Matrix.det_mul, ← hdet]
    linear_combination M.det * hdd
  obtain ⟨G', hG'⟩ := (deformation_gradients_defined val (gather be'.1 be'.2 X') (gather be'.1 be'.2 fun k => X' k + u' k)).mpr
    (fun p => by
      obtain ⟨q, rfl⟩ := ρ.surjective p
      rw [mapped_jac hX hsym hn, hpos]; exact hJX q)
  have hFG : ∀ p : Fin 8, fullMat (fun i : Fin 9 => G' (9 * (ρ p : Fin 8) + i)) * R = R * fullMat (fun i : Fin 9 => G (9 * p + i)) := by
    intro p
    have h1 := computeDeformationGradients_val val _ _ G hG p
    have h2 := computeDeformationGradients_val val _ _ G' hG' (ρ p)
    rw [mapped_jac hX hsym hn, mapped_jac hx hsym hn, ← h1] at h2
    have hu : IsUnit (Jac val (gather be.1 be.2 X) p * (turn τ s : Matrix (Fin 3) (Fin 3) K)) := by
      rw [Matrix.isUnit_iff_isUnit_det, Matrix.det_mul, ← hdet]
      refine (mul_ne_zero (hJX p).ne' ?_).isUnit
      intro h0; rw [h0] at hdd; simp at hdd
    apply hu.mul_right_cancel
    simpa only [Matrix.mul_assoc] using h2
  have hpt := (pointLoop_val _ 8 G _ σ hσ).1
  have hpt' : ∀ p : Fin 8, ∃ sig', be'.1.law (fun i : Fin 9 => G' (9 * (ρ p : Fin 8) + i.val)) = some sig' ∧
      symMat sig' = R * symMat (fun c : Fin 6 => σ (6 * p + c)) * Rᵀ := by
    intro p
    obtain ⟨sig, hs, hv⟩ := hpt p p.isLt
    obtain ⟨sig', h1, h2⟩ := hE.law _ _ sig (hD p _ (computeDeformationGradients_val val _ _ G hG p)) (hFG p) hs
    refine ⟨sig', h1, ?_⟩
    rw [h2]
    congr 2
    congr 1
    funext c; exact (hv c).symm
  obtain ⟨σ', hσ'⟩ : ∃ σ', pointLoop be'.1.law 8 G' (fun _ => 0) = some σ' := by
    rw [← Option.isSome_iff_exists]
    unfold pointLoop
    rw [foldlM_isSome (fun pt => be'.1.law fun i => G' (9 * pt + i.val))
      (fun pt sig (out : ℕ → K) => (List.finRange 6).foldl (fun out c => put out (6 * pt + c.val) (sig c)) out)]
    intro pt hp
    obtain ⟨q, hq⟩ := ρ.surjective ⟨pt, List.mem_range.mp hp⟩
    obtain ⟨s, hs, -⟩ := hpt' q
    rw [hq] at hs
    exact Option.isSome_iff_exists.mpr ⟨s, hs⟩
  have hS : ∀ p : Fin 8, symMat (fun c : Fin 6 => σ' (6 * (ρ p : Fin 8) + c)) = R * symMat (fun c : Fin 6 => σ (6 * p + c)) * Rᵀ := by
    intro p
    obtain ⟨s1, hs1, hv1⟩ := hpt' p
    obtain ⟨s2, hs2, hv2⟩ := (pointLoop_val _ 8 G' _ σ' hσ').1 (ρ p) (ρ p).isLt
    rw [← hv1]
    congr 1
    funext c
    rw [hv2]
    rw [hs1] at hs2
    rw [Option.some.inj hs2]
  obtain ⟨f', hf'⟩ := (nodal_forces_defined val (gather be'.1 be'.2 fun k => X' k + u' k) σ').mpr (fun p => by
    obtain ⟨q, rfl⟩ := ρ.surjective p
    rw [mapped_jac hx hsym hn, hpos]; exact hJx q)
  refine ⟨f', by unfold elementForce; simp only [hG', Option.bind_eq_bind, Option.bind_some, hσ', hf'], ρ, hn, fun n d => ?_⟩
  rw [nodal_forces_adjugate val _ σ' f' hf' (ρ n) d]
  have hk : ∀ k, f n k = _ := fun k => nodal_forces_adjugate val _ σ f hf n k
  simp only [hk, mul_neg, Finset.sum_neg_distrib]
  congr 1
  rw [← Equiv.sum_comp ρ]
  have hT : (turn τ s : Matrix (Fin 3) (Fin 3) K) * (turn τ s)ᵀ = 1 := mul_eq_one_comm.mp (turn_transpose τ s)
  have hR' : Rᵀ * R = 1 := mul_eq_one_comm.mp hR
  have hM : ∀ p : Fin 8, (Jac val (gather be'.1 be'.2 fun k => X' k + u' k) (ρ p)).adjugate
        * symMat (fun c : Fin 6 => σ' (6 * (ρ p : Fin 8) + c))
      = (turn τ s)ᵀ * ((Jac val (gather be.1 be.2 fun k => X k + u k) p).adjugate * symMat (fun c : Fin 6 => σ (6 * p + c)) * Rᵀ) := by
    intro p
    rw [mapped_jac hx hsym hn, Matrix.adjugate_mul_distrib, Matrix.adjugate_mul_distrib, isometry_adjugate hR, isometry_adjugate hT,
      ← hdet, hS]
    generalize (Jac val (gather be.1 be.2 fun k => X k + u k) p).adjugate = J
    generalize symMat (fun c : Fin 6 => σ (6 * p + c)) = S
    simp only [Matrix.smul_mul, Matrix.mul_smul, smul_smul, hdd, one_smul]
    calc (turn τ s)ᵀ * (J * Rᵀ) * (R * S * Rᵀ) = (turn τ s)ᵀ * (J * (Rᵀ * R) * S * Rᵀ) := by simp only [Matrix.mul_assoc]
      _ = _ := by rw [hR', Matrix.mul_one]
  have hM2 : ∀ (M : Matrix (Fin 3) (Fin 3) K) (k : Fin 3), ((turn τ s : Matrix (Fin 3) (Fin 3) K)ᵀ * M) k d = ((s k : ℤ) : K) * M (τ k) d := by
    intro M k
    simp [Matrix.mul_apply, turn]
  simp only [hM, hM2, hsym.grad, Finset.mul_sum]
  rw [Finset.sum_comm (s := (Finset.univ : Finset (Fin 3)))]
  apply Finset.sum_congr rfl; intro p _
  generalize (Jac val (gather be.1 be.2 fun k => X k + u k) p).adjugate * symMat (fun c : Fin 6 => σ (6 * p + c)) = M
  conv_rhs => rw [Finset.sum_comm, ← Equiv.sum_comp τ]
  apply Finset.sum_congr rfl; intro k _
  rw [Matrix.mul_apply, Finset.mul_sum, Finset.mul_sum]
  apply Finset.sum_congr rfl; intro j _
  rw [Matrix.transpose_apply]
  linear_combination (gradN n (gaussPt val p) (τ k) * M (τ k) j * R d j) * sgn_sq (K := K) (s k)

/-! ## Meshes -/

theorem internal_force_elements (val : K) (X u F : ℕ → K) (blocks : List (Blk K × List ℕ))
    (h : computeInternalForce val X u blocks = some F) (n : ℕ) (d : Fin 3) :
    F (3 * n + d) = ((elements blocks).map fun be => (elementForce val be.1 X u be.2).elim 0 fun f =>
        ∑ c ∈ Finset.range 8, if be.1.nodeId be.2 c = n then f c d else 0).sum := by
  rw [internal_force_sum val X u F blocks h n d, elements, List.map_flatMap, Solver.sum_flatMap']
  simp only [List.map_map]
  rfl

theorem lumped_mass_elements (val : K) (X m : ℕ → K) (blocks : List (Blk K))
    (h : computeLumpedMassField val X blocks (fun _ => 0) = some m) (n : ℕ) :
    m n = ((elements (serial blocks)).map fun be => (computeLumpedMass val be.1.density (gather be.1 be.2 X)).elim 0 fun me =>
        ∑ c ∈ Finset.range 8, if be.1.nodeId be.2 c = n then me c else 0).sum := by
  rw [lumped_mass_sum val X _ m blocks h n, zero_add, elements, serial, List.map_flatMap, Solver.sum_flatMap']
  simp only [List.map_map]
  rfl

theorem mem_elements {blocks : List (Blk K × List ℕ)} {be : Blk K × ℕ} :
    be ∈ elements blocks ↔ ∃ b ∈ blocks, b.1 = be.1 ∧ be.2 ∈ b.2 := by
  simp only [elements, List.mem_flatMap, List.mem_map]
  constructor
  · rintro ⟨b, hb, e, he, rfl⟩; exact ⟨b, hb, rfl, he⟩
  · rintro ⟨b, hb, h1, h2⟩; exact ⟨b, hb, be.2, h2, by rw [h1]⟩

theorem forall₂_mem {α β : Type*} {r : α → β → Prop} {l : List α} {l' : List β} (h : List.Forall₂ r l l') {b : β} (hb : b ∈ l') :
    ∃ a ∈ l, r a b := by
  induction h with
  | nil => simp at hb
  | cons h1 _ ih =>
    rcases List.mem_cons.mp hb with rfl | hb
    · exact ⟨_, List.mem_cons_self, h1⟩
    · obtain ⟨a, ha, hr⟩ := ih hb
      exact ⟨a, List.mem_cons_of_mem _ ha, hr⟩

theorem forall₂_mem_left {α β : Type*} {r : α → β → Prop} {l : List α} {l' : List β} (h : List.Forall₂ r l l') :
    List.Forall₂ (fun a b => a ∈ l ∧ r a b) l l' := by
  induction h with
  | nil => exact .nil
  | cons h1 _ ih =>
    exact .cons ⟨List.mem_cons_self, h1⟩ (ih.imp fun a b h => ⟨List.mem_cons_of_mem _ h.1, h.2⟩)

theorem forall₂_map_sum {α β : Type*} {r : α → β → Prop} {l : List α} {l' : List β} (h : List.Forall₂ r l l') (φ : α → K) (ψ : β → K)
    (hr : ∀ a b, r a b → ψ b = φ a) : (l'.map ψ).sum = (l.map φ).sum := by
  induction h with
  | nil => rfl
  | cons h1 _ ih => simp only [List.map_cons, List.sum_cons, ih, hr _ _ h1]

/-- Sum over the corners of an element that are at node `n`. -/
theorem mapped_corner_sum {π : ℕ → ℕ} (hπ : Function.Injective π) {be be' : Blk K × ℕ} {ρ : Equiv.Perm (Fin 8)}
    (hn : ∀ n : Fin 8, be'.1.nodeId be'.2 (ρ n : Fin 8) = π (be.1.nodeId be.2 n)) (f f' : ℕ → K)
    (hf : ∀ c : Fin 8, f' (ρ c : Fin 8) = f c) (n : ℕ) :
    (∑ c ∈ Finset.range 8, if be'.1.nodeId be'.2 c = π n then f' c else 0)
      = ∑ c ∈ Finset.range 8, if be.1.nodeId be.2 c = n then f c else 0 := by
  rw [Finset.sum_range, Finset.sum_range, ← Equiv.sum_comp ρ]
  apply Finset.sum_congr rfl; intro c _
  rw [hn c, hf c]
  by_cases h : be.1.nodeId be.2 c = n
  · rw [if_pos (by rw [h]), if_pos h]
  · rw [if_neg (fun h' => h (hπ h')), if_neg h]

/-- **Forces of a rotated or mirrored mesh.** -/
theorem internal_force_mapped (val : K) (blocks blocks' : List (Blk K × List ℕ)) (R : Matrix (Fin 3) (Fin 3) K) (hR : R * Rᵀ = 1)
    (π : ℕ → ℕ) (hπ : Function.Injective π) (D : Matrix (Fin 3) (Fin 3) K → Prop) (hM : MapsMesh D R π blocks blocks')
    (X X' u u' : ℕ → K) (a c : Fin 3 → K) (hX : ∀ be ∈ elements blocks, MapsPositions R a π X X' be)
    (hx : ∀ be ∈ elements blocks, MapsPositions R c π (fun k => X k + u k) (fun k => X' k + u' k) be)
    (hD : ∀ be ∈ elements blocks, Deforms val D be.1 be.2 X fun k => X k + u k)
    (F : ℕ → K) (hF : computeInternalForce val X u blocks = some F) :
    ∃ F', computeInternalForce val X' u' blocks' = some F' ∧
      ∀ (n : ℕ) (d : Fin 3), F' (3 * π n + d) = ∑ k : Fin 3, R d k * F (3 * n + k) := by
  obtain ⟨L, hL, hperm⟩ := hM
  have hdef : ∀ be ∈ elements blocks, ∃ f, elementForce val be.1 X u be.2 = some f := by
    intro be hbe
    obtain ⟨b, hb, h1, h2⟩ := mem_elements.mp hbe
    rw [← h1]
    exact (internal_force_defined val X u blocks).mp ⟨F, hF⟩ b hb be.2 h2
  have hel : ∀ be be', be ∈ elements blocks → MapsElement D R π be be' → ∃ f f', elementForce val be.1 X u be.2 = some f ∧
      elementForce val be'.1 X' u' be'.2 = some f' ∧ ∃ ρ : Equiv.Perm (Fin 8),
      (∀ n : Fin 8, be'.1.nodeId be'.2 (ρ n : Fin 8) = π (be.1.nodeId be.2 n)) ∧
      ∀ (n : Fin 8) (d : Fin 3), f' (ρ n : Fin 8) d = ∑ k : Fin 3, R d k * f n k := by
    intro be be' hbe hE
    obtain ⟨f, hf⟩ := hdef be hbe
    obtain ⟨f', hf', h⟩ := element_force_mapped val be be' X X' u u' R hR a c π D hE (hX be hbe) (hx be hbe) (hD be hbe) f hf
    exact ⟨f, f', hf, hf', h⟩
  obtain ⟨F', hF'⟩ := (internal_force_defined val X' u' blocks').mpr (by
    intro b' hb' e he
    have hmem : (b'.1, e) ∈ L := hperm.mem_iff.mpr (mem_elements.mpr ⟨b', hb', rfl, he⟩)
    obtain ⟨be, hbe, hE⟩ := forall₂_mem hL hmem
    obtain ⟨-, f', -, hf', -⟩ := hel be _ hbe hE
    exact ⟨f', hf'⟩)
  refine ⟨F', hF', fun n d => ?_⟩
  rw [internal_force_elements val X' u' F' _ hF' (π n) d]
  simp only [internal_force_elements val X u F _ hF n]
  rw [← (hperm.map _).sum_eq]
  simp only [← List.sum_map_mul_left]
  rw [← sum_map_fin]
  refine forall₂_map_sum (forall₂_mem_left hL) _ _ ?_
  rintro be be' ⟨hbe, hE⟩
  obtain ⟨f, f', hf, hf', ρ, hn, hv⟩ := hel be be' hbe hE
  rw [hf, hf', Option.elim_some]
  simp only [Option.elim_some]
  rw [mapped_corner_sum hπ hn (fun c => ∑ k : Fin 3, R d k * f c k) (fun c => f' c d) (fun c => hv c d) n]
  simp only [Finset.mul_sum]
  rw [Finset.sum_comm]
  apply Finset.sum_congr rfl; intro c _
  by_cases h : be.1.nodeId be.2 c = n
  · simp [h]
  · simp [h]

/-- **Masses of a rotated or mirrored mesh.** -/
theorem lumped_mass_mapped (val : K) (blocks blocks' : List (Blk K)) (R : Matrix (Fin 3) (Fin 3) K)
    (π : ℕ → ℕ) (hπ : Function.Injective π) (D : Matrix (Fin 3) (Fin 3) K → Prop) (hM : MapsMesh D R π (serial blocks) (serial blocks'))
    (X X' : ℕ → K) (a : Fin 3 → K) (hX : ∀ be ∈ elements (serial blocks), MapsPositions R a π X X' be)
    (m : ℕ → K) (hm : computeLumpedMassField val X blocks (fun _ => 0) = some m) :
    ∃ m', computeLumpedMassField val X' blocks' (fun _ => 0) = some m' ∧ ∀ n, m' (π n) = m n := by
  obtain ⟨L, hL, hperm⟩ := hM
  have hdef : ∀ be ∈ elements (serial blocks), ∀ p : Fin 8, 0 < (Jac val (gather be.1 be.2 X) p).det := by
    intro be hbe p
    obtain ⟨b, hb, h1, h2⟩ := mem_elements.mp hbe
    simp only [serial, List.mem_map] at hb
    obtain ⟨b0, hb0, rfl⟩ := hb
    simp only at h1 h2
    rw [← h1]
    exact (lumped_mass_field_defined val X (fun _ => 0) blocks).mp ⟨m, hm⟩ b0 hb0 be.2 (List.mem_range.mp h2) p
  have hjac : ∀ be be', be ∈ elements (serial blocks) → MapsElement D R π be be' → ∃ ρ τ s, CubeSymmetry ρ τ s ∧
      (∀ n : Fin 8, be'.1.nodeId be'.2 (ρ n : Fin 8) = π (be.1.nodeId be.2 n)) ∧
      ∀ p : Fin 8, (Jac val (gather be'.1 be'.2 X') (ρ p)).det = (Jac val (gather be.1 be.2 X) p).det := by
    intro be be' hbe hE
    obtain ⟨ρ, τ, s, hsym, hdet, hdd, hn⟩ := hE.corners.signed
    refine ⟨ρ, τ, s, hsym, hn, fun p => ?_⟩
    rw [mapped_jac (hX be hbe) hsym hn, Matrix.det_mul, Matrix.det_mul, ← hdet]
    linear_combination (Jac val (gather be.1 be.2 X) p).det * hdd
  have hdef' : ∀ be' ∈ L, ∀ p : Fin 8, 0 < (Jac val (gather be'.1 be'.2 X') p).det := by
    intro be' hbe' p
    obtain ⟨be, hbe, hE⟩ := forall₂_mem hL hbe'
    obtain ⟨ρ, -, -, -, -, h⟩ := hjac be be' hbe hE
    obtain ⟨q, rfl⟩ := ρ.surjective p
    rw [h]; exact hdef be hbe q
  obtain ⟨m', hm'⟩ := (lumped_mass_field_defined val X' (fun _ => 0) blocks').mpr (by
    intro b' hb' e he p
    exact hdef' (b', e) (hperm.mem_iff.mpr (mem_elements.mpr ⟨(b', List.range b'.numElem), List.mem_map.mpr ⟨b', hb', rfl⟩, rfl,
      List.mem_range.mpr he⟩)) p)
  refine ⟨m', hm', fun n => ?_⟩
  rw [lumped_mass_elements val X' m' _ hm' (π n), lumped_mass_elements val X m _ hm n, ← (hperm.map _).sum_eq]
  have hL' := forall₂_mem_left hL
  refine forall₂_map_sum hL' _ _ ?_
  rintro be be' ⟨hbe, hE⟩
  obtain ⟨ρ, τ, s, hsym, hn, hJ⟩ := hjac be be' hbe hE
  obtain ⟨me, hme⟩ := (lumped_mass_defined val be.1.density (gather be.1 be.2 X)).mpr (hdef be hbe)
  obtain ⟨me', hme'⟩ := (lumped_mass_defined val be'.1.density (gather be'.1 be'.2 X')).mpr (by
    intro p
    obtain ⟨q, rfl⟩ := ρ.surjective p
    rw [hJ]; exact hdef be hbe q)
  rw [hme, hme', Option.elim_some, Option.elim_some]
  refine mapped_corner_sum hπ hn me me' (fun c => ?_) n
  rw [(computeLumpedMass_val val be.1.density (gather be.1 be.2 X)).2 me hme c,
    (computeLumpedMass_val val be'.1.density (gather be'.1 be'.2 X')).2 me' hme' (ρ c), hE.density]
  rw [← Equiv.sum_comp ρ]
  simp only [hJ, hsym.shape]

end NimbleSM.Assembly
