import Verif.Assembly.PatchProps
import Verif.Element.QuadratureProps

/-!
# C114-C117, forces and masses of transformed meshes

Two meshes with corresponding elements: the reference coordinates of the second are those of the first under an affine map with
linear part `P`, the current coordinates under an affine map with linear part `Q`.  With the corresponding stresses the nodal
forces correspond as well.  Changing the axes (`P = Q` a rotation), moving the deformed body (`P = 1`), changing the unit of
length (`P = Q = s`) and renumbering the nodes (`P = Q = 1`) are special cases.
-/

open scoped BigOperators

namespace NimbleSM.Hex

open Matrix NimbleSM.Tensor

variable {K : Type*} [Field K] [LinearOrder K] [IsStrictOrderedRing K]

/-- The nodal forces in terms of adjugates. -/
theorem nodal_forces_adjugate (val : K) (x σ : ℕ → K) (f : ℕ → Fin 3 → K) (h : computeNodalForces val x σ = some f) (n : Fin 8)
    (d : Fin 3) :
    f n d = - ∑ p : Fin 8, ∑ k : Fin 3, gradN n (gaussPt val p) k *
      ((Jac val x p).adjugate * symMat (fun c : Fin 6 => σ (6 * p + c))) k d := by
  obtain ⟨inv, hpos, hinv, hval'⟩ := computeNodalForces_val val x σ f h
  rw [hval' n n.isLt d]
  congr 1
  have hadj : ∀ (p : Fin 8) (k e : Fin 3), (Jac val x p).det * inv p k e = (Jac val x p).adjugate k e := by
    intro p k e
    have h1 := hinv p
    rw [jacMat_spec] at h1
    have h2 : (Jac val x p).adjugate * (Jac val x p * Matrix.of (inv p)) = (Jac val x p).adjugate := by rw [h1, Matrix.mul_one]
    rw [← Matrix.mul_assoc, Matrix.adjugate_mul, Matrix.smul_mul, Matrix.one_mul] at h2
    have := congrFun (congrFun h2 k) e
    simpa using this
  apply Finset.sum_congr rfl; intro p _
  simp only [Matrix.mul_apply, Finset.mul_sum]
  rw [Finset.sum_comm]
  apply Finset.sum_congr rfl; intro e _
  rw [dNdx_eq, ← mul_assoc, Finset.mul_sum, Finset.sum_mul]
  apply Finset.sum_congr rfl; intro k _
  rw [dtab_spec, ← hadj]; ring

end NimbleSM.Hex

namespace NimbleSM.Assembly

open Matrix NimbleSM.Hex NimbleSM.Tensor NimbleSM.Constitutive

variable {K : Type*} [Field K] [LinearOrder K] [IsStrictOrderedRing K]

/-! ## Specification -/

/-- The positions `x'` of the nodes of element `e'` of `b'` are the positions `x` of the nodes of element `e` of `b` under the map
`A · + c`. -/
def Moved (b b' : Blk K) (e e' : ℕ) (x x' : ℕ → K) (A : Matrix (Fin 3) (Fin 3) K) (c : Fin 3 → K) : Prop :=
  ∀ n < 8, ∀ d : Fin 3, x' (3 * b'.nodeId e' n + d) = (∑ k : Fin 3, A d k * x (3 * b.nodeId e n + k)) + c d

/-- The stresses of the laws `law` and `law'` at corresponding deformation gradients correspond, for deformation gradients in
`D`. -/
def Corresponding (law law' : (Fin 9 → K) → Option (Fin 6 → K)) (D : Matrix (Fin 3) (Fin 3) K → Prop)
    (P Q T : Matrix (Fin 3) (Fin 3) K) : Prop :=
  ∀ F F' σ, D (fullMat F) → fullMat F' * P = Q * fullMat F → law F = some σ →
    ∃ σ', law' F' = some σ' ∧ Q.det • symMat σ' = Q * symMat σ * T

/-- All deformation gradients of element `e` of `b`, reference positions `X`, current positions `x`, are in `D`. -/
def Deforms (val : K) (D : Matrix (Fin 3) (Fin 3) K → Prop) (b : Blk K) (e : ℕ) (X x : ℕ → K) : Prop :=
  ∀ (p : Fin 8) (F : Matrix (Fin 3) (Fin 3) K), F * Jac val (gather b e X) p = Jac val (gather b e x) p → D F

/-! ## One element -/

theorem moved_jac (val : K) {b b' : Blk K} {e e' : ℕ} {x x' : ℕ → K} {A : Matrix (Fin 3) (Fin 3) K} {c : Fin 3 → K}
    (h : Moved b b' e e' x x' A c) (p : Fin 8) : Jac val (gather b' e' x') p = A * Jac val (gather b e x) p := by
  refine Jac_affine val _ _ A c ?_ p
  intro n hn d
  rw [gather_val _ _ _ hn, h n hn d]
  simp only [gather_val b e x hn]

/-- The element force of the transformed element. -/
theorem element_force_transformed (val : K) (b b' : Blk K) (e e' : ℕ) (X X' u u' : ℕ → K) (P Q T : Matrix (Fin 3) (Fin 3) K)
    (a c : Fin 3 → K) (hP : 0 < P.det) (hQ : 0 < Q.det)
    (hX : Moved b b' e e' X X' P a) (hx : Moved b b' e e' (fun k => X k + u k) (fun k => X' k + u' k) Q c)
    (D : Matrix (Fin 3) (Fin 3) K → Prop) (hD : Deforms val D b e X fun k => X k + u k) (hlaw : Corresponding b.law b'.law D P Q T)
    (f : ℕ → Fin 3 → K) (hf : elementForce val b X u e = some f) :
    ∃ f', elementForce val b' X' u' e' = some f' ∧ ∀ n < 8, ∀ d : Fin 3, f' n d = ∑ k : Fin 3, f n k * T k d := by
  unfold elementForce at hf
  simp only [Option.bind_eq_bind, Option.bind_eq_some_iff] at hf
  obtain ⟨G, hG, σ, hσ, hf⟩ := hf
  have hJX := (deformation_gradients_defined val (gather b e X) (gather b e fun k => X k + u k)).mp ⟨G, hG⟩
  have hJx := (nodal_forces_defined val _ σ).mp ⟨f, hf⟩
  obtain ⟨G', hG'⟩ := (deformation_gradients_defined val (gather b' e' X') (gather b' e' fun k => X' k + u' k)).mpr (fun p => by
    rw [moved_jac val hX p, Matrix.det_mul]; exact mul_pos hP (hJX p))
  have hFG : ∀ p : Fin 8, fullMat (fun i : Fin 9 => G' (9 * p + i)) * P = Q * fullMat (fun i : Fin 9 => G (9 * p + i)) := by
    intro p
    have h1 := computeDeformationGradients_val val _ _ G hG p
    have h2 := computeDeformationGradients_val val _ _ G' hG' p
    rw [moved_jac val hX p, moved_jac val hx p, ← h1, ← Matrix.mul_assoc, ← Matrix.mul_assoc] at h2
    have hu : IsUnit (Jac val (gather b e X) p) := by
      rw [Matrix.isUnit_iff_isUnit_det]; exact (hJX p).ne'.isUnit
    exact hu.mul_right_cancel h2
  have hpt := (pointLoop_val _ 8 G _ σ hσ).1
  have hpt' : ∀ p : Fin 8, ∃ sig', b'.law (fun i : Fin 9 => G' (9 * p + i.val)) = some sig' ∧
      Q.det • symMat sig' = Q * symMat (fun c : Fin 6 => σ (6 * p + c)) * T := by
    intro p
    obtain ⟨sig, hs, hv⟩ := hpt p p.isLt
    obtain ⟨sig', h1, h2⟩ := hlaw _ _ sig (hD p _ (computeDeformationGradients_val val _ _ G hG p)) (hFG p) hs
    refine ⟨sig', h1, ?_⟩
    rw [h2]
    congr 2
    congr 1
    funext c; exact (hv c).symm
  obtain ⟨σ', hσ'⟩ : ∃ σ', pointLoop b'.law 8 G' (fun _ => 0) = some σ' := by
    rw [← Option.isSome_iff_exists]
    unfold pointLoop
    rw [foldlM_isSome (fun pt => b'.law fun i => G' (9 * pt + i.val))
      (fun pt sig (out : ℕ → K) => (List.finRange 6).foldl (fun out c => put out (6 * pt + c.val) (sig c)) out)]
    intro pt hp
    obtain ⟨s, hs, -⟩ := hpt' ⟨pt, List.mem_range.mp hp⟩
    exact Option.isSome_iff_exists.mpr ⟨s, hs⟩
  obtain ⟨f', hf'⟩ := (nodal_forces_defined val (gather b' e' fun k => X' k + u' k) σ').mpr (fun p => by
    rw [moved_jac val hx p, Matrix.det_mul]; exact mul_pos hQ (hJx p))
  refine ⟨f', by unfold elementForce; simp only [hG', Option.bind_eq_bind, Option.bind_some, hσ', hf'], fun n hn d => ?_⟩
  have hS : ∀ p : Fin 8, Q.adjugate * symMat (fun c : Fin 6 => σ' (6 * p + c)) = symMat (fun c : Fin 6 => σ (6 * p + c)) * T := by
    intro p
    obtain ⟨s, hs, hv⟩ := hpt' p
    obtain ⟨s2, hs2, hv2⟩ := (pointLoop_val _ 8 G' _ σ' hσ').1 p p.isLt
    have e1 : (fun c : Fin 6 => σ' (6 * p + c)) = s := by
      funext c
      rw [hv2]
      rw [hs] at hs2
      rw [Option.some.inj hs2]
    rw [e1]
    have h3 : Q.det • (Q.adjugate * symMat s) = Q.det • (symMat (fun c : Fin 6 => σ (6 * p + c)) * T) := by
      rw [← Matrix.mul_smul, hv, ← Matrix.mul_assoc, ← Matrix.mul_assoc, Matrix.adjugate_mul, Matrix.smul_mul, Matrix.one_mul,
        Matrix.smul_mul]
    exact smul_right_injective _ hQ.ne' h3
  have hn' := nodal_forces_adjugate val _ σ' f' hf' ⟨n, hn⟩ d
  rw [hn']
  have hk : ∀ k, f n k = _ := fun k => nodal_forces_adjugate val _ σ f hf ⟨n, hn⟩ k
  simp only [hk, neg_mul, Finset.sum_neg_distrib]
  congr 1
  have hM : ∀ p : Fin 8, (Jac val (gather b' e' fun k => X' k + u' k) p).adjugate * symMat (fun c : Fin 6 => σ' (6 * p + c))
      = (Jac val (gather b e fun k => X k + u k) p).adjugate * symMat (fun c : Fin 6 => σ (6 * p + c)) * T := by
    intro p
    rw [moved_jac val hx p, Matrix.adjugate_mul_distrib, Matrix.mul_assoc, hS, Matrix.mul_assoc]
  simp only [hM]
  simp only [Finset.sum_mul]
  conv_rhs => rw [Finset.sum_comm]
  apply Finset.sum_congr rfl; intro p _
  conv_rhs => rw [Finset.sum_comm]
  apply Finset.sum_congr rfl; intro k _
  rw [Matrix.mul_apply, Finset.mul_sum]
  apply Finset.sum_congr rfl; intro j _
  ring

/-! ## Meshes -/

/-- The second mesh has the blocks `g b`, element by element in the same order, with the nodes renumbered by `π`. -/
structure Renumbered (blocks : List (Blk K × List ℕ)) (g : Blk K → Blk K) (π : ℕ → ℕ) : Prop where
  inj : Function.Injective π
  nodes : ∀ b ∈ blocks, ∀ e ∈ b.2, ∀ n < 8, (g b.1).nodeId e n = π (b.1.nodeId e n)

/-- The blocks of the second mesh. -/
def mapBlocks (g : Blk K → Blk K) (blocks : List (Blk K × List ℕ)) : List (Blk K × List ℕ) := blocks.map fun b => (g b.1, b.2)

theorem sum_map_fin {α : Type*} (l : List α) (φ : α → Fin 3 → K) :
    (l.map fun a => ∑ k : Fin 3, φ a k).sum = ∑ k : Fin 3, (l.map fun a => φ a k).sum := by
  induction l with
  | nil => simp
  | cons a l ih => simp only [List.map_cons, List.sum_cons, ih, Finset.sum_add_distrib]

/-- **Forces of a transformed mesh.** -/
theorem internal_force_transformed (val : K) (blocks : List (Blk K × List ℕ)) (g : Blk K → Blk K) (π : ℕ → ℕ)
    (hg : Renumbered blocks g π) (X X' u u' : ℕ → K) (P Q T : Matrix (Fin 3) (Fin 3) K)
    (a c : Fin 3 → K) (hP : 0 < P.det) (hQ : 0 < Q.det)
    (hX : ∀ b ∈ blocks, ∀ e ∈ b.2, Moved b.1 (g b.1) e e X X' P a)
    (hx : ∀ b ∈ blocks, ∀ e ∈ b.2, Moved b.1 (g b.1) e e (fun k => X k + u k) (fun k => X' k + u' k) Q c)
    (D : Matrix (Fin 3) (Fin 3) K → Prop) (hD : ∀ b ∈ blocks, ∀ e ∈ b.2, Deforms val D b.1 e X fun k => X k + u k)
    (hlaw : ∀ b ∈ blocks, Corresponding b.1.law (g b.1).law D P Q T)
    (F : ℕ → K) (hF : computeInternalForce val X u blocks = some F) :
    ∃ F', computeInternalForce val X' u' (mapBlocks g blocks) = some F' ∧
      ∀ (n : ℕ) (d : Fin 3), F' (3 * π n + d) = ∑ k : Fin 3, F (3 * n + k) * T k d := by
  have hdef := (internal_force_defined val X u blocks).mp ⟨F, hF⟩
  have hel : ∀ b ∈ blocks, ∀ e ∈ b.2, ∀ f, elementForce val b.1 X u e = some f →
      ∃ f', elementForce val (g b.1) X' u' e = some f' ∧ ∀ n < 8, ∀ d : Fin 3, f' n d = ∑ k : Fin 3, f n k * T k d :=
    fun b hb e he f hf => element_force_transformed val b.1 (g b.1) e e X X' u u' P Q T a c hP hQ (hX b hb e he) (hx b hb e he) D
      (hD b hb e he) (hlaw b hb) f hf
  obtain ⟨F', hF'⟩ := (internal_force_defined val X' u' (mapBlocks g blocks)).mpr (by
    intro b' hb' e he
    simp only [mapBlocks, List.mem_map] at hb'
    obtain ⟨b, hb, rfl⟩ := hb'
    obtain ⟨f, hf⟩ := hdef b hb e he
    obtain ⟨f', hf', -⟩ := hel b hb e he f hf
    exact ⟨f', hf'⟩)
  refine ⟨F', hF', fun n d => ?_⟩
  rw [internal_force_sum val X' u' F' _ hF' (π n) d]
  simp only [internal_force_sum val X u F _ hF n]
  rw [mapBlocks, List.map_map]
  have hb : ∀ b ∈ blocks, ((fun b : Blk K × List ℕ => (b.2.map fun e => (elementForce val b.1 X' u' e).elim 0 fun f =>
        ∑ c ∈ Finset.range 8, if b.1.nodeId e c = π n then f c d else 0).sum) ∘ fun b => (g b.1, b.2)) b
      = ∑ k : Fin 3, (b.2.map fun e => (elementForce val b.1 X u e).elim 0 fun f =>
        ∑ c ∈ Finset.range 8, if b.1.nodeId e c = n then f c k else 0).sum * T k d := by
    intro b hb
    simp only [Function.comp_apply]
    simp only [← List.sum_map_mul_right]
    rw [← sum_map_fin]
    congr 1
    apply List.map_congr_left
    intro e he
    obtain ⟨f, hf⟩ := hdef b hb e he
    obtain ⟨f', hf', hv⟩ := hel b hb e he f hf
    rw [hf, hf']
    simp only [Option.elim_some, Finset.sum_mul]
    rw [Finset.sum_comm]
    apply Finset.sum_congr rfl
    intro c hc
    have hc8 := Finset.mem_range.mp hc
    rw [hg.nodes b hb e he c hc8]
    by_cases h : b.1.nodeId e c = n
    · rw [if_pos (by rw [h]), hv c hc8 d]
      simp only [if_pos h]
    · rw [if_neg (fun h' => h (hg.inj h'))]
      simp [if_neg h]
  rw [List.map_congr_left hb, sum_map_fin]
  apply Finset.sum_congr rfl; intro k _
  rw [List.sum_map_mul_right]

theorem serial_map (blocks : List (Blk K)) (g : Blk K → Blk K) (hn : ∀ b ∈ blocks, (g b).numElem = b.numElem) :
    serial (blocks.map g) = mapBlocks g (serial blocks) := by
  unfold serial mapBlocks
  rw [List.map_map, List.map_map]
  apply List.map_congr_left
  intro b hb
  simp [hn b hb]

/-- **Masses of a transformed mesh.** -/
theorem lumped_mass_transformed (val : K) (blocks : List (Blk K)) (g : Blk K → Blk K) (π : ℕ → ℕ)
    (hg : Renumbered (serial blocks) g π) (hn : ∀ b ∈ blocks, (g b).numElem = b.numElem) (δ : K)
    (hd : ∀ b ∈ blocks, (g b).density = δ * b.density) (X X' : ℕ → K) (P : Matrix (Fin 3) (Fin 3) K)
    (a : Fin 3 → K) (hP : 0 < P.det) (hX : ∀ b ∈ blocks, ∀ e < b.numElem, Moved b (g b) e e X X' P a)
    (m : ℕ → K) (hm : computeLumpedMassField val X blocks (fun _ => 0) = some m) :
    ∃ m', computeLumpedMassField val X' (blocks.map g) (fun _ => 0) = some m' ∧ ∀ n, m' (π n) = δ * P.det * m n := by
  have hdef := (lumped_mass_field_defined val X (fun _ => 0) blocks).mp ⟨m, hm⟩
  obtain ⟨m', hm'⟩ := (lumped_mass_field_defined val X' (fun _ => 0) (blocks.map g)).mpr (by
    intro b' hb' e he p
    obtain ⟨b, hb, rfl⟩ := List.mem_map.mp hb'
    rw [hn b hb] at he
    rw [moved_jac val (hX b hb e he), Matrix.det_mul]
    exact mul_pos hP (hdef b hb e he p))
  refine ⟨m', hm', fun n => ?_⟩
  rw [lumped_mass_sum val X' _ m' _ hm' (π n), lumped_mass_sum val X _ m _ hm n, zero_add, zero_add, List.map_map,
    ← List.sum_map_mul_left]
  congr 1
  apply List.map_congr_left
  intro b hb
  simp only [Function.comp_apply]
  rw [hn b hb, ← List.sum_map_mul_left]
  congr 1
  apply List.map_congr_left
  intro e he
  have he' := List.mem_range.mp he
  obtain ⟨me, hme⟩ := (lumped_mass_defined val b.density (gather b e X)).mpr (hdef b hb e he')
  obtain ⟨me', hme'⟩ := (lumped_mass_defined val (g b).density (gather (g b) e X')).mpr (by
    intro p
    rw [moved_jac val (hX b hb e he'), Matrix.det_mul]
    exact mul_pos hP (hdef b hb e he' p))
  rw [hme, hme', Option.elim_some, Option.elim_some, Finset.mul_sum]
  apply Finset.sum_congr rfl
  intro c hc
  have hc8 := Finset.mem_range.mp hc
  rw [hg.nodes (b, List.range b.numElem) (List.mem_map.mpr ⟨b, hb, rfl⟩) e he c hc8]
  by_cases h : b.nodeId e c = n
  · rw [if_pos (by rw [h]), if_pos h]
    have h1 := (computeLumpedMass_val val b.density (gather b e X)).2 me hme ⟨c, hc8⟩
    have h2 := (computeLumpedMass_val val (g b).density (gather (g b) e X')).2 me' hme' ⟨c, hc8⟩
    simp only at h1 h2
    rw [h1, h2, hd b hb, Finset.mul_sum, Finset.mul_sum, Finset.mul_sum]
    apply Finset.sum_congr rfl
    intro p _
    rw [moved_jac val (hX b hb e he'), Matrix.det_mul]
    ring
  · rw [if_neg (fun h' => h (hg.inj h')), if_neg h, mul_zero]

end NimbleSM.Assembly
