import Verif.Element.FaceProps
import Verif.Assembly.ParallelProps
import Verif.Material.MaterialProps

/-!
# C112: patch test.  C113: mass and interior nodes
-/

open scoped BigOperators

namespace NimbleSM.Assembly

open NimbleSM.Hex NimbleSM.Tensor NimbleSM.Constitutive

variable {K : Type*} [Field K] [LinearOrder K] [IsStrictOrderedRing K]

/-! ## Specification -/

/-- A corner of a face of an element: element (position in the list), face, corner of the face. -/
abbrev FaceCorner (L : List (Blk K × ℕ)) := Fin L.length × Fin 6 × Fin 4

/-- The node `j` places after the corner, counterclockwise around the face seen from outside the element. -/
def FaceCorner.node {L : List (Blk K × ℕ)} (t : FaceCorner L) (j : Fin 4) : ℕ :=
  (L[t.1]).1.nodeId (L[t.1]).2 (side t.2.1 (t.2.2 + j))

/-- Node `g` is not on the surface of the mesh: every face of an element at `g` is seen by exactly one element from the other
side. -/
def Interior (L : List (Blk K × ℕ)) (g : ℕ) : Prop :=
  ∀ t : FaceCorner L, t.node 0 = g → t.node 1 ≠ t.node 3 ∧
    ∃! t' : FaceCorner L, t'.node 0 = g ∧ t'.node 1 = t.node 3 ∧ t'.node 2 = t.node 2 ∧ t'.node 3 = t.node 1

/-! ## The area vectors around an interior node cancel -/

theorem areas_cancel (L : List (Blk K × ℕ)) (x : ℕ → K) (g : ℕ) (hg : Interior L g) :
    ∑ i : Fin L.length, ∑ c : Fin 8,
      (if (L[i]).1.nodeId (L[i]).2 c = g then nodeArea (gather (L[i]).1 (L[i]).2 x) c else 0) = 0 := by
  classical
  -- as a sum over face corners
  have hpos : ∀ (i : Fin L.length) (c : Fin 8), pos (gather (L[i]).1 (L[i]).2 x) c = pos x ((L[i]).1.nodeId (L[i]).2 c) := by
    intro i c; funext d; exact gather_val _ _ _ c.isLt d
  let share : FaceCorner L → Fin 3 → K := fun t => faceShare (pos x (t.node 0)) (pos x (t.node 1)) (pos x (t.node 2)) (pos x (t.node 3))
  have h1 : ∀ i : Fin L.length, (∑ c : Fin 8,
      (if (L[i]).1.nodeId (L[i]).2 c = g then nodeArea (gather (L[i]).1 (L[i]).2 x) c else 0))
      = ∑ o : Fin 6, ∑ k : Fin 4, if FaceCorner.node (L := L) (i, o, k) 0 = g then share (i, o, k) else 0 := by
    intro i
    simp only [nodeArea]
    have h2 : ∀ c : Fin 8, (if (L[i]).1.nodeId (L[i]).2 c = g then
        ∑ o : Fin 6, ∑ k : Fin 4, (if side o k = c then
          faceShare (pos (gather (L[i]).1 (L[i]).2 x) (side o k)) (pos (gather (L[i]).1 (L[i]).2 x) (side o (k + 1)))
            (pos (gather (L[i]).1 (L[i]).2 x) (side o (k + 2))) (pos (gather (L[i]).1 (L[i]).2 x) (side o (k + 3))) else 0) else 0)
        = ∑ o : Fin 6, ∑ k : Fin 4, (if side o k = c then
            (if FaceCorner.node (L := L) (i, o, k) 0 = g then share (i, o, k) else 0) else 0) := by
      intro c
      split_ifs with hc
      · apply Finset.sum_congr rfl; intro o _
        apply Finset.sum_congr rfl; intro k _
        split_ifs with hs hn
        · simp only [hpos, share, FaceCorner.node, add_zero]
        · exfalso; apply hn; simp only [FaceCorner.node, add_zero, hs]; exact hc
        · rfl
      · symm
        apply Finset.sum_eq_zero; intro o _
        apply Finset.sum_eq_zero; intro k _
        split_ifs with hs hn
        · exfalso; apply hc; rw [← hs]; simpa only [FaceCorner.node, add_zero] using hn
        · rfl
        · rfl
    rw [Finset.sum_congr rfl fun c _ => h2 c, Finset.sum_comm]
    apply Finset.sum_congr rfl; intro o _
    rw [Finset.sum_comm]
    apply Finset.sum_congr rfl; intro k _
    rw [Finset.sum_ite_eq Finset.univ (side o k) (fun _ => if FaceCorner.node (L := L) (i, o, k) 0 = g then share (i, o, k) else 0)]
    simp
  rw [Finset.sum_congr rfl fun i _ => h1 i]
  have h3 : (∑ i : Fin L.length, ∑ o : Fin 6, ∑ k : Fin 4, if FaceCorner.node (L := L) (i, o, k) 0 = g then share (i, o, k) else 0)
      = ∑ t ∈ Finset.univ.filter (fun t : FaceCorner L => t.node 0 = g), share t := by
    rw [Finset.sum_filter, Fintype.sum_prod_type]
    apply Finset.sum_congr rfl; intro i _
    rw [Fintype.sum_prod_type]
  rw [h3]
  -- the partner
  have hex : ∀ t : FaceCorner L, t.node 0 = g → ∃! t' : FaceCorner L,
      t'.node 0 = g ∧ t'.node 1 = t.node 3 ∧ t'.node 2 = t.node 2 ∧ t'.node 3 = t.node 1 := fun t ht => (hg t ht).2
  let partner : (t : FaceCorner L) → t ∈ Finset.univ.filter (fun t : FaceCorner L => t.node 0 = g) → FaceCorner L :=
    fun t ht => (hex t (Finset.mem_filter.mp ht).2).choose
  have hp : ∀ t ht, (partner t ht).node 0 = g ∧ (partner t ht).node 1 = t.node 3 ∧ (partner t ht).node 2 = t.node 2 ∧
      (partner t ht).node 3 = t.node 1 := fun t ht => (hex t (Finset.mem_filter.mp ht).2).choose_spec.1
  have hmem : ∀ t ht, partner t ht ∈ Finset.univ.filter (fun t : FaceCorner L => t.node 0 = g) := fun t ht =>
    Finset.mem_filter.mpr ⟨Finset.mem_univ _, (hp t ht).1⟩
  refine Finset.sum_involution partner ?_ ?_ hmem ?_
  · intro t ht
    obtain ⟨a0, a1, a2, a3⟩ := hp t ht
    have h0 : t.node 0 = g := (Finset.mem_filter.mp ht).2
    simp only [share]
    rw [a0, a1, a2, a3, h0, faceShare_reverse, neg_add_cancel]
  · intro t ht _ he
    have h0 : t.node 0 = g := (Finset.mem_filter.mp ht).2
    have := (hp t ht).2.1
    rw [he] at this
    exact (hg t h0).1 this
  · intro t ht
    obtain ⟨a0, a1, a2, a3⟩ := hp t ht
    obtain ⟨b0, b1, b2, b3⟩ := hp _ (hmem t ht)
    have h0 : t.node 0 = g := (Finset.mem_filter.mp ht).2
    exact (hex _ a0).unique ⟨b0, b1, b2, b3⟩ ⟨h0, a3.symm, a2.symm, a1.symm⟩

/-! ## C112 -/

theorem fullMat_injective {a b : Fin 9 → K} (h : fullMat a = fullMat b) : a = b := by
  have e : ∀ i j, fullMat a i j = fullMat b i j := fun i j => by rw [h]
  funext i
  fin_cases i
  · simpa [fullMat] using e 0 0
  · simpa [fullMat] using e 1 1
  · simpa [fullMat] using e 2 2
  · simpa [fullMat] using e 0 1
  · simpa [fullMat] using e 1 2
  · simpa [fullMat] using e 2 0
  · simpa [fullMat] using e 1 0
  · simpa [fullMat] using e 2 1
  · simpa [fullMat] using e 0 2

/-- The nodes of the elements of `L` have moved by the affine map `A X + c`. -/
def Affine (L : List (Blk K × ℕ)) (X u : ℕ → K) (A : Matrix (Fin 3) (Fin 3) K) (c : Fin 3 → K) : Prop :=
  ∀ be ∈ L, ∀ n < 8, ∀ d : Fin 3, X (3 * be.1.nodeId be.2 n + d) + u (3 * be.1.nodeId be.2 n + d)
    = (∑ e : Fin 3, A d e * X (3 * be.1.nodeId be.2 n + e)) + c d

/-- Force of one element in an affine motion. -/
theorem element_force_affine (val : K) (hval : 3 * val ^ 2 = 1) (b : Blk K) (e : ℕ) (X u : ℕ → K) (A : Matrix (Fin 3) (Fin 3) K)
    (c : Fin 3 → K) (hA : Affine [(b, e)] X u A c) (f : ℕ → Fin 3 → K) (hf : elementForce val b X u e = some f) :
    ∃ a sig, fullMat a = A ∧ b.law a = some sig ∧ ∀ (n : Fin 8) (d : Fin 3),
      f n d = - ∑ k : Fin 3, nodeArea (gather b e fun k => X k + u k) n k * symMat sig k d := by
  unfold elementForce at hf
  simp only [Option.bind_eq_bind, Option.bind_eq_some_iff] at hf
  obtain ⟨F, hF, σ, hσ, hf⟩ := hf
  have hFp := deformation_gradient_affine val _ _ F A c (by
    intro n hn d
    rw [gather_val _ _ _ hn]
    simp only [gather_val b e X hn]
    exact hA (b, e) (by simp) n hn d) hF
  have hp := (pointLoop_val _ 8 F _ σ hσ).1
  obtain ⟨sig, hsig, -⟩ := hp 0 (by norm_num)
  refine ⟨_, sig, hFp 0, hsig, fun n d => ?_⟩
  refine uniform_stress_force val hval _ σ f hf (symMat sig) ?_ n d
  intro p
  obtain ⟨sig', hsig', hv⟩ := hp p p.isLt
  have : (fun i : Fin 9 => F (9 * (p : ℕ) + i.val)) = fun i : Fin 9 => F (9 * 0 + i.val) :=
    fullMat_injective ((hFp p).trans (hFp 0).symm)
  rw [this, hsig] at hsig'
  have h2 := Option.some.inj hsig'
  congr 1
  funext c
  rw [hv, h2]

/-- **C112, patch test.**  For every mesh of one material, every material law and every affine motion of the nodes, the
internal force vanishes at every node that is not on the surface. -/
theorem patch_test (val : K) (hval : 3 * val ^ 2 = 1) (blocks : List (Blk K × List ℕ)) (law : (Fin 9 → K) → Option (Fin 6 → K))
    (hlaw : ∀ b ∈ blocks, b.1.law = law) (X u F : ℕ → K) (A : Matrix (Fin 3) (Fin 3) K) (c : Fin 3 → K)
    (hA : Affine (elements blocks) X u A c) (hF : computeInternalForce val X u blocks = some F)
    (g : ℕ) (hg : Interior (elements blocks) g) (d : Fin 3) : F (3 * g + d) = 0 := by
  classical
  have hdef := (internal_force_defined val X u blocks).mp ⟨F, hF⟩
  have hmem : ∀ be ∈ elements blocks, be.1.law = law ∧ ∃ f, elementForce val be.1 X u be.2 = some f := by
    rintro ⟨b, e⟩ h
    simp only [elements, List.mem_flatMap, List.mem_map, Prod.mk.injEq] at h
    obtain ⟨b', hb', e', he', rfl, rfl⟩ := h
    exact ⟨hlaw b' hb', hdef b' hb' e' he'⟩
  have hsum : F (3 * g + d) = ((elements blocks).map fun be => (elementForce val be.1 X u be.2).elim 0 fun f =>
      ∑ n ∈ Finset.range 8, if be.1.nodeId be.2 n = g then f n d else 0).sum := by
    rw [internal_force_sum val X u F blocks hF g d, elements, List.map_flatMap, Solver.sum_flatMap']
    simp only [List.map_map]
    rfl
  rcases (elements blocks).eq_nil_or_concat with hnil | ⟨_, last, hne⟩
  · rw [hsum, hnil]; simp
  -- the common stress
  obtain ⟨S, hS⟩ : ∃ S : Matrix (Fin 3) (Fin 3) K, ∀ be ∈ elements blocks, ∀ f, elementForce val be.1 X u be.2 = some f →
      ∀ (n : Fin 8) (d : Fin 3), f n d = - ∑ k : Fin 3, nodeArea (gather be.1 be.2 fun k => X k + u k) n k * S k d := by
    have hlast : last ∈ elements blocks := by rw [hne]; simp
    obtain ⟨hl, f0, hf0⟩ := hmem last hlast
    obtain ⟨a, sig, ha, hsig, -⟩ := element_force_affine val hval last.1 last.2 X u A c
      (fun be hbe => by rw [List.mem_singleton.mp hbe]; exact hA last hlast) f0 hf0
    refine ⟨symMat sig, fun be hbe f hf n d => ?_⟩
    obtain ⟨a', sig', ha', hsig', hval'⟩ := element_force_affine val hval be.1 be.2 X u A c
      (fun be' hbe' => by rw [List.mem_singleton.mp hbe']; exact hA be hbe) f hf
    have : a' = a := fullMat_injective (ha'.trans ha.symm)
    rw [this, (hmem be hbe).1] at hsig'
    rw [hl] at hsig
    rw [hsig] at hsig'
    rw [hval' n d, ← Option.some.inj hsig']
  have hterm : ∀ be ∈ elements blocks, ((elementForce val be.1 X u be.2).elim 0 fun f =>
      ∑ n ∈ Finset.range 8, if be.1.nodeId be.2 n = g then f n d else 0)
      = - ∑ k : Fin 3, (∑ n : Fin 8, if be.1.nodeId be.2 n = g then nodeArea (gather be.1 be.2 fun k => X k + u k) n else 0) k * S k d := by
    intro be hbe
    obtain ⟨-, f, hf⟩ := hmem be hbe
    rw [hf, Option.elim_some, Finset.sum_range]
    simp only [Finset.sum_apply, Finset.sum_mul]
    rw [Finset.sum_comm, ← Finset.sum_neg_distrib]
    apply Finset.sum_congr rfl
    intro n _
    split_ifs with hn
    · exact hS be hbe f hf n d
    · simp
  rw [hsum, List.map_congr_left hterm]
  have hlist : ∀ (L : List (Blk K × ℕ)) (φ : Blk K × ℕ → K), (L.map φ).sum = ∑ i : Fin L.length, φ L[i] := by
    intro L φ
    rw [← List.sum_ofFn]
    congr 1
    apply List.ext_getElem <;> simp
  rw [hlist]
  rw [Finset.sum_neg_distrib, Finset.sum_comm]
  have hc := areas_cancel (elements blocks) (fun k => X k + u k) g hg
  have : ∀ k : Fin 3, (∑ i : Fin (elements blocks).length, (∑ n : Fin 8, if ((elements blocks)[i]).1.nodeId ((elements blocks)[i]).2 n = g
      then nodeArea (gather ((elements blocks)[i]).1 ((elements blocks)[i]).2 fun k => X k + u k) n else 0) k * S k d) = 0 := by
    intro k
    rw [← Finset.sum_mul, ← Finset.sum_apply, hc]
    simp
  rw [Finset.sum_congr rfl fun k _ => this k]
  simp

/-! ## C113 -/

/-- The sum of the volumes of the elements. -/
def meshVolume (val : K) (L : List (Blk K × ℕ)) (x : ℕ → K) : K :=
  ∑ i : Fin L.length, ∑ p : Fin 8, (Jac val (gather (L[i]).1 (L[i]).2 x) p).det

theorem det_add_row (J J' : Matrix (Fin 3) (Fin 3) K) (e : Fin 3) (w : Fin 3 → K)
    (h : ∀ i j, J' i j = J i j + if i = e then w j else 0) : J'.det = J.det + ∑ k : Fin 3, w k * J.adjugate k e := by
  have e3 : (1 : Fin 3) + 2 = 0 := by decide
  have e4 : (2 : Fin 3) + 2 = 1 := by decide
  simp only [adjugate_entry, Matrix.det_fin_three, h, Fin.sum_univ_three]
  fin_cases e <;> simp [e3, e4] <;> ring

/-- Moving one coordinate of one node. -/
theorem volume_move (val : K) (hval : 3 * val ^ 2 = 1) (L : List (Blk K × ℕ)) (x : ℕ → K) (g : ℕ) (e : Fin 3) (t : K)
    (hg : Interior L g) : meshVolume val L (fun k => x k + if k = 3 * g + e then t else 0) = meshVolume val L x := by
  classical
  have h1 : ∀ (i : Fin L.length) (p : Fin 8),
      (Jac val (gather (L[i]).1 (L[i]).2 fun k => x k + if k = 3 * g + e then t else 0) p).det
      = (Jac val (gather (L[i]).1 (L[i]).2 x) p).det + ∑ k : Fin 3,
        (∑ c : Fin 8, if (L[i]).1.nodeId (L[i]).2 c = g then t * gradN c (gaussPt val p) k else 0)
          * (Jac val (gather (L[i]).1 (L[i]).2 x) p).adjugate k e := by
    intro i p
    refine det_add_row _ _ e _ ?_
    intro r j
    simp only [Jac, Matrix.of_apply]
    split_ifs with hr
    · subst hr
      rw [← Finset.sum_add_distrib]
      apply Finset.sum_congr rfl; intro c _
      rw [gather_val _ _ _ c.isLt, gather_val _ _ _ c.isLt, add_mul]
      congr 1
      by_cases hc : (L[i]).1.nodeId (L[i]).2 c = g
      · rw [if_pos (by rw [hc]), if_pos hc]
      · rw [if_neg (by omega), if_neg hc, zero_mul]
    · rw [add_zero]
      apply Finset.sum_congr rfl; intro c _
      rw [gather_val _ _ _ c.isLt, gather_val _ _ _ c.isLt, if_neg, add_zero]
      intro h
      apply hr
      have := r.isLt; have := e.isLt
      apply Fin.ext; omega
  unfold meshVolume
  simp only [h1, Finset.sum_add_distrib]
  rw [add_eq_left]
  have h2 : ∀ i : Fin L.length, (∑ p : Fin 8, ∑ k : Fin 3,
        (∑ c : Fin 8, if (L[i]).1.nodeId (L[i]).2 c = g then t * gradN c (gaussPt val p) k else 0)
          * (Jac val (gather (L[i]).1 (L[i]).2 x) p).adjugate k e)
      = t * (∑ c : Fin 8, (if (L[i]).1.nodeId (L[i]).2 c = g then nodeArea (gather (L[i]).1 (L[i]).2 x) c else 0)) e := by
    intro i
    have h3 : ∀ c : Fin 8, (if (L[i]).1.nodeId (L[i]).2 c = g then nodeArea (gather (L[i]).1 (L[i]).2 x) c else 0) e
        = ∑ p : Fin 8, ∑ k : Fin 3, (if (L[i]).1.nodeId (L[i]).2 c = g then gradN c (gaussPt val p) k else 0)
          * (Jac val (gather (L[i]).1 (L[i]).2 x) p).adjugate k e := by
      intro c
      split_ifs with hc
      · rw [area_eq_faces val hval]
      · simp
    symm
    rw [Finset.sum_apply, Finset.sum_congr rfl fun c _ => h3 c, Finset.sum_comm, Finset.mul_sum]
    apply Finset.sum_congr rfl; intro p _
    rw [Finset.sum_comm, Finset.mul_sum]
    apply Finset.sum_congr rfl; intro k _
    rw [← Finset.sum_mul, ← mul_assoc, Finset.mul_sum]
    congr 1
    apply Finset.sum_congr rfl; intro c _
    split_ifs <;> simp
  rw [Finset.sum_congr rfl fun i _ => h2 i, ← Finset.mul_sum, ← Finset.sum_apply, areas_cancel L x g hg]
  simp

/-- Moving nodes that are not on the surface does not change the volume. -/
theorem volume_interior (val : K) (hval : 3 * val ^ 2 = 1) (L : List (Blk K × ℕ)) (moved : Finset ℕ)
    (hm : ∀ g ∈ moved, Interior L g) (x x' : ℕ → K) (h : ∀ n ∉ moved, ∀ d : Fin 3, x' (3 * n + d) = x (3 * n + d)) :
    meshVolume val L x' = meshVolume val L x := by
  classical
  induction moved using Finset.induction_on generalizing x with
  | empty =>
    have : x' = x := by
      funext k
      have h1 := h (k / 3) (by simp) ⟨k % 3, Nat.mod_lt _ (by norm_num)⟩
      simp only [Nat.div_add_mod] at h1
      exact h1
    rw [this]
  | insert g s hgs ih =>
    have hg := hm g (Finset.mem_insert_self g s)
    let x0 : ℕ → K := fun k => x k + if k = 3 * g + (0 : Fin 3) then x' (3 * g + (0 : Fin 3)) - x (3 * g + (0 : Fin 3)) else 0
    let x1 : ℕ → K := fun k => x0 k + if k = 3 * g + (1 : Fin 3) then x' (3 * g + (1 : Fin 3)) - x (3 * g + (1 : Fin 3)) else 0
    let x2 : ℕ → K := fun k => x1 k + if k = 3 * g + (2 : Fin 3) then x' (3 * g + (2 : Fin 3)) - x (3 * g + (2 : Fin 3)) else 0
    rw [ih (fun a ha => hm a (Finset.mem_insert_of_mem ha)) x2]
    · rw [volume_move val hval L x1 g 2 _ hg, volume_move val hval L x0 g 1 _ hg, volume_move val hval L x g 0 _ hg]
    · intro n hn d
      by_cases hng : n = g
      · subst hng
        fin_cases d <;> simp [x2, x1, x0]
      · have := d.isLt
        have e1 : ∀ r : Fin 3, ¬ (3 * n + d.val = 3 * g + r.val) := fun r => by have := r.isLt; omega
        simp only [x2, x1, x0, if_neg (e1 _), add_zero]
        exact h n (by simp [hng, hn]) d

/-- The total lumped mass of a mesh of one density: density times volume. -/
theorem total_mass (val : K) (blocks : List (Blk K)) (N : ℕ) (hmesh : InMesh N (serial blocks)) (rho : K)
    (hrho : ∀ b ∈ blocks, b.density = rho) (X M : ℕ → K)
    (hM : computeLumpedMassField val X blocks (fun _ => 0) = some M) :
    ∑ n ∈ Finset.range N, M n = rho * meshVolume val (elements (serial blocks)) X := by
  classical
  have hlist : ∀ (L : List (Blk K × ℕ)) (φ : Blk K × ℕ → K), (L.map φ).sum = ∑ i : Fin L.length, φ L[i] := by
    intro L φ
    rw [← List.sum_ofFn]
    congr 1
    apply List.ext_getElem <;> simp
  have hdef := (lumped_mass_field_defined val X (fun _ => 0) blocks).mp ⟨M, hM⟩
  rw [lumped_mass_conserved val X M blocks N hmesh hM (fun b e => ∑ p : Fin 8, (Jac val (gather b e X) p).det) ?_]
  · have h1 : (blocks.map fun b => b.density * ((List.range b.numElem).map fun e => ∑ p : Fin 8, (Jac val (gather b e X) p).det).sum)
        = blocks.map fun b => ((List.range b.numElem).map fun e => rho * ∑ p : Fin 8, (Jac val (gather b e X) p).det).sum := by
      apply List.map_congr_left
      intro b hb
      rw [hrho b hb, ← List.sum_map_mul_left]
    rw [h1, meshVolume, Finset.mul_sum,
      ← hlist (elements (serial blocks)) (fun be => rho * ∑ p : Fin 8, (Jac val (gather be.1 be.2 X) p).det),
      elements, serial, List.map_flatMap, Solver.sum_flatMap', List.map_map]
    simp only [Function.comp_def, List.map_map]
  · intro b hb e he
    obtain ⟨⟨v, ave⟩, hv⟩ := Option.isSome_iff_exists.mp ((computeVolumeAverage_val val (gather b e X) (fun _ => 0) 0).1.mpr (hdef b hb e he))
    refine ⟨0, fun _ => 0, ave, ?_⟩
    rw [hv, (volume_spec val _ _ 0 v ave hv).1]

/-- **C113.**  Two meshes with the same connectivity and density whose nodes differ only in the interior (in any finite set
`moved` of nodes that are not on the surface) have the same total
lumped mass. -/
theorem mass_interior (val : K) (hval : 3 * val ^ 2 = 1) (blocks : List (Blk K)) (N : ℕ) (hmesh : InMesh N (serial blocks)) (rho : K)
    (hrho : ∀ b ∈ blocks, b.density = rho) (X X' M M' : ℕ → K)
    (hM : computeLumpedMassField val X blocks (fun _ => 0) = some M)
    (hM' : computeLumpedMassField val X' blocks (fun _ => 0) = some M')
    (moved : Finset ℕ) (hmoved : ∀ g ∈ moved, Interior (elements (serial blocks)) g)
    (hX : ∀ n ∉ moved, ∀ d : Fin 3, X' (3 * n + d) = X (3 * n + d)) :
    ∑ n ∈ Finset.range N, M' n = ∑ n ∈ Finset.range N, M n := by
  rw [total_mass val blocks N hmesh rho hrho X M hM, total_mass val blocks N hmesh rho hrho X' M' hM',
    volume_interior val hval _ moved hmoved X X' hX]

/-! ## Non-vacuity -/

/-- Eight elements around node 13: node `i + 3 j + 9 k` is the point `(i, j, k)` of a 3x3x3 grid. -/
def gridBlk (law : (Fin 9 → K) → Option (Fin 6 → K)) (rho : K) : Blk K where
  density := rho
  bulk := 1
  law := law
  numElem := 8
  conn := fun k =>
    let e := k / 8
    let c := k % 8
    (e % 2 + 3 * (e / 2 % 2) + 9 * (e / 4)) + [0, 1, 4, 3, 9, 10, 13, 12].getD c 0

/-- The corners of the faces, as a table of node numbers. -/
def gridNode (i : Fin 8) (o : Fin 6) (k : Fin 4) : ℕ :=
  (i.val % 2 + 3 * (i.val / 2 % 2) + 9 * (i.val / 4)) + [0, 1, 4, 3, 9, 10, 13, 12].getD (side o k) 0

set_option synthInstance.maxHeartbeats 400000 in
set_option synthInstance.maxSize 4000 in
theorem grid_table : ∀ (i : Fin 8) (o : Fin 6) (k : Fin 4), gridNode i o k = 13 →
    gridNode i o (k + 1) ≠ gridNode i o (k + 3) ∧ ∃ (i' : Fin 8) (o' : Fin 6) (k' : Fin 4),
      (gridNode i' o' k' = 13 ∧ gridNode i' o' (k' + 1) = gridNode i o (k + 3) ∧ gridNode i' o' (k' + 2) = gridNode i o (k + 2) ∧
        gridNode i' o' (k' + 3) = gridNode i o (k + 1)) ∧
      ∀ (i'' : Fin 8) (o'' : Fin 6) (k'' : Fin 4), gridNode i'' o'' k'' = 13 → gridNode i'' o'' (k'' + 1) = gridNode i o (k + 3) →
        gridNode i'' o'' (k'' + 2) = gridNode i o (k + 2) → gridNode i'' o'' (k'' + 3) = gridNode i o (k + 1) →
        i'' = i' ∧ o'' = o' ∧ k'' = k' := by
  decide +kernel

theorem grid_interior (law : (Fin 9 → K) → Option (Fin 6 → K)) (rho : K) : Interior (elements (serial [gridBlk law rho])) 13 := by
  have hL : elements (serial [gridBlk law rho]) = (List.range 8).map fun e => (gridBlk law rho, e) := by
    simp [elements, serial, gridBlk]
  have hlen : (elements (serial [gridBlk law rho])).length = 8 := by rw [hL]; simp
  have hnode : ∀ (t : FaceCorner (elements (serial [gridBlk law rho]))) (j : Fin 4),
      t.node j = gridNode ⟨t.1, by have := t.1.isLt; omega⟩ t.2.1 (t.2.2 + j) := by
    intro t j
    have hel : (elements (serial [gridBlk law rho]))[t.1] = (gridBlk law rho, t.1.val) := by
      simp only [Fin.getElem_fin, hL, List.getElem_map, List.getElem_range]
    have hs := (side t.2.1 (t.2.2 + j)).isLt
    unfold FaceCorner.node gridNode
    rw [hel]
    simp only [Blk.nodeId, gridBlk]
    have h1 : (t.1.val * 8 + (side t.2.1 (t.2.2 + j)).val) / 8 = t.1.val := by omega
    have h2 : (t.1.val * 8 + (side t.2.1 (t.2.2 + j)).val) % 8 = (side t.2.1 (t.2.2 + j)).val := by omega
    rw [h1, h2]
  intro t ht
  simp only [hnode, add_zero] at ht ⊢
  obtain ⟨h1, i', o', k', h2, h3⟩ := grid_table _ _ _ ht
  refine ⟨h1, (⟨i', by have := i'.isLt; omega⟩, o', k'), h2, ?_⟩
  rintro ⟨i'', o'', k''⟩ ⟨g0, g1, g2, g3⟩
  obtain ⟨q1, q2, q3⟩ := h3 ⟨i'', by have := i''.isLt; omega⟩ o'' k'' g0 g1 g2 g3
  have q1' : i''.val = i'.val := by rw [← q1]
  exact Prod.ext (Fin.ext q1') (Prod.ext q2 q3)

/-- Coordinates of the grid. -/
def gridN : ℕ → ℕ := fun k => if k % 3 = 0 then k / 3 % 3 else if k % 3 = 1 then k / 9 % 3 else k / 27

/-- The grid. -/
def gridX : ℕ → ℝ := fun k => (gridN k : ℝ)

theorem grid_coordinates : ∀ (e : Fin 8) (n : Fin 8) (d : Fin 3),
    2 * (gridN (3 * ((e.val % 2 + 3 * (e.val / 2 % 2) + 9 * (e.val / 4)) + [0, 1, 4, 3, 9, 10, 13, 12].getD n 0) + d) : ℤ)
      = cornerZ n d + (1 + 2 * (![(e.val : ℤ) % 2, (e.val : ℤ) / 2 % 2, (e.val : ℤ) / 4] d)) := by
  decide +kernel

theorem grid_gather (law : (Fin 9 → ℝ) → Option (Fin 6 → ℝ)) (rho : ℝ) (e : ℕ) (he : e < 8) :
    ∃ b : Fin 3 → ℝ, ∀ (n : Fin 8) (d : Fin 3), gridX (3 * (gridBlk law rho).nodeId e n + d) = 1 / 2 * corner n d + b d := by
  refine ⟨fun d => (1 + 2 * ((![(e : ℤ) % 2, (e : ℤ) / 2 % 2, (e : ℤ) / 4] d : ℤ) : ℝ)) / 2, fun n d => ?_⟩
  have h := grid_coordinates ⟨e, he⟩ n d
  have hid : (gridBlk law rho).nodeId e n = (e % 2 + 3 * (e / 2 % 2) + 9 * (e / 4)) + [0, 1, 4, 3, 9, 10, 13, 12].getD n 0 := by
    simp only [Blk.nodeId, gridBlk]
    have hn := n.isLt
    have h1 : (e * 8 + n.val) / 8 = e := by omega
    have h2 : (e * 8 + n.val) % 8 = n.val := by omega
    rw [h1, h2]
  rw [hid, gridX]
  have h' := congrArg (fun z : ℤ => (z : ℝ)) h
  push_cast at h'
  rw [corner_cast]
  linarith

/-- Non-vacuity of C112: the grid of elastic material, stretched by the factor 2 along the first axis: the internal force
exists, and vanishes at the centre. -/
example : ∃ F, computeInternalForce (1 / Real.sqrt 3) gridX (fun k => if k % 3 = 0 then gridX k else 0)
      (serial [gridBlk (fun F => some (elasticStress ⟨1, 1, 1⟩ F)) 1]) = some F ∧ ∀ d : Fin 3, F (3 * 13 + d) = 0 := by
  set b := gridBlk (fun F => some (elasticStress (K := ℝ) ⟨1, 1, 1⟩ F)) 1 with hb
  have hval : 3 * (1 / Real.sqrt 3) ^ 2 = 1 := by
    rw [div_pow, Real.sq_sqrt (by norm_num)]; norm_num
  have hu : ∀ (m : ℕ) (d : Fin 3), gridX (3 * m + d) + (if (3 * m + d.val) % 3 = 0 then gridX (3 * m + d) else 0)
      = ![2, 1, 1] d * gridX (3 * m + d) := by
    intro m d
    fin_cases d
    · simp; ring
    · simp [show (3 * m + 1) % 3 = 1 by omega]
    · simp [show (3 * m + 2) % 3 = 2 by omega]
  obtain ⟨F, hF⟩ := (internal_force_defined (1 / Real.sqrt 3) gridX (fun k => if k % 3 = 0 then gridX k else 0) (serial [b])).mpr (by
    intro b' hb' e he
    rw [serial, List.map_singleton, List.mem_singleton] at hb'
    subst hb'
    simp only [List.mem_range, hb, gridBlk] at he
    obtain ⟨t, ht⟩ := grid_gather (fun F => some (elasticStress (K := ℝ) ⟨1, 1, 1⟩ F)) 1 e he
    rw [← hb] at ht
    apply elementForce_defined
    · intro F; exact ⟨_, rfl⟩
    · intro p
      rw [Jac_box _ _ (fun _ => 1 / 2) t (fun n d => by rw [gather_val _ _ _ n.isLt, ht]), det_box]
      norm_num
    · intro p
      rw [Jac_box _ _ ![1, 1 / 2, 1 / 2] (fun d => ![2, 1, 1] d * t d) (fun n d => by
        rw [gather_val _ _ _ n.isLt, hu, ht]
        fin_cases d <;> simp; ring), det_box]
      simp)
  refine ⟨F, hF, fun d => ?_⟩
  refine patch_test _ hval (serial [b]) b.law (fun b' hb' => ?_) gridX _ F (Matrix.diagonal ![2, 1, 1]) 0 ?_ hF 13 (by rw [hb]; exact grid_interior _ _) d
  · rw [serial, List.map_singleton, List.mem_singleton] at hb'
    rw [hb']
  · intro be _ n _ d
    rw [hu]
    fin_cases d <;> simp [Fin.sum_univ_three, Matrix.diagonal_apply]

/-- Non-vacuity of C113: on the grid, moving the centre is moving an interior node. -/
example : ∀ g ∈ ({13} : Finset ℕ), Interior (elements (serial [gridBlk (K := ℝ) (fun _ => none) 1])) g := by
  intro g hg
  rw [Finset.mem_singleton.mp hg]
  exact grid_interior _ _

end NimbleSM.Assembly
