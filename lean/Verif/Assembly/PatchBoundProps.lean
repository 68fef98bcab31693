import Verif.Assembly.PatchProps
import Verif.Element.QuadratureProps

/-!
# C112 and C113 for the Gauss coordinate of the code

`patch_test` and `mass_interior` are exact for `3 val² = 1`; here, over the reals, for the literal
`val = 0.577350269189626` of nimble_element.cc:58 and in fact every `val` with `val² ≤ 1`: exactly zero on meshes of
parallelepipeds, and within an explicit multiple of `|val² - 1/3|` on all meshes.
-/

open scoped BigOperators

namespace NimbleSM.Assembly

open NimbleSM.Hex NimbleSM.Tensor NimbleSM.Constitutive

/-! ## Specification -/

/-- The number of element corners at node `g`. -/
def cornersAt (L : List (Blk ℝ × ℕ)) (g : ℕ) : ℕ :=
  ∑ i : Fin L.length, ∑ c : Fin 8, if (L[i]).1.nodeId (L[i]).2 c = g then 1 else 0

/-- Every element at the positions `x` fits into a cube with half edge `R`. -/
def SizeAtMost (L : List (Blk ℝ × ℕ)) (x : ℕ → ℝ) (R : ℝ) : Prop :=
  ∀ be ∈ L, ∃ o : Fin 3 → ℝ, ∀ n < 8, ∀ d : Fin 3, |x (3 * be.1.nodeId be.2 n + d) - o d| ≤ R

/-- Every element at the positions `x` is a parallelepiped. -/
def AllSkew (L : List (Blk ℝ × ℕ)) (x : ℕ → ℝ) : Prop :=
  ∀ be ∈ L, ∃ (B : Matrix (Fin 3) (Fin 3) ℝ) (o : Fin 3 → ℝ), ∀ (n : Fin 8) (d : Fin 3),
    x (3 * be.1.nodeId be.2 n + d) = (∑ j : Fin 3, B d j * corner n j) + o d

/-- The exact Gauss coordinate. -/
theorem exact_val : 3 * (1 / Real.sqrt 3) ^ 2 = (1 : ℝ) := by
  rw [div_pow, Real.sq_sqrt (by norm_num)]; norm_num

/-! ## Patch test -/

/-- Force of one element in an affine motion, for every `val`. -/
theorem element_force_affine_gauss (val : ℝ) (b : Blk ℝ) (e : ℕ) (X u : ℕ → ℝ) (A : Matrix (Fin 3) (Fin 3) ℝ)
    (c : Fin 3 → ℝ) (hA : Affine [(b, e)] X u A c) (f : ℕ → Fin 3 → ℝ) (hf : elementForce val b X u e = some f) :
    ∃ a sig, fullMat a = A ∧ b.law a = some sig ∧ ∀ (n : Fin 8) (d : Fin 3),
      f n d = - ∑ k : Fin 3, gaussArea val (gather b e fun k => X k + u k) n k * symMat sig k d := by
  unfold elementForce at hf
  simp only [Option.bind_eq_bind, Option.bind_eq_some_iff] at hf
  obtain ⟨F, hF, σ, hσ, hf⟩ := hf
  have hFp := deformation_gradient_affine val _ _ F A c (by
    intro n hn d
    rw [gather_val _ _ _ hn]
    simp only [gather_val b e X hn]
    exact hA (b, e) (by simp) n hn d) hF
  have hp := (pointLoop_val _ 8 F _ σ hσ).1
  obtain ⟨sig, hsig, -⟩ := hp 0 (by norm_num)
  refine ⟨_, sig, hFp 0, hsig, fun n d => ?_⟩
  refine uniform_stress_force_gauss val _ σ f hf (symMat sig) ?_ n d
  intro p
  obtain ⟨sig', hsig', hv⟩ := hp p p.isLt
  have : (fun i : Fin 9 => F (9 * (p : ℕ) + i.val)) = fun i : Fin 9 => F (9 * 0 + i.val) :=
    fullMat_injective ((hFp p).trans (hFp 0).symm)
  rw [this, hsig] at hsig'
  have h2 := Option.some.inj hsig'
  congr 1
  funext c
  rw [hv, h2]

/-- The internal force at a node in an affine motion, for every `val`: a sum of area vectors times one stress. -/
theorem internal_force_affine (val : ℝ) (blocks : List (Blk ℝ × List ℕ)) (law : (Fin 9 → ℝ) → Option (Fin 6 → ℝ))
    (hlaw : ∀ b ∈ blocks, b.1.law = law) (X u F : ℕ → ℝ) (A : Matrix (Fin 3) (Fin 3) ℝ) (c : Fin 3 → ℝ)
    (hA : Affine (elements blocks) X u A c) (hF : computeInternalForce val X u blocks = some F) (g : ℕ) :
    ∃ S : Matrix (Fin 3) (Fin 3) ℝ, (elements blocks ≠ [] → ∃ a sig, fullMat a = A ∧ law a = some sig ∧ symMat sig = S) ∧
      ∀ d : Fin 3, F (3 * g + d) = - ∑ i : Fin (elements blocks).length, ∑ n : Fin 8,
        if ((elements blocks)[i]).1.nodeId ((elements blocks)[i]).2 n = g then
          ∑ k : Fin 3, gaussArea val (gather ((elements blocks)[i]).1 ((elements blocks)[i]).2 fun k => X k + u k) n k * S k d
        else 0 := by
  classical
  have hdef := (internal_force_defined val X u blocks).mp ⟨F, hF⟩
  have hmem : ∀ be ∈ elements blocks, be.1.law = law ∧ ∃ f, elementForce val be.1 X u be.2 = some f := by
    rintro ⟨b, e⟩ h
    simp only [elements, List.mem_flatMap, List.mem_map, Prod.mk.injEq] at h
    obtain ⟨b', hb', e', he', rfl, rfl⟩ := h
    exact ⟨hlaw b' hb', hdef b' hb' e' he'⟩
  have hsum : ∀ d : Fin 3, F (3 * g + d) = ((elements blocks).map fun be => (elementForce val be.1 X u be.2).elim 0 fun f =>
      ∑ n ∈ Finset.range 8, if be.1.nodeId be.2 n = g then f n d else 0).sum := by
    intro d
    rw [internal_force_sum val X u F blocks hF g d, elements, List.map_flatMap, Solver.sum_flatMap']
    simp only [List.map_map]
    rfl
  have hlist : ∀ (L : List (Blk ℝ × ℕ)) (φ : Blk ℝ × ℕ → ℝ), (L.map φ).sum = ∑ i : Fin L.length, φ L[i] := by
    intro L φ
    rw [← List.sum_ofFn]
    congr 1
    apply List.ext_getElem <;> simp
  obtain ⟨S, hS0, hS⟩ : ∃ S : Matrix (Fin 3) (Fin 3) ℝ, (elements blocks ≠ [] → ∃ a sig, fullMat a = A ∧ law a = some sig ∧ symMat sig = S) ∧
      ∀ be ∈ elements blocks, ∀ f, elementForce val be.1 X u be.2 = some f →
      ∀ (n : Fin 8) (d : Fin 3), f n d = - ∑ k : Fin 3, gaussArea val (gather be.1 be.2 fun k => X k + u k) n k * S k d := by
    rcases (elements blocks).eq_nil_or_concat with hnil | ⟨_, last, hne⟩
    · exact ⟨0, fun h => absurd hnil h, fun be hbe => by rw [hnil] at hbe; exact absurd hbe (List.not_mem_nil)⟩
    have hlast : last ∈ elements blocks := by rw [hne]; simp
    obtain ⟨hl, f0, hf0⟩ := hmem last hlast
    obtain ⟨a, sig, ha, hsig, -⟩ := element_force_affine_gauss val last.1 last.2 X u A c
      (fun be hbe => by rw [List.mem_singleton.mp hbe]; exact hA last hlast) f0 hf0
    rw [hl] at hsig
    refine ⟨symMat sig, fun _ => ⟨a, sig, ha, hsig, rfl⟩, fun be hbe f hf n d => ?_⟩
    obtain ⟨a', sig', ha', hsig', hval'⟩ := element_force_affine_gauss val be.1 be.2 X u A c
      (fun be' hbe' => by rw [List.mem_singleton.mp hbe']; exact hA be hbe) f hf
    have : a' = a := fullMat_injective (ha'.trans ha.symm)
    rw [this, (hmem be hbe).1] at hsig'
    rw [hsig] at hsig'
    rw [hval' n d, ← Option.some.inj hsig']
  refine ⟨S, hS0, fun d => ?_⟩
  rw [hsum d, hlist, ← Finset.sum_neg_distrib]
  apply Finset.sum_congr rfl
  intro i _
  have hbe : (elements blocks)[i] ∈ elements blocks := List.getElem_mem _
  obtain ⟨-, f, hf⟩ := hmem _ hbe
  rw [hf, Option.elim_some, Finset.sum_range, ← Finset.sum_neg_distrib]
  apply Finset.sum_congr rfl
  intro n _
  split_ifs
  · exact hS _ hbe f hf n d
  · simp

/-- With the exact Gauss coordinate the area vectors cancel. -/
theorem exact_areas_cancel (L : List (Blk ℝ × ℕ)) (x : ℕ → ℝ) (g : ℕ) (hg : Interior L g) (S : Matrix (Fin 3) (Fin 3) ℝ) (d : Fin 3) :
    ∑ i : Fin L.length, ∑ n : Fin 8, (if (L[i]).1.nodeId (L[i]).2 n = g then
      ∑ k : Fin 3, gaussArea (1 / Real.sqrt 3) (gather (L[i]).1 (L[i]).2 x) n k * S k d else 0) = 0 := by
  have hc := areas_cancel L x g hg
  have h1 : ∀ (i : Fin L.length) (n : Fin 8), (if (L[i]).1.nodeId (L[i]).2 n = g then
      ∑ k : Fin 3, gaussArea (1 / Real.sqrt 3) (gather (L[i]).1 (L[i]).2 x) n k * S k d else 0)
      = ∑ k : Fin 3, (if (L[i]).1.nodeId (L[i]).2 n = g then nodeArea (gather (L[i]).1 (L[i]).2 x) n else 0) k * S k d := by
    intro i n
    split_ifs
    · simp only [gaussArea, area_eq_faces _ exact_val]
    · simp
  simp only [h1]
  have h2 : ∀ k : Fin 3, ∑ i : Fin L.length, ∑ n : Fin 8,
      (if (L[i]).1.nodeId (L[i]).2 n = g then nodeArea (gather (L[i]).1 (L[i]).2 x) n else 0) k = 0 := by
    intro k
    have := congrFun hc k
    simp only [Finset.sum_apply, Pi.zero_apply] at this
    exact this
  have h3 : ∀ i : Fin L.length, (∑ n : Fin 8, ∑ k : Fin 3,
      (if (L[i]).1.nodeId (L[i]).2 n = g then nodeArea (gather (L[i]).1 (L[i]).2 x) n else 0) k * S k d)
      = ∑ k : Fin 3, (∑ n : Fin 8, (if (L[i]).1.nodeId (L[i]).2 n = g then nodeArea (gather (L[i]).1 (L[i]).2 x) n else 0) k) * S k d := by
    intro i
    rw [Finset.sum_comm]
    simp only [Finset.sum_mul]
  simp only [h3]
  rw [Finset.sum_comm]
  simp only [← Finset.sum_mul, h2, zero_mul, Finset.sum_const_zero]

/-- **C112 for the code's constant, meshes of parallelepipeds**: the internal force at an interior node is exactly zero whatever
the Gauss coordinate. -/
theorem patch_test_parallelepipeds (val : ℝ) (blocks : List (Blk ℝ × List ℕ)) (law : (Fin 9 → ℝ) → Option (Fin 6 → ℝ))
    (hlaw : ∀ b ∈ blocks, b.1.law = law) (X u F : ℕ → ℝ) (A : Matrix (Fin 3) (Fin 3) ℝ) (c : Fin 3 → ℝ)
    (hA : Affine (elements blocks) X u A c) (hF : computeInternalForce val X u blocks = some F)
    (hskew : AllSkew (elements blocks) fun k => X k + u k)
    (g : ℕ) (hg : Interior (elements blocks) g) (d : Fin 3) : F (3 * g + d) = 0 := by
  obtain ⟨S, -, hS⟩ := internal_force_affine val blocks law hlaw X u F A c hA hF g
  rw [hS d, neg_eq_zero]
  refine Eq.trans ?_ (exact_areas_cancel (elements blocks) (fun k => X k + u k) g hg S d)
  apply Finset.sum_congr rfl; intro i _
  apply Finset.sum_congr rfl; intro n _
  obtain ⟨B, o, hB⟩ := hskew _ (List.getElem_mem i.isLt)
  have hx : ∀ (n : Fin 8) (d : Fin 3), gather ((elements blocks)[i]).1 ((elements blocks)[i]).2 (fun k => X k + u k) (3 * n + d)
      = (∑ j : Fin 3, B d j * corner n j) + o d := by
    intro n d
    rw [gather_val _ _ _ n.isLt]
    exact hB n d
  by_cases hn : ((elements blocks)[i]).1.nodeId ((elements blocks)[i]).2 n = g
  · rw [if_pos hn, if_pos hn]
    apply Finset.sum_congr rfl; intro k _
    rw [gaussArea_skew val _ B o hx, gaussArea_skew (1 / Real.sqrt 3) _ B o hx]
  · rw [if_neg hn, if_neg hn]

/-- **C112 for the code's constant, all meshes**: the internal force at an interior node is at most
`216 |val² - 1/3|` times the number of element corners there, the largest stress and the square of the element size. -/
theorem patch_test_bound (val : ℝ) (hv1 : val ^ 2 ≤ 1) (blocks : List (Blk ℝ × List ℕ)) (law : (Fin 9 → ℝ) → Option (Fin 6 → ℝ))
    (hlaw : ∀ b ∈ blocks, b.1.law = law) (X u F : ℕ → ℝ) (A : Matrix (Fin 3) (Fin 3) ℝ) (c : Fin 3 → ℝ)
    (hA : Affine (elements blocks) X u A c) (hF : computeInternalForce val X u blocks = some F)
    (R : ℝ) (hR : SizeAtMost (elements blocks) (fun k => X k + u k) R)
    (smax : ℝ) (hs : ∀ a sig, fullMat a = A → law a = some sig → ∀ i j, |symMat sig i j| ≤ smax)
    (g : ℕ) (hg : Interior (elements blocks) g) (d : Fin 3) :
    |F (3 * g + d)| ≤ cornersAt (elements blocks) g * (216 * |val ^ 2 - 1 / 3| * R ^ 2 * smax) := by
  obtain ⟨S, hS0, hS⟩ := internal_force_affine val blocks law hlaw X u F A c hA hF g
  have hw : (1 / Real.sqrt 3) ^ 2 = (1 / 3 : ℝ) := by have := exact_val; linarith
  rw [hS d, abs_neg]
  refine le_trans (le_of_eq (congrArg abs (Eq.trans (sub_zero _).symm
    (congrArg (fun t => _ - t) (exact_areas_cancel (elements blocks) (fun k => X k + u k) g hg S d).symm)))) ?_
  rw [← Finset.sum_sub_distrib, cornersAt]
  push_cast
  rw [Finset.sum_mul]
  refine (Finset.abs_sum_le_sum_abs _ _).trans (Finset.sum_le_sum fun i _ => ?_)
  rw [← Finset.sum_sub_distrib, Finset.sum_mul]
  refine (Finset.abs_sum_le_sum_abs _ _).trans (Finset.sum_le_sum fun n _ => ?_)
  have hbe : (elements blocks)[i] ∈ elements blocks := List.getElem_mem _
  obtain ⟨a, sig, ha, hsig, hSs⟩ := hS0 (List.ne_nil_of_mem hbe)
  have hsm : ∀ k : Fin 3, |S k d| ≤ smax := fun k => by rw [← hSs]; exact hs a sig ha hsig k d
  obtain ⟨o, ho⟩ := hR _ hbe
  by_cases hn : ((elements blocks)[i]).1.nodeId ((elements blocks)[i]).2 n = g
  · rw [if_pos hn, if_pos hn, if_pos hn, ← Finset.sum_sub_distrib]
    refine (Finset.abs_sum_le_sum_abs _ _).trans ?_
    refine (Finset.sum_le_sum (g := fun _ => 72 * |val ^ 2 - 1 / 3| * R ^ 2 * smax) fun k _ => ?_).trans (le_of_eq (by simp; ring))
    rw [← sub_mul, abs_mul]
    have h1 := gaussArea_close val (1 / Real.sqrt 3) hv1 (by rw [hw]; norm_num) (gather ((elements blocks)[i]).1 ((elements blocks)[i]).2 fun k => X k + u k)
      o R (fun m d => by rw [gather_val _ _ _ m.isLt]; exact ho m m.isLt d) n k
    rw [hw] at h1
    exact mul_le_mul h1 (hsm k) (abs_nonneg _) (by positivity)
  · rw [if_neg hn, if_neg hn, if_neg hn]; simp

/-- The literal of nimble_element.cc:58. -/
theorem gaussVal_close : |(gaussVal : ℝ) ^ 2 - 1 / 3| ≤ 3 / 10 ^ 16 ∧ (gaussVal : ℝ) ^ 2 ≤ 1 := by
  unfold gaussVal
  constructor
  · rw [abs_le]; constructor <;> norm_num
  · norm_num

/-- **C112 for the code's constant.** -/
theorem patch_test_code (blocks : List (Blk ℝ × List ℕ)) (law : (Fin 9 → ℝ) → Option (Fin 6 → ℝ))
    (hlaw : ∀ b ∈ blocks, b.1.law = law) (X u F : ℕ → ℝ) (A : Matrix (Fin 3) (Fin 3) ℝ) (c : Fin 3 → ℝ)
    (hA : Affine (elements blocks) X u A c) (hF : computeInternalForce gaussVal X u blocks = some F)
    (R : ℝ) (hR : SizeAtMost (elements blocks) (fun k => X k + u k) R)
    (smax : ℝ) (hs0 : 0 ≤ smax) (hs : ∀ a sig, fullMat a = A → law a = some sig → ∀ i j, |symMat sig i j| ≤ smax)
    (g : ℕ) (hg : Interior (elements blocks) g) (d : Fin 3) :
    |F (3 * g + d)| ≤ cornersAt (elements blocks) g * (7 / 10 ^ 14 * R ^ 2 * smax) := by
  refine (patch_test_bound gaussVal gaussVal_close.2 blocks law hlaw X u F A c hA hF R hR smax hs g hg d).trans ?_
  apply mul_le_mul_of_nonneg_left _ (Nat.cast_nonneg _)
  apply mul_le_mul_of_nonneg_right _ hs0
  apply mul_le_mul_of_nonneg_right _ (sq_nonneg _)
  have := gaussVal_close.1
  linarith

/-! ## Mass -/

theorem meshVolume_close (val : ℝ) (hv1 : val ^ 2 ≤ 1) (L : List (Blk ℝ × ℕ)) (x : ℕ → ℝ) (R : ℝ) (hR : SizeAtMost L x R) :
    |meshVolume val L x - meshVolume (1 / Real.sqrt 3) L x| ≤ L.length * (576 * |val ^ 2 - 1 / 3| * R ^ 3) := by
  have hw : (1 / Real.sqrt 3) ^ 2 = (1 / 3 : ℝ) := by have := exact_val; linarith
  unfold meshVolume
  rw [← Finset.sum_sub_distrib]
  refine (Finset.abs_sum_le_sum_abs _ _).trans ?_
  refine (Finset.sum_le_sum (g := fun _ => 576 * |val ^ 2 - 1 / 3| * R ^ 3) fun i _ => ?_).trans (le_of_eq (by simp))
  obtain ⟨o, ho⟩ := hR _ (List.getElem_mem i.isLt)
  have h1 := volume_close val (1 / Real.sqrt 3) hv1 (by rw [hw]; norm_num) (gather (L[i]).1 (L[i]).2 x)
      o R (fun m d => by rw [gather_val _ _ _ m.isLt]; exact ho m m.isLt d)
  rw [hw] at h1
  exact h1

/-- **C113 for the code's constant, all meshes**: moving interior nodes changes the total mass by at most the density times
`1152 |val² - 1/3| R³` per element. -/
theorem mass_interior_bound (val : ℝ) (hv1 : val ^ 2 ≤ 1) (blocks : List (Blk ℝ)) (N : ℕ) (hmesh : InMesh N (serial blocks)) (rho : ℝ)
    (hrho : ∀ b ∈ blocks, b.density = rho) (X X' M M' : ℕ → ℝ)
    (hM : computeLumpedMassField val X blocks (fun _ => 0) = some M)
    (hM' : computeLumpedMassField val X' blocks (fun _ => 0) = some M')
    (moved : Finset ℕ) (hmoved : ∀ g ∈ moved, Interior (elements (serial blocks)) g)
    (hX : ∀ n ∉ moved, ∀ d : Fin 3, X' (3 * n + d) = X (3 * n + d))
    (R : ℝ) (hR : SizeAtMost (elements (serial blocks)) X R) (hR' : SizeAtMost (elements (serial blocks)) X' R) :
    |(∑ n ∈ Finset.range N, M' n) - ∑ n ∈ Finset.range N, M n|
      ≤ |rho| * ((elements (serial blocks)).length * (1152 * |val ^ 2 - 1 / 3| * R ^ 3)) := by
  rw [total_mass val blocks N hmesh rho hrho X M hM, total_mass val blocks N hmesh rho hrho X' M' hM', ← mul_sub, abs_mul]
  apply mul_le_mul_of_nonneg_left _ (abs_nonneg _)
  have h1 := meshVolume_close val hv1 _ X R hR
  have h2 := meshVolume_close val hv1 _ X' R hR'
  have h3 := volume_interior (1 / Real.sqrt 3) exact_val _ moved hmoved X X' hX
  rw [abs_le] at *
  constructor <;> nlinarith [h1.1, h1.2, h2.1, h2.2]

/-- **C113 for the code's constant.** -/
theorem mass_interior_code (blocks : List (Blk ℝ)) (N : ℕ) (hmesh : InMesh N (serial blocks)) (rho : ℝ)
    (hrho : ∀ b ∈ blocks, b.density = rho) (X X' M M' : ℕ → ℝ)
    (hM : computeLumpedMassField gaussVal X blocks (fun _ => 0) = some M)
    (hM' : computeLumpedMassField gaussVal X' blocks (fun _ => 0) = some M')
    (moved : Finset ℕ) (hmoved : ∀ g ∈ moved, Interior (elements (serial blocks)) g)
    (hX : ∀ n ∉ moved, ∀ d : Fin 3, X' (3 * n + d) = X (3 * n + d))
    (R : ℝ) (hR0 : 0 ≤ R) (hR : SizeAtMost (elements (serial blocks)) X R) (hR' : SizeAtMost (elements (serial blocks)) X' R) :
    |(∑ n ∈ Finset.range N, M' n) - ∑ n ∈ Finset.range N, M n|
      ≤ |rho| * ((elements (serial blocks)).length * (4 / 10 ^ 13 * R ^ 3)) := by
  refine (mass_interior_bound gaussVal gaussVal_close.2 blocks N hmesh rho hrho X X' M M' hM hM' moved hmoved hX R hR hR').trans ?_
  apply mul_le_mul_of_nonneg_left _ (abs_nonneg _)
  apply mul_le_mul_of_nonneg_left _ (Nat.cast_nonneg _)
  apply mul_le_mul_of_nonneg_right _ (pow_nonneg hR0 3)
  have := gaussVal_close.1
  linarith

/-! ## Non-vacuity -/

/-- The eight-element grid stretched to twice its length, computed with the code's constant: the force exists and the theorem
gives zero at the centre. -/
example : let b := gridBlk (fun F => some (elasticStress (K := ℝ) ⟨1, 1, 1⟩ F)) 1
    ∃ F, computeInternalForce gaussVal gridX (fun k => if k % 3 = 0 then gridX k else 0) (serial [b]) = some F ∧
      ∀ d : Fin 3, F (3 * 13 + d) = 0 := by
  intro b
  have hb : b = gridBlk (fun F => some (elasticStress (K := ℝ) ⟨1, 1, 1⟩ F)) 1 := rfl
  clear_value b
  have hu : ∀ (m : ℕ) (d : Fin 3), gridX (3 * m + d) + (if (3 * m + d.val) % 3 = 0 then gridX (3 * m + d) else 0)
      = ![2, 1, 1] d * gridX (3 * m + d) := by
    intro m d
    fin_cases d
    · simp; ring
    · simp [show (3 * m + 1) % 3 = 1 by omega]
    · simp [show (3 * m + 2) % 3 = 2 by omega]
  obtain ⟨F, hF⟩ := (internal_force_defined gaussVal gridX (fun k => if k % 3 = 0 then gridX k else 0) (serial [b])).mpr (by
    intro b' hb' e he
    rw [serial, List.map_singleton, List.mem_singleton] at hb'
    subst hb'
    simp only [List.mem_range, hb, gridBlk] at he
    obtain ⟨t, ht⟩ := grid_gather (fun F => some (elasticStress (K := ℝ) ⟨1, 1, 1⟩ F)) 1 e he
    rw [← hb] at ht
    apply elementForce_defined
    · intro F; rw [hb]; exact ⟨_, rfl⟩
    · intro p
      rw [Jac_box _ _ (fun _ => 1 / 2) t (fun n d => by rw [gather_val _ _ _ n.isLt, ht]), det_box]
      norm_num
    · intro p
      rw [Jac_box _ _ ![1, 1 / 2, 1 / 2] (fun d => ![2, 1, 1] d * t d) (fun n d => by
        rw [gather_val _ _ _ n.isLt, hu, ht]
        fin_cases d <;> simp; ring), det_box]
      simp)
  refine ⟨F, hF, fun d => ?_⟩
  refine patch_test_parallelepipeds gaussVal (serial [b]) b.law (fun b' hb' => ?_) gridX _ F (Matrix.diagonal ![2, 1, 1]) 0 ?_ hF ?_ 13
    (by rw [hb]; exact grid_interior _ _) d
  · rw [serial, List.map_singleton, List.mem_singleton] at hb'
    rw [hb']
  · intro be _ n _ d
    rw [hu]
    fin_cases d <;> simp [Fin.sum_univ_three, Matrix.diagonal_apply]
  · intro be hbe
    simp only [elements, serial, List.map_singleton, List.flatMap_singleton, List.mem_map, List.mem_range] at hbe
    obtain ⟨e, he, rfl⟩ := hbe
    simp only [hb, gridBlk] at he
    obtain ⟨t, ht⟩ := grid_gather (fun F => some (elasticStress (K := ℝ) ⟨1, 1, 1⟩ F)) 1 e he
    rw [← hb] at ht
    refine ⟨Matrix.diagonal ![1, 1 / 2, 1 / 2], fun d => ![2, 1, 1] d * t d, fun n d => ?_⟩
    simp only
    rw [hu, ht]
    fin_cases d <;> simp [Fin.sum_univ_three, Matrix.diagonal_apply]; ring

end NimbleSM.Assembly
