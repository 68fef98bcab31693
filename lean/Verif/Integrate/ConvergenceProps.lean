import Verif.Integrate.ConvergenceLemmas
import Verif.Newton.NewtonLemmas
import Verif.Integrate.CubeProps
import Verif.Assembly.ParallelProps
import Mathlib.Topology.Order.Compact
import Mathlib.Analysis.SpecialFunctions.Trigonometric.Deriv

/-!
# C132: explicit runs of elastic bodies converge to the motion of the body

As the number of steps of an explicit run grows, the displacements and velocities it computes converge to the
solution of the equations of motion of the mesh, and the error is of second order in the step size.
-/

set_option linter.unusedSectionVars false

open scoped BigOperators

namespace NimbleSM.Integrate

open NimbleSM.Bc NimbleSM.Assembly NimbleSM.Hex NimbleSM.Constitutive

/-! ## Specification -/

/-- The same input with `m` load steps. -/
def Config.withSteps (c : Config ℝ) (m : ℕ) : Config ℝ := { c with numSteps := m }

/-- `y` (with velocity `v`, acceleration `a`, jerk `j`, and bounded derivatives up to the fourth) is the motion of
the body of the input: it starts from rest displacement and the initial velocity of the input, meets the
kinematic conditions, no element is turned inside out, and mass times acceleration is the internal force of the
mesh at every free component. -/
structure MeshMotion (val : ℝ) (c : Config ℝ) (blocks : List (Blk ℝ × List ℕ)) (N : ℕ) (y v a j : ℝ → Nodal ℝ)
    (M₃ M₄ : ℝ) : Prop where
  smooth : SmoothMotion N c.initialTime c.finalTime y v a j M₃ M₄
  conditions : MeetsConditions c N y
  rest : ∀ n < N, ∀ i < 3, y c.initialTime n i = 0
  startVel : ∀ n < N, ∀ i < 3, Free c.manager n i → v c.initialTime n i = (start c ()).velocity n i
  motion : ∀ t ∈ Set.Icc c.initialTime c.finalTime, ∃ F, computeInternalForce val (flat c.X) (flat (y t)) blocks = some F ∧
    ∀ n < N, ∀ i < 3, Free c.manager n i → a t n i = F (3 * n + i) / c.mass n

/-! ## Functions of the displacement that are bounded and Lipschitz on bounded sets -/

/-- Bounded and Lipschitz on the displacements of size at most `R`. -/
def Nice (N : ℕ) (R : ℝ) (φ : Nodal ℝ → ℝ) : Prop :=
  ∃ C L : ℝ, 0 ≤ C ∧ 0 ≤ L ∧ (∀ u, Within N R u (fun _ _ => 0) → |φ u| ≤ C) ∧
    ∀ u w ε, 0 ≤ ε → Within N R u (fun _ _ => 0) → Within N R w (fun _ _ => 0) → Within N ε u w → |φ u - φ w| ≤ L * ε

section Nice
variable {N : ℕ} {R : ℝ}

theorem Nice.const (x : ℝ) : Nice N R fun _ => x :=
  ⟨|x|, 0, abs_nonneg _, le_rfl, fun _ _ => le_rfl, fun _ _ _ _ _ _ _ => by simp⟩

theorem Nice.coord (n : ℕ) (hn : n < N) (i : ℕ) (hi : i < 3) : Nice N R fun u => u n i := by
  refine ⟨|R|, 1, abs_nonneg _, zero_le_one, fun u hu => ?_, fun u w ε _ _ _ h => ?_⟩
  · have := hu n hn i hi
    rw [sub_zero] at this
    exact this.trans (le_abs_self R)
  · rw [one_mul]; exact h n hn i hi

theorem Nice.add {φ ψ : Nodal ℝ → ℝ} (hφ : Nice N R φ) (hψ : Nice N R ψ) : Nice N R fun u => φ u + ψ u := by
  obtain ⟨C, L, hC, hL, h1, h2⟩ := hφ
  obtain ⟨C', L', hC', hL', h1', h2'⟩ := hψ
  refine ⟨C + C', L + L', by positivity, by positivity, fun u hu => ?_, fun u w ε h0 hu hw h => ?_⟩
  · exact (abs_add_le _ _).trans (add_le_add (h1 u hu) (h1' u hu))
  · calc |φ u + ψ u - (φ w + ψ w)| = |(φ u - φ w) + (ψ u - ψ w)| := by congr 1; ring
      _ ≤ |φ u - φ w| + |ψ u - ψ w| := abs_add_le _ _
      _ ≤ L * ε + L' * ε := add_le_add (h2 u w ε h0 hu hw h) (h2' u w ε h0 hu hw h)
      _ = _ := by ring

theorem Nice.mul {φ ψ : Nodal ℝ → ℝ} (hφ : Nice N R φ) (hψ : Nice N R ψ) : Nice N R fun u => φ u * ψ u := by
  obtain ⟨C, L, hC, hL, h1, h2⟩ := hφ
  obtain ⟨C', L', hC', hL', h1', h2'⟩ := hψ
  refine ⟨C * C', C * L' + L * C', by positivity, by positivity, fun u hu => ?_, fun u w ε h0 hu hw h => ?_⟩
  · rw [abs_mul]; exact mul_le_mul (h1 u hu) (h1' u hu) (abs_nonneg _) hC
  · calc |φ u * ψ u - φ w * ψ w| = |φ u * (ψ u - ψ w) + (φ u - φ w) * ψ w| := by congr 1; ring
      _ ≤ |φ u * (ψ u - ψ w)| + |(φ u - φ w) * ψ w| := abs_add_le _ _
      _ = |φ u| * |ψ u - ψ w| + |φ u - φ w| * |ψ w| := by rw [abs_mul, abs_mul]
      _ ≤ C * (L' * ε) + (L * ε) * C' := add_le_add
          (mul_le_mul (h1 u hu) (h2' u w ε h0 hu hw h) (abs_nonneg _) hC)
          (mul_le_mul (h2 u w ε h0 hu hw h) (h1' w hw) (abs_nonneg _) (by positivity))
      _ = _ := by ring

theorem Nice.neg {φ : Nodal ℝ → ℝ} (hφ : Nice N R φ) : Nice N R fun u => - φ u := by
  simpa using (Nice.const (-1)).mul hφ

theorem Nice.sum {ι : Type*} (s : Finset ι) {φ : ι → Nodal ℝ → ℝ} (h : ∀ x ∈ s, Nice N R (φ x)) :
    Nice N R fun u => ∑ x ∈ s, φ x u := by
  classical
  induction s using Finset.induction_on with
  | empty => simpa using Nice.const 0
  | insert x s hx ih =>
    simp only [Finset.sum_insert hx]
    exact (h x (Finset.mem_insert_self _ _)).add (ih fun y hy => h y (Finset.mem_insert_of_mem hy))

theorem Nice.listSum {ι : Type*} (l : List ι) {φ : ι → Nodal ℝ → ℝ} (h : ∀ x ∈ l, Nice N R (φ x)) :
    Nice N R fun u => (l.map fun x => φ x u).sum := by
  induction l with
  | nil => simpa using Nice.const 0
  | cons x l ih =>
    simp only [List.map_cons, List.sum_cons]
    exact (h x (List.mem_cons_self)).add (ih fun y hy => h y (List.mem_cons_of_mem _ hy))

theorem Nice.det {A : Nodal ℝ → Matrix (Fin 3) (Fin 3) ℝ} (h : ∀ i j, Nice N R fun u => A u i j) :
    Nice N R fun u => (A u).det := by
  simp only [Matrix.det_fin_three, sub_eq_add_neg]
  exact ((((((((h _ _).mul (h _ _)).mul (h _ _)).add (((h _ _).mul (h _ _)).mul (h _ _)).neg).add
    (((h _ _).mul (h _ _)).mul (h _ _)).neg).add (((h _ _).mul (h _ _)).mul (h _ _))).add
    (((h _ _).mul (h _ _)).mul (h _ _))).add (((h _ _).mul (h _ _)).mul (h _ _)).neg)

theorem Nice.adjugate {A : Nodal ℝ → Matrix (Fin 3) (Fin 3) ℝ} (h : ∀ i j, Nice N R fun u => A u i j) (k i : Fin 3) :
    Nice N R fun u => (A u).adjugate k i := by
  simp only [Matrix.adjugate_apply]
  refine Nice.det fun a b => ?_
  simp only [Matrix.updateRow_apply]
  by_cases hai : a = i
  · simp only [hai, if_true]
    exact Nice.const _
  · simp only [hai, if_false]
    exact h a b

theorem Nice.jac (val : ℝ) (b : Blk ℝ) (e : ℕ) (X : Nodal ℝ) (hN : ∀ c < 8, b.nodeId e c < N) (p : Fin 8) (i k : Fin 3) :
    Nice N R fun u => Jac val (gather b e fun k => flat X k + flat u k) p i k := by
  simp only [Jac, Matrix.of_apply]
  refine Nice.sum _ fun n _ => ?_
  refine Nice.mul ?_ (Nice.const _)
  have : ∀ u : Nodal ℝ, gather b e (fun k => flat X k + flat u k) (3 * n + i) = X (b.nodeId e n) i + u (b.nodeId e n) i := by
    intro u
    rw [gather_val _ _ _ n.isLt, flat_apply, flat_apply]
  simp only [this]
  exact (Nice.const _).add (Nice.coord _ (hN n n.isLt) i i.isLt)

/-- The force of an elastic element, where it is defined, is a polynomial of the displacements. -/
theorem Nice.element (val : ℝ) (b : Blk ℝ) (e : ℕ) (X : Nodal ℝ) (hN : ∀ c < 8, b.nodeId e c < N)
    (bulk shear : ℝ) (n : Fin 8) (d : Fin 3) :
    Nice N R fun u => - ∑ p : Fin 8, ∑ k : Fin 3, gradN n (gaussPt val p) k *
      ((Jac val (gather b e fun k => flat X k + flat u k) p).adjugate * hooke bulk shear (smallStrain
        (Jac val (gather b e fun k => flat X k + flat u k) p * (Jac val (gather b e (flat X)) p)⁻¹))) k d := by
  have hJ := fun p => Nice.jac (N := N) (R := R) val b e X hN p
  have hF : ∀ p i k, Nice N R fun u =>
      (Jac val (gather b e fun k => flat X k + flat u k) p * (Jac val (gather b e (flat X)) p)⁻¹) i k := by
    intro p i k
    simp only [Matrix.mul_apply]
    exact Nice.sum _ fun l _ => (hJ p i l).mul (Nice.const _)
  have hE : ∀ p i k, Nice N R fun u => smallStrain
      (Jac val (gather b e fun k => flat X k + flat u k) p * (Jac val (gather b e (flat X)) p)⁻¹) i k := by
    intro p i k
    simp only [smallStrain, Matrix.sub_apply, Matrix.smul_apply, Matrix.add_apply, Matrix.transpose_apply, smul_eq_mul,
      sub_eq_add_neg]
    exact ((Nice.const _).mul ((hF p i k).add (hF p k i))).add (Nice.const _)
  have hS : ∀ p i k, Nice N R fun u => hooke bulk shear (smallStrain
      (Jac val (gather b e fun k => flat X k + flat u k) p * (Jac val (gather b e (flat X)) p)⁻¹)) i k := by
    intro p i k
    simp only [hooke, Matrix.add_apply, Matrix.smul_apply, smul_eq_mul, Matrix.trace, Matrix.diag_apply]
    exact ((Nice.const _).mul (hE p i k)).add (((Nice.const _).mul (Nice.sum _ fun l _ => hE p l l)).mul (Nice.const _))
  refine Nice.neg (Nice.sum _ fun p _ => Nice.sum _ fun k _ => (Nice.const _).mul ?_)
  simp only [Matrix.mul_apply]
  exact Nice.sum _ fun l _ => (Nice.adjugate (hJ p) k l).mul (hS p l d)

/-- Such a function along a motion is a continuous function of time. -/
theorem Nice.continuousOn {φ : Nodal ℝ → ℝ} (hφ : Nice N R φ) {y : ℝ → Nodal ℝ} {I : Set ℝ}
    (hy : ∀ n < N, ∀ i < 3, ContinuousOn (fun t => y t n i) I) (hR : ∀ t ∈ I, Within N R (y t) fun _ _ => 0) :
    ContinuousOn (fun t => φ (y t)) I := by
  obtain ⟨C, L, hC, hL, h1, h2⟩ := hφ
  intro t ht
  rw [ContinuousWithinAt, Metric.tendsto_nhds]
  intro ε hε
  have hη : 0 < ε / (L + 1) := by positivity
  have hev : ∀ᶠ s in nhdsWithin t I, Within N (ε / (L + 1)) (y s) (y t) := by
    have : ∀ᶠ s in nhdsWithin t I, ∀ q ∈ Finset.range N ×ˢ Finset.range 3, |y s q.1 q.2 - y t q.1 q.2| ≤ ε / (L + 1) := by
      rw [Filter.eventually_all_finset]
      rintro ⟨n, i⟩ hq
      simp only [Finset.mem_product, Finset.mem_range] at hq
      have := Metric.tendsto_nhds.mp (hy n hq.1 i hq.2 t ht) _ hη
      filter_upwards [this] with s hs
      rw [Real.dist_eq] at hs
      exact hs.le
    filter_upwards [this] with s hs n hn i hi
    exact hs (n, i) (by simp [hn, hi])
  filter_upwards [hev, self_mem_nhdsWithin] with s hs hsI
  rw [Real.dist_eq]
  refine lt_of_le_of_lt (h2 _ _ _ hη.le (hR s hsI) (hR t ht) hs) ?_
  rw [mul_div_assoc', div_lt_iff₀ (by positivity)]
  nlinarith

end Nice

/-! ## The internal force near a motion -/

/-- The internal force the code computes; zero where it aborts. -/
noncomputable def codeForce (val : ℝ) (X : Nodal ℝ) (blocks : List (Blk ℝ × List ℕ)) (u : Nodal ℝ) : Nodal ℝ := fun n i =>
  (computeInternalForce val (flat X) (flat u) blocks).elim 0 fun F => F (3 * n + i)

theorem element_positive (val : ℝ) (b : Blk ℝ) (X u : ℕ → ℝ) (e : ℕ) (f : ℕ → Fin 3 → ℝ) (hf : elementForce val b X u e = some f) :
    (∀ p : Fin 8, 0 < (Jac val (gather b e X) p).det) ∧ ∀ p : Fin 8, 0 < (Jac val (gather b e fun k => X k + u k) p).det := by
  unfold elementForce at hf
  simp only [Option.bind_eq_bind, Option.bind_eq_some_iff] at hf
  obtain ⟨G, hG, σ, hσ, hf⟩ := hf
  exact ⟨(deformation_gradients_defined val _ _).mp ⟨G, hG⟩, (nodal_forces_defined val _ _).mp ⟨f, hf⟩⟩

/-- Some bound holds for all components of a continuous motion on an interval. -/
theorem motion_bounded {N : ℕ} {y : ℝ → Nodal ℝ} {t₀ T : ℝ}
    (hy : ∀ n < N, ∀ i < 3, ContinuousOn (fun t => y t n i) (Set.Icc t₀ T)) :
    ∃ R, ∀ t ∈ Set.Icc t₀ T, Within N R (y t) fun _ _ => 0 := by
  have : ∀ q : ℕ × ℕ, ∃ C, 0 ≤ C ∧ (q.1 < N → q.2 < 3 → ∀ t ∈ Set.Icc t₀ T, |y t q.1 q.2| ≤ C) := by
    intro q
    by_cases hq : q.1 < N ∧ q.2 < 3
    · obtain ⟨C, hC⟩ := isCompact_Icc.exists_bound_of_continuousOn (hy q.1 hq.1 q.2 hq.2)
      exact ⟨|C|, abs_nonneg _, fun _ _ t ht => (hC t ht).trans (le_abs_self C)⟩
    · exact ⟨0, le_rfl, fun h1 h2 => absurd ⟨h1, h2⟩ hq⟩
  choose C hC0 hC using this
  refine ⟨∑ q ∈ Finset.range N ×ˢ Finset.range 3, C q, fun t ht n hn i hi => ?_⟩
  rw [sub_zero]
  exact (hC (n, i) hn hi t ht).trans (Finset.single_le_sum (f := C) (fun q _ => hC0 q)
    (Finset.mem_product.mpr ⟨Finset.mem_range.mpr hn, Finset.mem_range.mpr hi⟩))

/-- Around a motion along which a polynomial of the displacements is positive there is a tube in which it is. -/
theorem positive_tube {N : ℕ} {R : ℝ} {φ : Nodal ℝ → ℝ} (hφ : Nice N (R + 1) φ) {y : ℝ → Nodal ℝ} {t₀ T : ℝ}
    (hy : ∀ n < N, ∀ i < 3, ContinuousOn (fun t => y t n i) (Set.Icc t₀ T))
    (hR : ∀ t ∈ Set.Icc t₀ T, Within N R (y t) fun _ _ => 0) (hpos : ∀ t ∈ Set.Icc t₀ T, 0 < φ (y t)) :
    ∃ r, 0 < r ∧ r ≤ 1 ∧ ∀ t ∈ Set.Icc t₀ T, ∀ u, Within N r u (y t) → 0 < φ u := by
  have hR' : ∀ t ∈ Set.Icc t₀ T, Within N (R + 1) (y t) fun _ _ => 0 := fun t ht n hn i hi => (hR t ht n hn i hi).trans (by linarith)
  by_cases hne : (Set.Icc t₀ T).Nonempty
  · obtain ⟨tm, htm, hmin⟩ := isCompact_Icc.exists_isMinOn hne (hφ.continuousOn hy hR')
    set δ := φ (y tm) with hδ
    have hδ0 : 0 < δ := hpos tm htm
    obtain ⟨C, L, hC, hL, h1, h2⟩ := hφ
    refine ⟨min 1 (δ / (2 * (L + 1))), by positivity, min_le_left _ _, fun t ht u hu => ?_⟩
    set r := min 1 (δ / (2 * (L + 1))) with hr
    have hr0 : 0 < r := by rw [hr]; positivity
    have hu' : Within N (R + 1) u fun _ _ => 0 := by
      intro n hn i hi
      have e1 := hu n hn i hi
      have e2 := hR t ht n hn i hi
      rw [sub_zero] at e2 ⊢
      have e3 : r ≤ 1 := min_le_left _ _
      calc |u n i| = |(u n i - y t n i) + y t n i| := by congr 1; ring
        _ ≤ |u n i - y t n i| + |y t n i| := abs_add_le _ _
        _ ≤ R + 1 := by linarith
    have := h2 u (y t) r hr0.le hu' (hR' t ht) hu
    have hmin' : δ ≤ φ (y t) := hmin ht
    have hrL : L * r ≤ δ / 2 := by
      have : r ≤ δ / (2 * (L + 1)) := min_le_right _ _
      calc L * r ≤ L * (δ / (2 * (L + 1))) := mul_le_mul_of_nonneg_left this hL
        _ ≤ δ / 2 := by
          rw [mul_div_assoc', div_le_div_iff₀ (by positivity) (by norm_num)]
          nlinarith
    have := (abs_le.mp this).1
    linarith
  · exact ⟨1, one_pos, le_rfl, fun t ht => absurd ⟨t, ht⟩ hne⟩

theorem common_tube {ι : Type*} (l : List ι) (P : ι → ℝ → Prop) (hmono : ∀ x r r', 0 < r' → r' ≤ r → P x r → P x r')
    (h : ∀ x ∈ l, ∃ r, 0 < r ∧ r ≤ 1 ∧ P x r) : ∃ r, 0 < r ∧ r ≤ 1 ∧ ∀ x ∈ l, P x r := by
  induction l with
  | nil => exact ⟨1, one_pos, le_rfl, by simp⟩
  | cons x l ih =>
    obtain ⟨r, hr, hr1, hP⟩ := h x List.mem_cons_self
    obtain ⟨r', hr', hr1', hP'⟩ := ih fun y hy => h y (List.mem_cons_of_mem _ hy)
    refine ⟨min r r', lt_min hr hr', (min_le_left _ _).trans hr1, fun z hz => ?_⟩
    rcases List.mem_cons.mp hz with rfl | hz
    · exact hmono _ _ _ (lt_min hr hr') (min_le_left _ _) hP
    · exact hmono _ _ _ (lt_min hr hr') (min_le_right _ _) (hP' z hz)

/-- Near a motion along which the internal force of an elastic mesh is defined, it is defined and Lipschitz. -/
theorem elastic_forces_near (val : ℝ) {c : Config ℝ} {blocks : List (Blk ℝ × List ℕ)} {N : ℕ} (hmesh : InMesh N blocks)
    {mat : Blk ℝ → Material ℝ} (hlaw : ∀ b ∈ blocks, b.1.law = fun F => some (elasticStress (mat b.1) F))
    {y v a j : ℝ → Nodal ℝ} {M₃ M₄ : ℝ} (hy : MeshMotion val c blocks N y v a j M₃ M₄) :
    ∃ L r, 0 ≤ L ∧ 0 < r ∧
      ForcesNear c (meshPhysics val c.X blocks) N y a (codeForce val c.X blocks) (fun _ _ => 0) L r := by
  have hcont : ∀ n < N, ∀ i < 3, ContinuousOn (fun t => y t n i) (Set.Icc c.initialTime c.finalTime) :=
    fun n hn i hi t ht => (hy.smooth.vel n hn i hi t ht).continuousWithinAt
  obtain ⟨R, hR⟩ := motion_bounded hcont
  have hR' : ∀ t ∈ Set.Icc c.initialTime c.finalTime, Within N (R + 1) (y t) fun _ _ => 0 :=
    fun t ht n hn i hi => (hR t ht n hn i hi).trans (by linarith)
  -- the tube
  obtain ⟨r, hr0, hr1, htube⟩ := common_tube blocks (fun b r => ∀ e ∈ b.2, ∀ t ∈ Set.Icc c.initialTime c.finalTime, ∀ u,
      Within N r u (y t) → ∀ p : Fin 8, 0 < (Jac val (gather b.1 e fun k => flat c.X k + flat u k) p).det)
    (fun b r r' _ hle hP e he t ht u hu => hP e he t ht u fun n hn i hi => (hu n hn i hi).trans hle) (by
      intro b hb
      refine common_tube b.2 (fun e r => ∀ t ∈ Set.Icc c.initialTime c.finalTime, ∀ u,
        Within N r u (y t) → ∀ p : Fin 8, 0 < (Jac val (gather b.1 e fun k => flat c.X k + flat u k) p).det)
        (fun e r r' _ hle hP t ht u hu => hP t ht u fun n hn i hi => (hu n hn i hi).trans hle) fun e he => ?_
      have hp : ∀ p ∈ List.finRange 8, ∃ r, 0 < r ∧ r ≤ 1 ∧ ∀ t ∈ Set.Icc c.initialTime c.finalTime, ∀ u,
          Within N r u (y t) → 0 < (Jac val (gather b.1 e fun k => flat c.X k + flat u k) p).det := by
        intro p _
        refine positive_tube (Nice.det (Nice.jac val b.1 e c.X (hmesh b hb e he) p)) hcont hR fun t ht => ?_
        obtain ⟨F, hF, -⟩ := hy.motion t ht
        obtain ⟨f, hf⟩ := (internal_force_defined val _ _ _).mp ⟨F, hF⟩ b hb e he
        exact (element_positive val b.1 _ _ e f hf).2 p
      obtain ⟨r, hr0, hr1, h⟩ := common_tube (List.finRange 8) (fun p r => ∀ t ∈ Set.Icc c.initialTime c.finalTime, ∀ u,
        Within N r u (y t) → 0 < (Jac val (gather b.1 e fun k => flat c.X k + flat u k) p).det)
        (fun p r r' _ hle hP t ht u hu => hP t ht u fun n hn i hi => (hu n hn i hi).trans hle) hp
      exact ⟨r, hr0, hr1, fun t ht u hu p => h p (List.mem_finRange p) t ht u hu⟩)
  -- inside the tube the force is defined
  have hdefd : ∀ t ∈ Set.Icc c.initialTime c.finalTime, ∀ u, Within N r u (y t) →
      ∀ b ∈ blocks, ∀ e ∈ b.2, ∃ f, elementForce val b.1 (flat c.X) (flat u) e = some f := by
    intro t ht u hu b hb e he
    obtain ⟨F, hF, -⟩ := hy.motion t ht
    obtain ⟨f, hf⟩ := (internal_force_defined val _ _ _).mp ⟨F, hF⟩ b hb e he
    exact elementForce_defined val b.1 _ _ e (fun F => by rw [hlaw b hb]; exact ⟨_, rfl⟩) (element_positive val b.1 _ _ e f hf).1
      (htube b hb e he t ht u hu)
  have hdef : ∀ t ∈ Set.Icc c.initialTime c.finalTime, ∀ u, Within N r u (y t) →
      ∃ F, computeInternalForce val (flat c.X) (flat u) blocks = some F :=
    fun t ht u hu => (internal_force_defined val _ _ _).mpr (hdefd t ht u hu)
  -- and equal to a polynomial
  have hself : ∀ t, Within N r (y t) (y t) := fun t n _ i _ => by simpa using hr0.le
  have hpoly : ∀ q : ℕ × ℕ, ∃ ψ : Nodal ℝ → ℝ, Nice N (R + 1) ψ ∧ (q.1 < N → q.2 < 3 →
      ∀ t ∈ Set.Icc c.initialTime c.finalTime, ∀ u, Within N r u (y t) → codeForce val c.X blocks u q.1 q.2 = ψ u) := by
    rintro ⟨n, i⟩
    by_cases hi : i < 3
    · refine ⟨fun u => (blocks.map fun b => (b.2.map fun e => ∑ k : Fin 8, (if b.1.nodeId e k = n then (1 : ℝ) else 0) *
        (- ∑ p : Fin 8, ∑ l : Fin 3, gradN k (gaussPt val p) l *
          ((Jac val (gather b.1 e fun k => flat c.X k + flat u k) p).adjugate * hooke (mat b.1).bulk (mat b.1).shear (smallStrain
          (Jac val (gather b.1 e fun k => flat c.X k + flat u k) p * (Jac val (gather b.1 e (flat c.X)) p)⁻¹))) l ⟨i, hi⟩)).sum).sum,
        ?_, ?_⟩
      · exact Nice.listSum _ fun b hb => Nice.listSum _ fun e he => Nice.sum _ fun k _ => (Nice.const _).mul
          (Nice.element val b.1 e c.X (hmesh b hb e he) _ _ k _)
      · intro hn _ t ht u hu
        obtain ⟨F, hF⟩ := hdef t ht u hu
        simp only [codeForce, hF, Option.elim_some]
        have := internal_force_sum val _ _ F blocks hF n ⟨i, hi⟩
        simp only at this
        rw [this]
        refine congrArg List.sum (List.map_congr_left fun b hb => congrArg List.sum (List.map_congr_left fun e he => ?_))
        obtain ⟨f, hf⟩ := hdefd t ht u hu b hb e he
        rw [hf, Option.elim_some, Finset.sum_range]
        refine Finset.sum_congr rfl fun k _ => ?_
        rw [elastic_element_force val b.1 (mat b.1) (hlaw b hb) _ _ e f hf k ⟨i, hi⟩]
        by_cases hk : b.1.nodeId e k = n
        · rw [if_pos hk, if_pos hk, one_mul]
        · rw [if_neg hk, if_neg hk, zero_mul]
    · exact ⟨fun _ => 0, Nice.const 0, fun _ h => absurd h hi⟩
  choose ψ hψ hψe using hpoly
  choose C L hC hL hb hlip using hψ
  refine ⟨∑ q ∈ Finset.range N ×ˢ Finset.range 3, L q / |c.mass q.1|, r, Finset.sum_nonneg fun q _ => div_nonneg (hL q) (abs_nonneg _),
    hr0, rfl, fun _ _ _ _ => rfl, ?_, ?_, ?_⟩
  · intro t ht u hu s tp tc o
    obtain ⟨F, hF⟩ := hdef t ht u hu
    have hce : codeForce val c.X blocks u = fun n i => F (3 * n + i) := by
      funext n i
      simp only [codeForce, hF, Option.elim_some]
    refine ⟨(), ?_⟩
    simp only [meshPhysics, hF, Option.map_some, hce]
  · intro t ht u ε hε hu n hn i hi
    have hε0 : 0 ≤ ε := (abs_nonneg _).trans (hu n hn i hi)
    have hur : Within N r u (y t) := fun n hn i hi => (hu n hn i hi).trans hε
    have huR : Within N (R + 1) u fun _ _ => 0 := by
      intro n hn i hi
      have e1 := hur n hn i hi
      have e2 := hR t ht n hn i hi
      rw [sub_zero] at e2 ⊢
      calc |u n i| = |(u n i - y t n i) + y t n i| := by congr 1; ring
        _ ≤ |u n i - y t n i| + |y t n i| := abs_add_le _ _
        _ ≤ R + 1 := by linarith
    rw [hψe (n, i) hn hi t ht u hur, hψe (n, i) hn hi t ht (y t) (hself t), abs_div]
    have h1 := hlip (n, i) u (y t) ε hε0 huR (hR' t ht) hu
    have h2 : L (n, i) / |c.mass n| ≤ ∑ q ∈ Finset.range N ×ˢ Finset.range 3, L q / |c.mass q.1| :=
      Finset.single_le_sum (f := fun q : ℕ × ℕ => L q / |c.mass q.1|) (fun q _ => div_nonneg (hL q) (abs_nonneg _))
        (Finset.mem_product.mpr ⟨Finset.mem_range.mpr hn, Finset.mem_range.mpr hi⟩ : (n, i) ∈ _)
    calc |ψ (n, i) u - ψ (n, i) (y t)| / |c.mass n| ≤ L (n, i) * ε / |c.mass n| := by gcongr
      _ = L (n, i) / |c.mass n| * ε := by ring
      _ ≤ _ := mul_le_mul_of_nonneg_right h2 hε0
  · intro t ht n hn i hi hF
    obtain ⟨F, hFd, hFa⟩ := hy.motion t ht
    rw [hFa n hn i hi hF]
    simp only [codeForce, hFd, Option.elim_some, add_zero]

/-! ## C132 -/

/-- The internal force of an elastic mesh without displacement is zero. -/
theorem elastic_force_at_rest (val : ℝ) (X y : Nodal ℝ) (blocks : List (Blk ℝ × List ℕ)) (N : ℕ) (hmesh : InMesh N blocks)
    (mat : Blk ℝ → Material ℝ) (hlaw : ∀ b ∈ blocks, b.1.law = fun F => some (elasticStress (mat b.1) F))
    (hy : ∀ n < N, ∀ i < 3, y n i = 0) (F : ℕ → ℝ) (hF : computeInternalForce val (flat X) (flat y) blocks = some F)
    (n : ℕ) (d : Fin 3) : F (3 * n + d) = 0 := by
  rw [internal_force_sum val _ _ F blocks hF n d]
  refine List.sum_eq_zero fun z hz => ?_
  obtain ⟨b, hb, rfl⟩ := List.mem_map.mp hz
  refine List.sum_eq_zero fun z hz => ?_
  obtain ⟨e, he, rfl⟩ := List.mem_map.mp hz
  obtain ⟨f, hf⟩ := (internal_force_defined val _ _ _).mp ⟨F, hF⟩ b hb e he
  rw [hf, Option.elim_some, Finset.sum_range]
  refine Finset.sum_eq_zero fun k _ => ?_
  have hJ : ∀ p, Jac val (gather b.1 e fun k => flat X k + flat y k) p = Jac val (gather b.1 e (flat X)) p := by
    intro p
    ext i l
    simp only [Jac, Matrix.of_apply]
    refine Finset.sum_congr rfl fun q _ => ?_
    rw [gather_val _ _ _ q.isLt, gather_val _ _ _ q.isLt, flat_apply, flat_apply, hy _ (hmesh b hb e he q q.isLt) i i.isLt, add_zero]
  have : f k d = 0 := by
    rw [elastic_element_force val b.1 (mat b.1) (hlaw b hb) _ _ e f hf k d]
    rw [Finset.sum_eq_zero, neg_zero]
    intro p _
    refine Finset.sum_eq_zero fun l _ => ?_
    have hdet := (element_positive val b.1 _ _ e f hf).1 p
    have hz : hooke (mat b.1).bulk (mat b.1).shear (smallStrain (1 : Matrix (Fin 3) (Fin 3) ℝ)) = 0 := by
      have : smallStrain (1 : Matrix (Fin 3) (Fin 3) ℝ) = 0 := by
        unfold smallStrain
        rw [Matrix.transpose_one, ← two_smul ℝ (1 : Matrix (Fin 3) (Fin 3) ℝ), smul_smul]
        norm_num
      rw [this]
      simp [hooke]
    rw [hJ, Matrix.mul_nonsing_inv _ hdet.ne'.isUnit, hz, Matrix.mul_zero]
    simp
  by_cases hk : b.1.nodeId e k = n
  · rw [if_pos hk, this]
  · rw [if_neg hk]

/-- **C132.**  Elastic bodies, any mesh, any kinematic conditions of the kinds in `MeetsConditions`: there is a
constant `C` such that every run with enough load steps `m` completes all its steps, and after every step its
displacements, and its velocities at the free components, are within `C / m²` of the motion of the body. -/
theorem explicit_run_converges (val : ℝ) {c : Config ℝ} (hm : c.manager.scheme ≠ .quasistatic) (ht : c.initialTime < c.finalTime)
    {blocks : List (Blk ℝ × List ℕ)} {N : ℕ} (hmesh : InMesh N blocks)
    {mat : Blk ℝ → Material ℝ} (hlaw : ∀ b ∈ blocks, b.1.law = fun F => some (elasticStress (mat b.1) F))
    {y v a j : ℝ → Nodal ℝ} {M₃ M₄ : ℝ} (h3 : 0 ≤ M₃) (h4 : 0 ≤ M₄) (hy : MeshMotion val c blocks N y v a j M₃ M₄) :
    ∃ (C : ℝ) (m₀ : ℕ), ∀ m ≥ m₀, ∀ k ≤ m, ∃ s,
      loop (c.withSteps m) (meshPhysics val c.X blocks) k (start (c.withSteps m) ()) = some s ∧
      s.time = c.initialTime + k * ((c.finalTime - c.initialTime) / m) ∧
      Within N (C / m ^ 2) s.displacement (y s.time) ∧
      ∀ n < N, ∀ i < 3, Free c.manager n i → |s.velocity n i - v s.time n i| ≤ C / m ^ 2 := by
  obtain ⟨L, r, hL, hr, hf⟩ := elastic_forces_near val hmesh hlaw hy
  set D := c.finalTime - c.initialTime with hD
  have hD0 : 0 < D := by linarith
  set C := Real.exp ((1 + L) ^ 2 * D) * (((1 + L) * M₃ + 2 * M₄) * D ^ 3) with hC
  have hC0 : 0 ≤ C := by positivity
  obtain ⟨m₀, hm₀⟩ := exists_nat_ge (max 1 (max D (C / r)))
  refine ⟨C, m₀, fun m hmm k hk => ?_⟩
  have hmr : max 1 (max D (C / r)) ≤ (m : ℝ) := hm₀.trans (by exact_mod_cast hmm)
  have hm1 : (1 : ℝ) ≤ m := (le_max_left _ _).trans hmr
  have hmD : D ≤ m := ((le_max_left _ _).trans (le_max_right _ _)).trans hmr
  have hmC : C / r ≤ m := ((le_max_right _ _).trans (le_max_right _ _)).trans hmr
  have hm0 : (0 : ℝ) < m := by linarith
  have hdt : (c.withSteps m).dt = D / m := rfl
  have hbound : ∀ k ≤ m, errorBound L M₃ M₄ 0 (D / m) k ≤ C / m ^ 2 := by
    intro k hk
    have hkm : (k : ℝ) ≤ m := by exact_mod_cast hk
    unfold errorBound
    have e1 : (1 + L) ^ 2 * (D / m) * k ≤ (1 + L) ^ 2 * D := by
      have : D / m * k ≤ D := by
        rw [div_mul_eq_mul_div, div_le_iff₀ hm0]
        nlinarith
      calc (1 + L) ^ 2 * (D / m) * k = (1 + L) ^ 2 * (D / m * k) := by ring
        _ ≤ _ := mul_le_mul_of_nonneg_left this (by positivity)
    have e2 : ((1 + L) * M₃ + 2 * M₄) * (D / m) ^ 3 * k + (1 + L) * 0 * (D / m) ≤ ((1 + L) * M₃ + 2 * M₄) * D ^ 3 / m ^ 2 := by
      rw [mul_zero, zero_mul, add_zero]
      calc ((1 + L) * M₃ + 2 * M₄) * (D / m) ^ 3 * k ≤ ((1 + L) * M₃ + 2 * M₄) * (D / m) ^ 3 * m := by gcongr
        _ = _ := by field_simp
    calc _ ≤ Real.exp ((1 + L) ^ 2 * D) * (((1 + L) * M₃ + 2 * M₄) * D ^ 3 / m ^ 2) :=
          mul_le_mul (Real.exp_le_exp.mpr e1) e2 (by positivity) (Real.exp_pos _).le
      _ = C / m ^ 2 := by rw [hC]; ring
  have hrb : errorBound L M₃ M₄ 0 (c.withSteps m).dt (c.withSteps m).numSteps ≤ r := by
    refine (hbound m le_rfl).trans ?_
    rw [div_le_iff₀ (by positivity)]
    rw [div_le_iff₀ hr] at hmC
    nlinarith
  have ha0 : ∀ n < N, ∀ i < 3, Free c.manager n i → |a c.initialTime n i| ≤ 0 := by
    intro n hn i hi hF
    obtain ⟨F, hFd, hFa⟩ := hy.motion c.initialTime ⟨le_rfl, ht.le⟩
    rw [hFa n hn i hi hF]
    have := elastic_force_at_rest val c.X (y c.initialTime) blocks N hmesh mat hlaw hy.rest F hFd n ⟨i, hi⟩
    simp only at this
    rw [this]
    simp
  have hf' : ForcesNear (c.withSteps m) (meshPhysics val c.X blocks) N y a (codeForce val c.X blocks) (fun _ _ => 0) L r :=
    ⟨hf.contact, hf.external, hf.internal, hf.lipschitz, hf.motion⟩
  obtain ⟨s, h1, h2, h5⟩ := explicit_converges (c := c.withSteps m) (p := meshPhysics val c.X blocks) hm hy.smooth hL h3 h4 le_rfl hy.conditions hf'
    (by rw [hdt]; positivity) (by rw [hdt, div_le_one hm0]; exact hmD) () hy.rest hy.startVel ha0 hrb k hk
  have hst : s.time = c.initialTime + k * (D / m) := by rw [loop_time (c.withSteps m) hm _ _ _ _ h1]; rfl
  refine ⟨s, h1, hst, fun n hn i hi => ?_, fun n hn i hi hF => ?_⟩
  · rw [hst]; exact (h2 n hn i hi).trans (hbound k hk)
  · rw [hst]; exact (h5 n hn i hi hF).trans (hbound k hk)

/-- **C132.**  In particular the result of the run converges to the motion at the final time. -/
theorem explicit_result_converges (val : ℝ) {c : Config ℝ} (hm : c.manager.scheme ≠ .quasistatic) (ht : c.initialTime < c.finalTime)
    {blocks : List (Blk ℝ × List ℕ)} {N : ℕ} (hmesh : InMesh N blocks)
    {mat : Blk ℝ → Material ℝ} (hlaw : ∀ b ∈ blocks, b.1.law = fun F => some (elasticStress (mat b.1) F))
    {y v a j : ℝ → Nodal ℝ} {M₃ M₄ : ℝ} (h3 : 0 ≤ M₃) (h4 : 0 ≤ M₄) (hy : MeshMotion val c blocks N y v a j M₃ M₄) (rank : ℕ) :
    ∃ (C : ℝ) (m₀ : ℕ), ∀ m ≥ m₀, ∃ s, integrate (c.withSteps m) (meshPhysics val c.X blocks) () rank = .finished s ∧
      Within N (C / m ^ 2) s.displacement (y c.finalTime) := by
  obtain ⟨C, m₀, h⟩ := explicit_run_converges val hm ht hmesh hlaw h3 h4 hy
  refine ⟨C, max m₀ 1, fun m hmm => ?_⟩
  obtain ⟨s, h1, h2, h3, -⟩ := h m ((le_max_left _ _).trans hmm) m le_rfl
  have hm0 : (m : ℝ) ≠ 0 := by
    have : 0 < m := lt_of_lt_of_le one_pos ((le_max_right _ _).trans hmm)
    positivity
  refine ⟨s, ?_, ?_⟩
  · unfold integrate
    rw [if_neg (by simp only [Config.withSteps]; intro h; linarith [h.2])]
    have : (c.withSteps m).numSteps = m := rfl
    rw [this, h1]
  · have : s.time = c.finalTime := by rw [h2]; field_simp; ring
    rw [← this]; exact h3

end NimbleSM.Integrate
