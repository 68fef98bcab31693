import Verif.Integrate.InvarianceProps
import Verif.Assembly.MeshMapProps

/-!
# C122: mirror images move as mirror images, and a symmetric problem has a symmetric solution

Theorems about `state`, the state of an explicit run after `k` steps, for meshes of elastic and neo-Hookean hexahedral blocks,
without contact.  An isometry `x ↦ R x + o` (rotation or reflection) maps one mesh onto another (or onto itself).
-/

open scoped BigOperators

namespace NimbleSM.Integrate

open Matrix NimbleSM.Bc NimbleSM.Assembly NimbleSM.Hex NimbleSM.Tensor NimbleSM.Constitutive

/-! ## Specification -/

/-- Element `be'` is the image of element `be`: same material, its nodes are the images `π n` of the nodes of `be`, listed from any
corner, with the orientation that the code requires of elements. -/
structure ImageElement (f : ℝ → ℝ) (D : Matrix (Fin 3) (Fin 3) ℝ → Prop) (R : Matrix (Fin 3) (Fin 3) ℝ) (π : ℕ → ℕ)
    (be be' : Blk ℝ × ℕ) : Prop where
  density : be'.1.density = be.1.density
  law : ScaledLaw f D 1 be.1 be'.1
  corners : MapsCorners R π be be'

/-- The mesh `blocks'` consists of the images of the elements of `blocks`, in any order and distributed over blocks in any way. -/
def ImageMesh (f : ℝ → ℝ) (D : Matrix (Fin 3) (Fin 3) ℝ → Prop) (R : Matrix (Fin 3) (Fin 3) ℝ) (π : ℕ → ℕ)
    (blocks blocks' : List (Blk ℝ)) : Prop :=
  ∃ L, List.Forall₂ (ImageElement f D R π) (elements (serial blocks)) L ∧ L.Perm (elements (serial blocks'))

/-- The nodes of `c'` are at the images of the nodes of `c`. -/
def ImageNodes (R : Matrix (Fin 3) (Fin 3) ℝ) (o : Fin 3 → ℝ) (π : ℕ → ℕ) (N : ℕ) (X X' : Nodal ℝ) : Prop :=
  ∀ n < N, ∀ d : Fin 3, X' (π n) d = (∑ k : Fin 3, R d k * X n k) + o d

/-- The isometry that permutes the axes and turns some of them around: component `d` of the image of `x` is `s d * x (τ d)`. -/
noncomputable def signed (τ : Equiv.Perm (Fin 3)) (s : Fin 3 → ℤˣ) : Matrix (Fin 3) (Fin 3) ℝ := (turn τ s)ᵀ

/-- No degree of freedom has two different kinematic conditions. -/
def SingleConditions (m : Manager ℝ) (N : ℕ) : Prop :=
  ∀ n < N, ∀ d : Fin 3, ∀ bc ∈ m.bcs, ∀ bc' ∈ m.bcs, Acts m bc n d → Acts m bc' n d → bc = bc'

/-- The kinematic conditions of `m'` are the images of the ones of `m`: degrees of freedom with a condition have the image condition,
the others none. -/
structure ImageConditions (τ : Equiv.Perm (Fin 3)) (s : Fin 3 → ℤˣ) (π : ℕ → ℕ) (N : ℕ) (m m' : Manager ℝ) (X X' : Nodal ℝ) :
    Prop where
  acting : ∀ n < N, ∀ (d : Fin 3), ∀ bc ∈ m.bcs, Acts m bc n (τ d) → ∃ bc' ∈ m'.bcs, Acts m' bc' (π n) d ∧ bc'.type = bc.type ∧
    ∀ t, prescribed m' bc' X' (π n) t = ((s d : ℤ) : ℝ) * prescribed m bc X n t
  free : ∀ n < N, ∀ (d : Fin 3), Free m n (τ d) → Free m' (π n) d
  single : SingleConditions m N
  single' : ∀ n < N, ∀ d : Fin 3, ∀ bc ∈ m'.bcs, ∀ bc' ∈ m'.bcs, Acts m' bc (π n) d → Acts m' bc' (π n) d → bc = bc'

/-- The initial velocities given in the input deck. -/
noncomputable def initialVelocity (c : Config ℝ) : Nodal ℝ := (applyInitialConditions c.manager c.X (fun _ _ => 0) []).1

/-! ## Laws -/

theorem isometry_det {R : Matrix (Fin 3) (Fin 3) ℝ} (hR : R * Rᵀ = 1) : R.det = 1 ∨ R.det = -1 := by
  have := congrArg Matrix.det hR
  rw [Matrix.det_mul, Matrix.det_transpose, Matrix.det_one] at this
  exact mul_self_eq_one_iff.mp this

theorem law_maps (f : ℝ → ℝ) (hf : IsCosThird f) (D : Matrix (Fin 3) (Fin 3) ℝ → Prop) {R : Matrix (Fin 3) (Fin 3) ℝ}
    (hR : R * Rᵀ = 1) (b b' : Blk ℝ) (h : ScaledLaw f D 1 b b') : MapsStress b.law b'.law D R := by
  intro F F' σ hD hF hσ
  rcases isometry_det hR with hdet | hdet
  · obtain ⟨σ', h1, h2⟩ := scaled_corresponding f hf D 1 1 one_ne_zero R hR hdet b b' h F F' σ hD (by simpa using hF) hσ
    refine ⟨σ', h1, ?_⟩
    simpa [hdet] using h2
  · have hR' : (-R) * (-R)ᵀ = 1 := by simpa using hR
    have hdet' : (-R).det = 1 := by rw [Matrix.det_neg, hdet]; norm_num
    obtain ⟨σ', h1, h2⟩ := scaled_corresponding f hf D 1 1 one_ne_zero (-R) hR' hdet' b b' h F F' σ hD (by simpa using hF) hσ
    refine ⟨σ', h1, ?_⟩
    simpa [hdet'] using h2

theorem ImageMesh.maps {f : ℝ → ℝ} (hf : IsCosThird f) {D : Matrix (Fin 3) (Fin 3) ℝ → Prop} {R : Matrix (Fin 3) (Fin 3) ℝ}
    (hR : R * Rᵀ = 1) {π : ℕ → ℕ} {blocks blocks' : List (Blk ℝ)} (h : ImageMesh f D R π blocks blocks') :
    MapsMesh D R π (serial blocks) (serial blocks') := by
  obtain ⟨L, h1, h2⟩ := h
  exact ⟨L, h1.imp fun be be' h => ⟨h.density, law_maps f hf D hR _ _ h.law, h.corners⟩, h2⟩

/-! ## Runs -/

/-- The description of the image. -/
def image (R : Matrix (Fin 3) (Fin 3) ℝ) (o : Fin 3 → ℝ) (π : ℕ → ℕ) (N : ℕ) : Change ℝ where
  length := 1
  time := 1
  stress := 1
  density := 1
  axes := R
  origin := o
  drift := 0
  node := π
  nodes := N

theorem image_vec (R : Matrix (Fin 3) (Fin 3) ℝ) (o : Fin 3 → ℝ) (π : ℕ → ℕ) (N : ℕ) (x : Nodal ℝ) (n : ℕ) (d : Fin 3) :
    (image R o π N).vec 1 x n d = ∑ k : Fin 3, R d k * x n k := by simp [Change.vec, image]

theorem image_fields (R : Matrix (Fin 3) (Fin 3) ℝ) (o : Fin 3 → ℝ) (π : ℕ → ℕ) (N : ℕ) (t : ℝ) (u v u' v' : Nodal ℝ) :
    (image R o π N).Fields t u v u' v' ↔ ∀ n < N, ∀ d : Fin 3, u' (π n) d = ∑ k : Fin 3, R d k * u n k ∧
      v' (π n) d = ∑ k : Fin 3, R d k * v n k := by
  unfold Change.Fields
  simp [image, Change.vec]

theorem element_inMesh {N : ℕ} {blocks : List (Blk ℝ)} (hN : InMesh N (serial blocks)) {be : Blk ℝ × ℕ}
    (hbe : be ∈ elements (serial blocks)) : ∀ n < 8, be.1.nodeId be.2 n < N := by
  obtain ⟨b, hb, h1, h2⟩ := mem_elements.mp hbe
  intro n hn
  rw [← h1]
  exact hN b hb be.2 h2 n hn

section Run

variable {val : ℝ} {f : ℝ → ℝ} (hf : IsCosThird f) {D : Matrix (Fin 3) (Fin 3) ℝ → Prop} {c c' : Config ℝ}
  {blocks blocks' : List (Blk ℝ)} {N : ℕ} (hN : InMesh N (serial blocks)) {R : Matrix (Fin 3) (Fin 3) ℝ} (hR : R * Rᵀ = 1)
  {o : Fin 3 → ℝ} {π : ℕ → ℕ} (hπ : Function.Injective π) (hX : ImageNodes R o π N c.X c'.X)
  (hmesh : ImageMesh f D R π blocks blocks')

include hf hN hR hπ hX hmesh in
theorem image_forces : (image R o π N).Forces val c c' (serial blocks) (serial blocks') (AllDeform val D blocks c.X) := by
  intro t u v u' v' hfl hD F hF
  rw [image_fields] at hfl
  obtain ⟨F', h1, h2⟩ := internal_force_mapped val (serial blocks) (serial blocks') R hR π hπ D (hmesh.maps hf hR) (flat c.X)
    (flat c'.X) (flat u) (flat u') o o
    (fun be hbe n hn d => by
      rw [flat_apply, hX _ (element_inMesh hN hbe n hn)]
      simp only [flat_apply])
    (fun be hbe n hn d => by
      simp only
      rw [flat_apply, flat_apply, hX _ (element_inMesh hN hbe n hn), (hfl _ (element_inMesh hN hbe n hn) d).1]
      simp only [flat_apply, mul_add, Finset.sum_add_distrib]
      ring)
    (fun be hbe => by
      obtain ⟨b, hb, e1, e2⟩ := mem_elements.mp hbe
      simp only [serial, List.mem_map] at hb
      obtain ⟨b0, hb0, rfl⟩ := hb
      simp only at e1 e2
      rw [← e1]
      exact hD b0 hb0 be.2 (List.mem_range.mp e2)) F hF
  refine ⟨F', h1, fun n _ d => ?_⟩
  have := h2 n d
  simpa [image] using this

include hf hN hR hπ hX hmesh in
theorem image_data (ht : SameTimes c c' 1) (hM : MassComputed val c blocks) (hM' : MassComputed val c' blocks') :
    (image R o π N).Data c c' := by
  refine ⟨one_ne_zero, one_ne_zero, one_ne_zero, by simp [image], ht.initialTime, ht.finalTime, ht.numSteps, ht.frequency, ?_⟩
  intro n _
  obtain ⟨m', h1, h2⟩ := lumped_mass_mapped val blocks blocks' R π hπ D (hmesh.maps hf hR) (flat c.X) (flat c'.X) o
    (fun be hbe n hn d => by
      rw [flat_apply, hX _ (element_inMesh hN hbe n hn)]
      simp only [flat_apply]) c.mass hM
  unfold MassComputed at hM'
  rw [hM'] at h1
  have := h2 n
  rw [← Option.some.inj h1] at this
  simpa [image] using this

include hf hN hR hπ hX hmesh in
theorem image_run (hm : c.manager.scheme ≠ .quasistatic) (hm' : c'.manager.scheme ≠ .quasistatic)
    (ht : SameTimes c c' 1) (hM : MassComputed val c blocks) (hM' : MassComputed val c' blocks')
    (hk : (image R o π N).Kinematics c c')
    (hv : ∀ n < N, ∀ d : Fin 3, initialVelocity c' (π n) d = ∑ k : Fin 3, R d k * initialVelocity c n k)
    (hD : RunDeforms val D c blocks) (k : ℕ) (s : Sim ℝ Unit) (h : state val c blocks k = some s) :
    ∃ s', state val c' blocks' k = some s' ∧ (image R o π N).Same c.initialTime s s' := by
  have hstart : (image R o π N).Same c.initialTime (start c ()) (start c' ()) := by
    refine start_same_free _ c c' hm hm' ht.initialTime ?_
    have h1 := hk 0 0 0 (fun _ _ => 0) (initialVelocity c) (fun _ _ => 0) (initialVelocity c')
      ((image_fields ..).mpr fun n hn d => ⟨by simp, hv n hn d⟩)
    rw [show (image R o π N).time * (0 : ℝ) = 0 from mul_zero _] at h1
    intro n hn d
    exact (h1 n hn d).2
  exact run_core (image_data hf hN hR hπ hX hmesh ht hM hM') hk (image_forces hf hN hR hπ hX hmesh) hm hstart hD k s h

end Run

/-! ## Kinematic conditions -/

theorem signed_orth (τ : Equiv.Perm (Fin 3)) (s : Fin 3 → ℤˣ) : signed τ s * (signed τ s)ᵀ = 1 := by
  unfold signed
  rw [Matrix.transpose_transpose]
  exact turn_transpose τ s

theorem signed_apply (τ : Equiv.Perm (Fin 3)) (s : Fin 3 → ℤˣ) (x : Fin 3 → ℝ) (d : Fin 3) :
    ∑ k : Fin 3, signed τ s d k * x k = ((s d : ℤ) : ℝ) * x (τ d) := by
  simp [signed, turn, Matrix.transpose_apply]

theorem acts_governs {m : Manager ℝ} {n : ℕ} {d : ℕ} {bc : BoundaryCondition ℝ} (hbc : bc ∈ m.bcs) (ha : Acts m bc n d)
    (hs : ∀ bc ∈ m.bcs, ∀ bc' ∈ m.bcs, Acts m bc n d → Acts m bc' n d → bc = bc') : Governs m bc n d := by
  obtain ⟨pre, post, h1, h2⟩ := exists_last m.bcs bc hbc
  refine ⟨pre, post, h1, ha, fun b hb hab => h2 ?_⟩
  have : bc = b := hs bc hbc b (by rw [h1]; simp [hb]) ha hab
  rwa [this]

theorem displacement_no_time {m : Manager ℝ} {n d : ℕ} {bc : BoundaryCondition ℝ} (hbc : bc ∈ m.bcs) (ha : Acts m bc n d)
    (hs : ∀ bc ∈ m.bcs, ∀ bc' ∈ m.bcs, Acts m bc n d → Acts m bc' n d → bc = bc') (hty : bc.type = .prescribedDisplacement)
    (tc tp : ℝ) (ht : ¬ 0 < tc - tp) (X : Nodal ℝ) (st : Kin ℝ) :
    (applyKinematicBC m tc tp X st).velocity n d = st.velocity n d := by
  unfold applyKinematicBC
  have key : ∀ l : List (BoundaryCondition ℝ), (∀ b ∈ l, b ∈ m.bcs) → ∀ st : Kin ℝ,
      (l.foldl (kinematicBc m X tc (tc - tp)) st).dof n d = st.dof n d := by
    intro l
    induction l with
    | nil => intro _ st; rfl
    | cons b l ih =>
      intro hl st
      rw [List.foldl_cons, ih (fun b hb => hl b (List.mem_cons_of_mem _ hb))]
      by_cases hab : Acts m b n d
      · have : b = bc := hs b (hl b List.mem_cons_self) bc hbc hab ha
        subst this
        unfold kinematicBc
        rw [if_neg (by rw [hty]; simp), if_neg (fun h => ht h.2)]
      · exact kinematicBc_not_acts m X tc (tc - tp) st b n d hab
  have := key m.bcs (fun _ h => h) st
  simp only [Kin.dof, Prod.mk.injEq] at this
  exact this.2.1

theorem kinematics_image (τ : Equiv.Perm (Fin 3)) (s : Fin 3 → ℤˣ) (o : Fin 3 → ℝ) (π : ℕ → ℕ) (N : ℕ) (c c' : Config ℝ)
    (hm : c.manager.scheme ≠ .quasistatic) (hm' : c'.manager.scheme ≠ .quasistatic)
    (hc : ImageConditions τ s π N c.manager c'.manager c.X c'.X) : (image (signed τ s) o π N).Kinematics c c' := by
  intro tc tp t u v u' v' hfl
  rw [image_fields] at hfl ⊢
  simp only [signed_apply] at hfl ⊢
  rw [show (image (signed τ s) o π N).time = 1 from rfl, one_mul, one_mul]
  intro n hn d
  have hu : ∀ w : Nodal ℝ, (kinematic c tc tp u w).1 = u := fun w => applyKinematicBC_displacement c.manager hm tc tp c.X _
  have hu' : ∀ w : Nodal ℝ, (kinematic c' tc tp u' w).1 = u' := fun w => applyKinematicBC_displacement c'.manager hm' tc tp c'.X _
  rw [hu, hu']
  refine ⟨(hfl n hn d).1, ?_⟩
  by_cases hfree : Free c.manager n (τ d)
  · have h1 : (kinematic c tc tp u v).2 n (τ d) = v n (τ d) := (free_dof_untouched c.manager tc tp c.X ⟨u, v, []⟩ n (τ d) hfree).2.1
    have h2 : (kinematic c' tc tp u' v').2 (π n) d = v' (π n) d :=
      (free_dof_untouched c'.manager tc tp c'.X ⟨u', v', []⟩ (π n) d (hc.free n hn d hfree)).2.1
    rw [h1, h2]
    exact (hfl n hn d).2
  · unfold Free at hfree
    push Not at hfree
    obtain ⟨bc, hbc, ha⟩ := hfree
    obtain ⟨bc', hbc', ha', hty, hval⟩ := hc.acting n hn d bc hbc ha
    have hs := hc.single n hn (τ d)
    have hs' := hc.single' n hn d
    have g := governs_velocity c.manager hm tc tp c.X ⟨u, v, []⟩ bc n (τ d) (acts_governs hbc ha hs)
    have g' := governs_velocity c'.manager hm' tc tp c'.X ⟨u', v', []⟩ bc' (π n) d (acts_governs hbc' ha' hs')
    have hkin := ha.1
    have hcases : bc.type = .prescribedVelocity ∨ bc.type = .prescribedDisplacement := by
      revert hkin
      unfold BoundaryCondition.isKinematic
      cases bc.type <;> simp
    rcases hcases with h1 | h1
    · have e1 : (kinematic c tc tp u v).2 n (τ d) = _ := (g.1 h1).1
      have e2 : (kinematic c' tc tp u' v').2 (π n) d = _ := (g'.1 (hty.trans h1)).1
      rw [e1, e2, hval]
    · by_cases hpos : 0 < tc - tp
      · have e1 : (kinematic c tc tp u v).2 n (τ d) = _ := g.2 h1 hpos
        have e2 : (kinematic c' tc tp u' v').2 (π n) d = _ := g'.2 (hty.trans h1) hpos
        rw [e1, e2, hval]
        simp only
        rw [(hfl n hn d).1]
        ring
      · have e1 : (kinematic c tc tp u v).2 n (τ d) = v n (τ d) := displacement_no_time hbc ha hs h1 tc tp hpos c.X ⟨u, v, []⟩
        have e2 : (kinematic c' tc tp u' v').2 (π n) d = v' (π n) d :=
          displacement_no_time hbc' ha' hs' (hty.trans h1) tc tp hpos c'.X ⟨u', v', []⟩
        rw [e1, e2]
        exact (hfl n hn d).2

/-! ## C122 -/

/-- **C122, images of free bodies.**  If an isometry - a rotation or a reflection - maps one mesh onto another (nodes in any
numbering, elements in any order and listed from any corner) and the initial velocities correspond, the second body moves as the
image of the first: after every step its displacements, velocities and accelerations are the images of those of the first. -/
theorem image_of_motion (val : ℝ) (f : ℝ → ℝ) (hf : IsCosThird f) (D : Matrix (Fin 3) (Fin 3) ℝ → Prop) (c c' : Config ℝ)
    (blocks blocks' : List (Blk ℝ)) (N : ℕ) (hN : InMesh N (serial blocks)) (R : Matrix (Fin 3) (Fin 3) ℝ) (hR : R * Rᵀ = 1)
    (o : Fin 3 → ℝ) (π : ℕ → ℕ) (hπ : Function.Injective π) (hX : ImageNodes R o π N c.X c'.X)
    (hmesh : ImageMesh f D R π blocks blocks')
    (hm : c.manager.scheme ≠ .quasistatic) (hm' : c'.manager.scheme ≠ .quasistatic) (ht : SameTimes c c' 1)
    (hM : MassComputed val c blocks) (hM' : MassComputed val c' blocks') (hfree : Unconstrained c) (hfree' : Unconstrained c')
    (hv : ∀ n < N, ∀ d : Fin 3, initialVelocity c' (π n) d = ∑ k : Fin 3, R d k * initialVelocity c n k)
    (hD : RunDeforms val D c blocks) (k : ℕ) (s : Sim ℝ Unit) (h : state val c blocks k = some s) :
    ∃ s', state val c' blocks' k = some s' ∧ ∀ n < N, ∀ d : Fin 3,
      s'.displacement (π n) d = ∑ k : Fin 3, R d k * s.displacement n k ∧
      s'.velocity (π n) d = ∑ k : Fin 3, R d k * s.velocity n k ∧
      s'.acceleration (π n) d = ∑ k : Fin 3, R d k * s.acceleration n k := by
  obtain ⟨s', h1, h2⟩ := image_run hf hN hR hπ hX hmesh hm hm' ht hM hM' (kinematics_free _ c c' hfree hfree') hv hD k s h
  refine ⟨s', h1, fun n hn d => ?_⟩
  have h3 := (image_fields R o π N _ _ _ _ _).mp h2.fields n hn d
  refine ⟨h3.1, h3.2, ?_⟩
  have := h2.acceleration n hn d
  simpa [image, Change.vec] using this

/-- **C122, images of constrained bodies.**  The same with kinematic conditions, for the isometries that map coordinate directions to
coordinate directions (the conditions of the code are on coordinate directions). -/
theorem image_of_constrained_motion (val : ℝ) (f : ℝ → ℝ) (hf : IsCosThird f) (D : Matrix (Fin 3) (Fin 3) ℝ → Prop) (c c' : Config ℝ)
    (blocks blocks' : List (Blk ℝ)) (N : ℕ) (hN : InMesh N (serial blocks)) (τ : Equiv.Perm (Fin 3)) (σ : Fin 3 → ℤˣ)
    (o : Fin 3 → ℝ) (π : ℕ → ℕ) (hπ : Function.Injective π) (hX : ImageNodes (signed τ σ) o π N c.X c'.X)
    (hmesh : ImageMesh f D (signed τ σ) π blocks blocks')
    (hm : c.manager.scheme ≠ .quasistatic) (hm' : c'.manager.scheme ≠ .quasistatic) (ht : SameTimes c c' 1)
    (hM : MassComputed val c blocks) (hM' : MassComputed val c' blocks')
    (hc : ImageConditions τ σ π N c.manager c'.manager c.X c'.X)
    (hv : ∀ n < N, ∀ d : Fin 3, initialVelocity c' (π n) d = ((σ d : ℤ) : ℝ) * initialVelocity c n (τ d))
    (hD : RunDeforms val D c blocks) (k : ℕ) (s : Sim ℝ Unit) (h : state val c blocks k = some s) :
    ∃ s', state val c' blocks' k = some s' ∧ ∀ n < N, ∀ d : Fin 3,
      s'.displacement (π n) d = ((σ d : ℤ) : ℝ) * s.displacement n (τ d) ∧
      s'.velocity (π n) d = ((σ d : ℤ) : ℝ) * s.velocity n (τ d) ∧
      s'.acceleration (π n) d = ((σ d : ℤ) : ℝ) * s.acceleration n (τ d) := by
  obtain ⟨s', h1, h2⟩ := image_run hf hN (signed_orth τ σ) hπ hX hmesh hm hm' ht hM hM' (kinematics_image τ σ o π N c c' hm hm' hc)
    (fun n hn d => by rw [hv n hn d, signed_apply τ σ (fun k => initialVelocity c n k)]) hD k s h
  refine ⟨s', h1, fun n hn d => ?_⟩
  have h3 := (image_fields (signed τ σ) o π N _ _ _ _ _).mp h2.fields n hn d
  rw [signed_apply τ σ (fun k => s.displacement n k), signed_apply τ σ (fun k => s.velocity n k)] at h3
  refine ⟨h3.1, h3.2, ?_⟩
  have h4 := h2.acceleration n hn d
  have h5 : (image (signed τ σ) o π N).vec 1 s.acceleration n d = _ := image_vec ..
  rw [signed_apply τ σ (fun k => s.acceleration n k)] at h5
  rw [← h5, show (image (signed τ σ) o π N).node n = π n from rfl] at *
  simpa [image, Change.vec] using h4

/-- **C122, symmetry of free bodies.**  If a body and its initial velocities are symmetric - an isometry maps the mesh onto itself -
the solution is symmetric after every step. -/
theorem symmetric_motion (val : ℝ) (f : ℝ → ℝ) (hf : IsCosThird f) (D : Matrix (Fin 3) (Fin 3) ℝ → Prop) (c : Config ℝ)
    (blocks : List (Blk ℝ)) (N : ℕ) (hN : InMesh N (serial blocks)) (R : Matrix (Fin 3) (Fin 3) ℝ) (hR : R * Rᵀ = 1)
    (o : Fin 3 → ℝ) (π : ℕ → ℕ) (hπ : Function.Injective π) (hX : ImageNodes R o π N c.X c.X)
    (hmesh : ImageMesh f D R π blocks blocks) (hm : c.manager.scheme ≠ .quasistatic)
    (hM : MassComputed val c blocks) (hfree : Unconstrained c)
    (hv : ∀ n < N, ∀ d : Fin 3, initialVelocity c (π n) d = ∑ k : Fin 3, R d k * initialVelocity c n k)
    (hD : RunDeforms val D c blocks) (k : ℕ) (s : Sim ℝ Unit) (h : state val c blocks k = some s) (n : ℕ) (hn : n < N) (d : Fin 3) :
    s.displacement (π n) d = ∑ k : Fin 3, R d k * s.displacement n k ∧
    s.velocity (π n) d = ∑ k : Fin 3, R d k * s.velocity n k ∧
    s.acceleration (π n) d = ∑ k : Fin 3, R d k * s.acceleration n k := by
  obtain ⟨s', h1, h2⟩ := image_of_motion val f hf D c c blocks blocks N hN R hR o π hπ hX hmesh hm hm
    ⟨(one_mul _).symm, (one_mul _).symm, rfl, rfl⟩ hM hM hfree hfree hv hD k s h
  rw [h] at h1
  obtain rfl := Option.some.inj h1
  exact h2 n hn d

/-- **C122, symmetry of constrained bodies.**  The same with symmetric kinematic conditions. -/
theorem symmetric_constrained_motion (val : ℝ) (f : ℝ → ℝ) (hf : IsCosThird f) (D : Matrix (Fin 3) (Fin 3) ℝ → Prop) (c : Config ℝ)
    (blocks : List (Blk ℝ)) (N : ℕ) (hN : InMesh N (serial blocks)) (τ : Equiv.Perm (Fin 3)) (σ : Fin 3 → ℤˣ)
    (o : Fin 3 → ℝ) (π : ℕ → ℕ) (hπ : Function.Injective π) (hX : ImageNodes (signed τ σ) o π N c.X c.X)
    (hmesh : ImageMesh f D (signed τ σ) π blocks blocks) (hm : c.manager.scheme ≠ .quasistatic)
    (hM : MassComputed val c blocks) (hc : ImageConditions τ σ π N c.manager c.manager c.X c.X)
    (hv : ∀ n < N, ∀ d : Fin 3, initialVelocity c (π n) d = ((σ d : ℤ) : ℝ) * initialVelocity c n (τ d))
    (hD : RunDeforms val D c blocks) (k : ℕ) (s : Sim ℝ Unit) (h : state val c blocks k = some s) (n : ℕ) (hn : n < N) (d : Fin 3) :
    s.displacement (π n) d = ((σ d : ℤ) : ℝ) * s.displacement n (τ d) ∧
    s.velocity (π n) d = ((σ d : ℤ) : ℝ) * s.velocity n (τ d) ∧
    s.acceleration (π n) d = ((σ d : ℤ) : ℝ) * s.acceleration n (τ d) := by
  obtain ⟨s', h1, h2⟩ := image_of_constrained_motion val f hf D c c blocks blocks N hN τ σ o π hπ hX hmesh hm hm
    ⟨(one_mul _).symm, (one_mul _).symm, rfl, rfl⟩ hM hM hc hv hD k s h
  rw [h] at h1
  obtain rfl := Option.some.inj h1
  exact h2 n hn d

/-- **C122, planes of symmetry.**  A node on a plane of symmetry normal to a coordinate direction stays on it. -/
theorem symmetry_plane (val : ℝ) (f : ℝ → ℝ) (hf : IsCosThird f) (D : Matrix (Fin 3) (Fin 3) ℝ → Prop) (c : Config ℝ)
    (blocks : List (Blk ℝ)) (N : ℕ) (hN : InMesh N (serial blocks)) (normal : Fin 3) (o : Fin 3 → ℝ) (π : ℕ → ℕ)
    (hπ : Function.Injective π) (hX : ImageNodes (signed 1 (Function.update 1 normal (-1))) o π N c.X c.X)
    (hmesh : ImageMesh f D (signed 1 (Function.update 1 normal (-1))) π blocks blocks) (hm : c.manager.scheme ≠ .quasistatic)
    (hM : MassComputed val c blocks)
    (hc : ImageConditions 1 (Function.update 1 normal (-1)) π N c.manager c.manager c.X c.X)
    (hv : ∀ n < N, ∀ d : Fin 3, initialVelocity c (π n) d
      = (((Function.update (1 : Fin 3 → ℤˣ) normal (-1) d : ℤˣ) : ℤ) : ℝ) * initialVelocity c n d)
    (hD : RunDeforms val D c blocks) (k : ℕ) (s : Sim ℝ Unit) (h : state val c blocks k = some s) (n : ℕ) (hn : n < N)
    (hplane : π n = n) : s.displacement n normal = 0 ∧ s.velocity n normal = 0 := by
  obtain ⟨h1, h2, -⟩ := symmetric_constrained_motion val f hf D c blocks N hN 1 _ o π hπ hX hmesh hm hM hc hv hD k s h n hn normal
  rw [hplane] at h1 h2
  simp only [Equiv.Perm.one_apply, Function.update_self] at h1 h2
  push_cast at h1 h2
  constructor <;> linarith

end NimbleSM.Integrate
