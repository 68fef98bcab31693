import Verif.Integrate.SymmetryProps
import Verif.Assembly.ParallelProps

/-!
# C128: half models with a symmetry boundary condition

Users compute one half of a symmetric problem and replace the other half by zero normal displacement on the plane of symmetry.
Theorems about `state`, the state of an explicit run after `k` steps, for meshes of elastic and neo-Hookean hexahedral blocks, without
contact: the run of the half model with configuration `h` and blocks `half`, and the run of the full model with configuration `c` and
blocks `half ++ other`.
-/

open scoped BigOperators

namespace NimbleSM.Integrate

open Matrix NimbleSM.Bc NimbleSM.Assembly NimbleSM.Hex NimbleSM.Tensor NimbleSM.Constitutive

/-! ## Specification -/

/-- Reflection turns the component in direction `normal` around and keeps the others. -/
def mirrorSign (normal d : Fin 3) : ℝ := if d = normal then -1 else 1

/-- The reflection. -/
noncomputable def mirrorMatrix (normal : Fin 3) : Matrix (Fin 3) (Fin 3) ℝ := Matrix.diagonal (mirrorSign normal)

/-- Node `n'` of the second model has in direction `d` the conditions that node `n` of the first one has, with values multiplied by `σ`. -/
structure SameCondition (m m' : Manager ℝ) (X X' : Nodal ℝ) (n n' : ℕ) (d : Fin 3) (σ : ℝ) : Prop where
  acting : ∀ bc ∈ m.bcs, Acts m bc n d → ∃ bc' ∈ m'.bcs, Acts m' bc' n' d ∧ bc'.type = bc.type ∧
    ∀ t, prescribed m' bc' X' n' t = σ * prescribed m bc X n t
  free : Free m n d → Free m' n' d
  single : ∀ bc ∈ m.bcs, ∀ bc' ∈ m.bcs, Acts m bc n d → Acts m bc' n d → bc = bc'
  single' : ∀ bc ∈ m'.bcs, ∀ bc' ∈ m'.bcs, Acts m' bc n' d → Acts m' bc' n' d → bc = bc'

/-- The conditions of a half model.  The nodes of the half are `0, …, N - 1`, the mirror image of node `n` is `π n`, and the nodes on the
plane of symmetry are their own images.  Except for the normal direction of nodes on the plane, the full model has the conditions of the
half and their mirror images.  In the normal direction of nodes on the plane, the half model has exactly one condition, and its value is
zero; the full model has no condition or conditions with value zero. -/
structure HalfConditions (normal : Fin 3) (π : ℕ → ℕ) (N : ℕ) (h c : Config ℝ) : Prop where
  half : ∀ n < N, ∀ d : Fin 3, ¬ (π n = n ∧ d = normal) → SameCondition h.manager c.manager h.X c.X n n d 1
  other : ∀ n < N, ∀ d : Fin 3, ¬ (π n = n ∧ d = normal) →
    SameCondition h.manager c.manager h.X c.X n (π n) d (mirrorSign normal d)
  plane : ∀ n < N, π n = n → ∃ bc ∈ h.manager.bcs, Acts h.manager bc n normal ∧ (∀ t, prescribed h.manager bc h.X n t = 0) ∧
    ∀ bc' ∈ h.manager.bcs, Acts h.manager bc' n normal → bc' = bc
  plane_full : ∀ n < N, π n = n → (∀ bc ∈ c.manager.bcs, Acts c.manager bc n normal → ∀ t, prescribed c.manager bc c.X n t = 0) ∧
    ∀ bc ∈ c.manager.bcs, ∀ bc' ∈ c.manager.bcs, Acts c.manager bc n normal → Acts c.manager bc' n normal → bc = bc'

/-- The mesh of the half model and the one of the full model. -/
structure HalfMesh (f : ℝ → ℝ) (D : Matrix (Fin 3) (Fin 3) ℝ → Prop) (normal : Fin 3) (o : Fin 3 → ℝ) (π : ℕ → ℕ) (N : ℕ)
    (h c : Config ℝ) (half other : List (Blk ℝ)) : Prop where
  inMesh : InMesh N (serial half)
  injective : Function.Injective π
  /-- images of nodes of the half are new nodes, or the node itself (on the plane) -/
  new : ∀ n < N, π n < N → π n = n
  positions : ∀ n < N, ∀ d : Fin 3, c.X n d = h.X n d
  images : ∀ n < N, ∀ d : Fin 3, c.X (π n) d = mirrorSign normal d * h.X n d + o d
  elements : ImageMesh f D (mirrorMatrix normal) π half other

/-- The full model at one time is the half model and its mirror image.  Velocities and accelerations in the normal direction of nodes on
the plane are compared with zero: those of the half model are overwritten by the condition, before they are used. -/
structure IsHalf (normal : Fin 3) (π : ℕ → ℕ) (N : ℕ) (s' s : Sim ℝ Unit) : Prop where
  time : s.time = s'.time
  displacement : ∀ n < N, ∀ d : Fin 3, s.displacement n d = s'.displacement n d ∧
    s.displacement (π n) d = mirrorSign normal d * s'.displacement n d
  velocity : ∀ n < N, ∀ d : Fin 3, ¬ (π n = n ∧ d = normal) → s.velocity n d = s'.velocity n d ∧
    s.velocity (π n) d = mirrorSign normal d * s'.velocity n d
  acceleration : ∀ n < N, ∀ d : Fin 3, ¬ (π n = n ∧ d = normal) → s.acceleration n d = s'.acceleration n d ∧
    s.acceleration (π n) d = mirrorSign normal d * s'.acceleration n d
  plane : ∀ n < N, π n = n → s.displacement n normal = 0 ∧ s.velocity n normal = 0 ∧ s.acceleration n normal = 0

/-! ## The reflection -/

theorem mirror_orth (a : Fin 3) : mirrorMatrix a * (mirrorMatrix a)ᵀ = 1 := by
  unfold mirrorMatrix
  rw [Matrix.diagonal_transpose, Matrix.diagonal_mul_diagonal, ← Matrix.diagonal_one]
  congr 1
  funext d
  unfold mirrorSign
  split_ifs <;> norm_num

theorem mirror_apply (a : Fin 3) (x : Fin 3 → ℝ) (d : Fin 3) : ∑ k : Fin 3, mirrorMatrix a d k * x k = mirrorSign a d * x d := by
  unfold mirrorMatrix
  simp [Matrix.diagonal_apply]

theorem HalfMesh.imageNodes {f D a o π N h c half other} (hm : HalfMesh f D a o π N h c half other) :
    ImageNodes (mirrorMatrix a) o π N h.X c.X := by
  intro n hn d
  rw [hm.images n hn d, mirror_apply a (fun k => h.X n k)]

/-! ## One degree of freedom -/

theorem kinematic_dof {c c' : Config ℝ} (hm : c.manager.scheme ≠ .quasistatic) (hm' : c'.manager.scheme ≠ .quasistatic) {n n' : ℕ}
    {d : Fin 3} {σ : ℝ} (hc : SameCondition c.manager c'.manager c.X c'.X n n' d σ) (tc tp : ℝ) (u v u' v' : Nodal ℝ)
    (hu : u' n' d = σ * u n d) (hv : v' n' d = σ * v n d) :
    (kinematic c' tc tp u' v').2 n' d = σ * (kinematic c tc tp u v).2 n d := by
  by_cases hfree : Free c.manager n d
  · have h1 : (kinematic c tc tp u v).2 n d = v n d := (free_dof_untouched c.manager tc tp c.X ⟨u, v, []⟩ n d hfree).2.1
    have h2 : (kinematic c' tc tp u' v').2 n' d = v' n' d :=
      (free_dof_untouched c'.manager tc tp c'.X ⟨u', v', []⟩ n' d (hc.free hfree)).2.1
    rw [h1, h2, hv]
  · unfold Free at hfree
    push Not at hfree
    obtain ⟨bc, hbc, ha⟩ := hfree
    obtain ⟨bc', hbc', ha', hty, hval⟩ := hc.acting bc hbc ha
    have g := governs_velocity c.manager hm tc tp c.X ⟨u, v, []⟩ bc n d (acts_governs hbc ha hc.single)
    have g' := governs_velocity c'.manager hm' tc tp c'.X ⟨u', v', []⟩ bc' n' d (acts_governs hbc' ha' hc.single')
    have hkin := ha.1
    have hcases : bc.type = .prescribedVelocity ∨ bc.type = .prescribedDisplacement := by
      revert hkin
      unfold BoundaryCondition.isKinematic
      cases bc.type <;> simp
    rcases hcases with h1 | h1
    · have e1 : (kinematic c tc tp u v).2 n d = _ := (g.1 h1).1
      have e2 : (kinematic c' tc tp u' v').2 n' d = _ := (g'.1 (hty.trans h1)).1
      rw [e1, e2, hval]
    · by_cases hpos : 0 < tc - tp
      · have e1 : (kinematic c tc tp u v).2 n d = _ := g.2 h1 hpos
        have e2 : (kinematic c' tc tp u' v').2 n' d = _ := g'.2 (hty.trans h1) hpos
        rw [e1, e2, hval]
        simp only
        rw [hu]
        ring
      · have e1 : (kinematic c tc tp u v).2 n d = v n d := displacement_no_time hbc ha hc.single h1 tc tp hpos c.X ⟨u, v, []⟩
        have e2 : (kinematic c' tc tp u' v').2 n' d = v' n' d :=
          displacement_no_time hbc' ha' hc.single' (hty.trans h1) tc tp hpos c'.X ⟨u', v', []⟩
        rw [e1, e2, hv]

theorem kinematic_displacement {c : Config ℝ} (hm : c.manager.scheme ≠ .quasistatic) (tc tp : ℝ) (u v : Nodal ℝ) :
    (kinematic c tc tp u v).1 = u := applyKinematicBC_displacement c.manager hm tc tp c.X _

/-- A zero condition keeps a node at rest in its direction. -/
theorem kinematic_zero {c : Config ℝ} (hm : c.manager.scheme ≠ .quasistatic) {n : ℕ} {d : Fin 3} {bc : BoundaryCondition ℝ}
    (hbc : bc ∈ c.manager.bcs) (ha : Acts c.manager bc n d) (h0 : ∀ t, prescribed c.manager bc c.X n t = 0)
    (hs : ∀ bc' ∈ c.manager.bcs, Acts c.manager bc' n d → bc' = bc) (tc tp : ℝ) (u v : Nodal ℝ) (hu : u n d = 0)
    (ht : 0 < tc - tp ∨ v n d = 0) : (kinematic c tc tp u v).2 n d = 0 := by
  have hs' : ∀ b ∈ c.manager.bcs, ∀ b' ∈ c.manager.bcs, Acts c.manager b n d → Acts c.manager b' n d → b = b' :=
    fun b hb b' hb' h h' => (hs b hb h).trans (hs b' hb' h').symm
  have g := governs_velocity c.manager hm tc tp c.X ⟨u, v, []⟩ bc n d (acts_governs hbc ha hs')
  have hkin := ha.1
  have hcases : bc.type = .prescribedVelocity ∨ bc.type = .prescribedDisplacement := by
    revert hkin
    unfold BoundaryCondition.isKinematic
    cases bc.type <;> simp
  rcases hcases with h1 | h1
  · have e1 : (kinematic c tc tp u v).2 n d = _ := (g.1 h1).1
    rw [e1, h0]
  · by_cases hpos : 0 < tc - tp
    · have e1 : (kinematic c tc tp u v).2 n d = _ := g.2 h1 hpos
      rw [e1, h0]
      simp only
      rw [hu]
      simp
    · have e1 : (kinematic c tc tp u v).2 n d = v n d := displacement_no_time hbc ha hs' h1 tc tp hpos c.X ⟨u, v, []⟩
      rw [e1]
      exact ht.resolve_left hpos

theorem kinematic_plane {c : Config ℝ} (hm : c.manager.scheme ≠ .quasistatic) {n : ℕ} {d : Fin 3}
    (h0 : ∀ bc ∈ c.manager.bcs, Acts c.manager bc n d → ∀ t, prescribed c.manager bc c.X n t = 0)
    (hs : ∀ b ∈ c.manager.bcs, ∀ b' ∈ c.manager.bcs, Acts c.manager b n d → Acts c.manager b' n d → b = b') (tc tp : ℝ) (u v : Nodal ℝ)
    (hu : u n d = 0) (hv : v n d = 0) : (kinematic c tc tp u v).2 n d = 0 := by
  by_cases hfree : Free c.manager n d
  · have h1 : (kinematic c tc tp u v).2 n d = v n d := (free_dof_untouched c.manager tc tp c.X ⟨u, v, []⟩ n d hfree).2.1
    rw [h1, hv]
  · unfold Free at hfree
    push Not at hfree
    obtain ⟨bc, hbc, ha⟩ := hfree
    exact kinematic_zero hm hbc ha (h0 bc hbc ha) (fun b hb h => hs b hb bc hbc h ha) tc tp u v hu (Or.inr hv)

/-! ## Forces and masses -/

theorem serial_append (b1 b2 : List (Blk ℝ)) : serial (b1 ++ b2) = serial b1 ++ serial b2 := by
  unfold serial; rw [List.map_append]

theorem elements_append (b1 b2 : List (Blk ℝ × List ℕ)) : elements (b1 ++ b2) = elements b1 ++ elements b2 := by
  unfold elements; rw [List.flatMap_append]

theorem force_append (val : ℝ) (X u F1 F2 : ℕ → ℝ) (b1 b2 : List (Blk ℝ × List ℕ)) (h1 : computeInternalForce val X u b1 = some F1)
    (h2 : computeInternalForce val X u b2 = some F2) :
    ∃ F, computeInternalForce val X u (b1 ++ b2) = some F ∧ ∀ n (d : Fin 3), F (3 * n + d) = F1 (3 * n + d) + F2 (3 * n + d) := by
  have h : ∃ F, computeInternalForce val X u (b1 ++ b2) = some F := by
    rw [internal_force_defined]
    intro b hb
    rcases List.mem_append.mp hb with hb | hb
    · exact (internal_force_defined val X u b1).mp ⟨F1, h1⟩ b hb
    · exact (internal_force_defined val X u b2).mp ⟨F2, h2⟩ b hb
  obtain ⟨F, hF⟩ := h
  refine ⟨F, hF, fun n d => ?_⟩
  rw [internal_force_elements val X u F _ hF, internal_force_elements val X u F1 _ h1, internal_force_elements val X u F2 _ h2,
    elements_append, List.map_append, List.sum_append]

theorem mass_append (val : ℝ) (X m m1 m2 : ℕ → ℝ) (b1 b2 : List (Blk ℝ)) (h : computeLumpedMassField val X (b1 ++ b2) (fun _ => 0) = some m)
    (h1 : computeLumpedMassField val X b1 (fun _ => 0) = some m1) (h2 : computeLumpedMassField val X b2 (fun _ => 0) = some m2) (n : ℕ) :
    m n = m1 n + m2 n := by
  rw [lumped_mass_elements val X m _ h, lumped_mass_elements val X m1 _ h1, lumped_mass_elements val X m2 _ h2, serial_append,
    elements_append, List.map_append, List.sum_append]

theorem mass_outside (val : ℝ) (X m : ℕ → ℝ) (blocks : List (Blk ℝ)) (h : computeLumpedMassField val X blocks (fun _ => 0) = some m) (n : ℕ)
    (hn : ∀ be ∈ elements (serial blocks), ∀ c < 8, be.1.nodeId be.2 c ≠ n) : m n = 0 := by
  rw [lumped_mass_elements val X m _ h]
  apply List.sum_eq_zero
  intro x hx
  obtain ⟨be, hbe, rfl⟩ := List.mem_map.mp hx
  cases computeLumpedMass val be.1.density (gather be.1 be.2 X) with
  | none => rfl
  | some f =>
    simp only [Option.elim_some]
    exact Finset.sum_eq_zero fun c hc => if_neg (hn be hbe c (Finset.mem_range.mp hc))

theorem force_congr (val : ℝ) (X X' u u' F : ℕ → ℝ) (N : ℕ) (blocks : List (Blk ℝ)) (hN : InMesh N (serial blocks))
    (hX : ∀ n < N, ∀ d : Fin 3, X' (3 * n + d) = X (3 * n + d)) (hu : ∀ n < N, ∀ d : Fin 3, u' (3 * n + d) = u (3 * n + d))
    (hF : computeInternalForce val X u (serial blocks) = some F) :
    ∃ F', computeInternalForce val X' u' (serial blocks) = some F' ∧ ∀ n (d : Fin 3), F' (3 * n + d) = F (3 * n + d) := by
  have key : ∀ b ∈ serial blocks, ∀ e ∈ b.2, elementForce val b.1 X' u' e = elementForce val b.1 X u e := fun b hb e he =>
    elementForce_congr val b.1 b.1 rfl e X' X u' u (fun c hc d => hX _ (hN b hb e he c hc) d) (fun c hc d => hu _ (hN b hb e he c hc) d)
  have h : ∃ F', computeInternalForce val X' u' (serial blocks) = some F' := by
    rw [internal_force_defined]
    intro b hb e he
    rw [key b hb e he]
    exact (internal_force_defined val X u _).mp ⟨F, hF⟩ b hb e he
  obtain ⟨F', hF'⟩ := h
  refine ⟨F', hF', fun n d => ?_⟩
  rw [internal_force_elements val X u F _ hF, internal_force_elements val X' u' F' _ hF']
  refine congrArg List.sum (List.map_congr_left fun be hbe => ?_)
  obtain ⟨b, hb, e1, e2⟩ := mem_elements.mp hbe
  rw [← e1, key b hb be.2 e2]

theorem mass_congr (val : ℝ) (X X' m : ℕ → ℝ) (N : ℕ) (blocks : List (Blk ℝ)) (hN : InMesh N (serial blocks))
    (hX : ∀ n < N, ∀ d : Fin 3, X' (3 * n + d) = X (3 * n + d))
    (hm : computeLumpedMassField val X blocks (fun _ => 0) = some m) :
    ∃ m', computeLumpedMassField val X' blocks (fun _ => 0) = some m' ∧ ∀ n, m' n = m n := by
  have key : ∀ be ∈ elements (serial blocks), gather be.1 be.2 X' = gather be.1 be.2 X := fun be hbe =>
    gather_congr be.1 be.1 be.2 X' X (fun c hc d => hX _ (element_inMesh hN hbe c hc) d)
  have h : ∃ m', computeLumpedMassField val X' blocks (fun _ => 0) = some m' := by
    rw [lumped_mass_field_defined]
    intro b hb e he
    have := key (b, e) (mem_elements.mpr ⟨(b, List.range b.numElem), by simp [serial, hb], rfl, List.mem_range.mpr he⟩)
    simp only at this
    rw [this]
    exact (lumped_mass_field_defined val X (fun _ => 0) blocks).mp ⟨m, hm⟩ b hb e he
  obtain ⟨m', hm'⟩ := h
  refine ⟨m', hm', fun n => ?_⟩
  rw [lumped_mass_elements val X m _ hm, lumped_mass_elements val X' m' _ hm']
  refine congrArg List.sum (List.map_congr_left fun be hbe => ?_)
  rw [key be hbe]

/-- The nodes of the other half are images of nodes of the half. -/
theorem HalfMesh.otherNodes {f D a o π N h c half other} (hm : HalfMesh f D a o π N h c half other) :
    ∀ be ∈ Assembly.elements (serial other), ∀ k < 8, ∃ n < N, be.1.nodeId be.2 k = π n := by
  obtain ⟨L, h1, h2⟩ := hm.elements
  intro be' hbe' k hk
  obtain ⟨be, hbe, hi⟩ := forall₂_mem h1 (h2.mem_iff.mpr hbe')
  obtain ⟨ρ, -, hc⟩ := hi.corners
  refine ⟨be.1.nodeId be.2 (ρ.symm ⟨k, hk⟩), element_inMesh hm.inMesh hbe _ (ρ.symm ⟨k, hk⟩).2, ?_⟩
  rw [← hc, Equiv.apply_symm_apply]

theorem HalfMesh.notOther {f D a o π N h c half other} (hm : HalfMesh f D a o π N h c half other) {n : ℕ} (hn : n < N) (hp : π n ≠ n) :
    ∀ be ∈ Assembly.elements (serial other), ∀ k < 8, be.1.nodeId be.2 k ≠ n := by
  intro be hbe k hk hc
  obtain ⟨m, hmN, hm'⟩ := hm.otherNodes be hbe k hk
  rw [hc] at hm'
  have h1 := hm.new m hmN (by omega)
  apply hp
  rw [hm', h1, h1]

theorem HalfMesh.notHalf {f D a o π N h c half other} (hm : HalfMesh f D a o π N h c half other) {n : ℕ} (hn : n < N) (hp : π n ≠ n) :
    ∀ be ∈ Assembly.elements (serial half), ∀ k < 8, be.1.nodeId be.2 k ≠ π n := by
  intro be hbe k hk hc
  have := element_inMesh hm.inMesh hbe k hk
  exact hp (hm.new n hn (by omega))

section Run

variable {val : ℝ} {f : ℝ → ℝ} (hf : IsCosThird f) {D : Matrix (Fin 3) (Fin 3) ℝ → Prop} {normal : Fin 3} {o : Fin 3 → ℝ} {π : ℕ → ℕ}
  {N : ℕ} {h c : Config ℝ} {half other : List (Blk ℝ)} (hmesh : HalfMesh f D normal o π N h c half other)

include hf hmesh in
/-- Nodes off the plane have the forces of the half model; on the plane the tangential forces are doubled and the normal ones cancel. -/
theorem half_forces (u' u : Nodal ℝ)
    (hu : ∀ n < N, ∀ d : Fin 3, u n d = u' n d ∧ u (π n) d = mirrorSign normal d * u' n d) (hD : AllDeform val D half h.X u') (F' : ℕ → ℝ)
    (hF' : computeInternalForce val (flat h.X) (flat u') (serial half) = some F') :
    ∃ F, computeInternalForce val (flat c.X) (flat u) (serial (half ++ other)) = some F ∧ ∀ n < N, ∀ d : Fin 3,
      (π n ≠ n → F (3 * n + d) = F' (3 * n + d) ∧ F (3 * π n + d) = mirrorSign normal d * F' (3 * n + d)) ∧
      (π n = n → F (3 * n + d) = F' (3 * n + d) + mirrorSign normal d * F' (3 * n + d)) := by
  obtain ⟨F1, h1, e1⟩ := force_congr val (flat h.X) (flat c.X) (flat u') (flat u) F' N half hmesh.inMesh
    (fun n hn d => by rw [flat_apply, flat_apply, hmesh.positions n hn d])
    (fun n hn d => by rw [flat_apply, flat_apply, (hu n hn d).1]) hF'
  obtain ⟨F2, h2, e2⟩ := image_forces hf hmesh.inMesh (mirror_orth normal) hmesh.injective hmesh.imageNodes hmesh.elements
    0 u' (fun _ _ => 0) u (fun _ _ => 0)
    ((image_fields _ _ _ _ _ _ _ _ _).mpr fun n hn d =>
      ⟨by rw [(hu n hn d).2, mirror_apply normal (fun k => u' n k)], by simp⟩) hD F' hF'
  obtain ⟨F, h3, e3⟩ := force_append val (flat c.X) (flat u) F1 F2 _ _ h1 h2
  rw [← serial_append] at h3
  refine ⟨F, h3, fun n hn d => ?_⟩
  have e4 : F2 (3 * π n + d) = mirrorSign normal d * F' (3 * n + d) := by
    have := e2 n hn d
    simp only [image, one_pow, mul_one, one_mul] at this
    rw [this, mirror_apply normal (fun k => F' (3 * n + k))]
  constructor
  · intro hp
    have z2 : F2 (3 * n + d) = 0 := internal_force_outside val _ _ F2 _ h2 n
      (fun b hb e he k hk => hmesh.notOther hn hp (b.1, e) (mem_elements.mpr ⟨b, hb, rfl, he⟩) k hk) d
    have z1 : F1 (3 * π n + d) = 0 := internal_force_outside val _ _ F1 _ h1 (π n)
      (fun b hb e he k hk => hmesh.notHalf hn hp (b.1, e) (mem_elements.mpr ⟨b, hb, rfl, he⟩) k hk) d
    rw [e3, e3, z2, z1, e1, e4, add_zero, zero_add]
    exact ⟨rfl, rfl⟩
  · intro hp
    rw [hp] at e4
    rw [e3, e1, e4]

include hf hmesh in
theorem half_mass (hM : MassComputed val h half) (hM' : MassComputed val c (half ++ other)) (n : ℕ) (hn : n < N) :
    (π n ≠ n → c.mass n = h.mass n ∧ c.mass (π n) = h.mass n) ∧ (π n = n → c.mass n = 2 * h.mass n) := by
  obtain ⟨m1, h1, e1⟩ := mass_congr val (flat h.X) (flat c.X) h.mass N half hmesh.inMesh
    (fun n hn d => by rw [flat_apply, flat_apply, hmesh.positions n hn d]) hM
  obtain ⟨m2, h2, e2⟩ := lumped_mass_mapped val half other (mirrorMatrix normal) π hmesh.injective D
    (hmesh.elements.maps hf (mirror_orth normal)) (flat h.X) (flat c.X) o
    (fun be hbe n hn d => by
      rw [flat_apply, hmesh.imageNodes _ (element_inMesh hmesh.inMesh hbe n hn)]
      simp only [flat_apply]) h.mass hM
  have e3 := mass_append val (flat c.X) c.mass m1 m2 half other hM' h1 h2
  constructor
  · intro hp
    have z2 : m2 n = 0 := mass_outside val _ m2 _ h2 n (hmesh.notOther hn hp)
    have z1 : m1 (π n) = 0 := mass_outside val _ m1 _ h1 (π n) (hmesh.notHalf hn hp)
    rw [e3, e3, z1, z2, e1, e2, add_zero, zero_add]
    exact ⟨rfl, rfl⟩
  · intro hp
    have := e2 n
    rw [hp] at this
    rw [e3, e1, this]
    ring

variable (hc : HalfConditions normal π N h c) (hq : h.manager.scheme ≠ .quasistatic) (hq' : c.manager.scheme ≠ .quasistatic)

/-- The fields between the substeps of a step. -/
structure HalfFields (normal : Fin 3) (π : ℕ → ℕ) (N : ℕ) (u' v' u v : Nodal ℝ) : Prop where
  disp : ∀ n < N, ∀ d : Fin 3, u n d = u' n d ∧ u (π n) d = mirrorSign normal d * u' n d
  velo : ∀ n < N, ∀ d : Fin 3, ¬ (π n = n ∧ d = normal) → v n d = v' n d ∧ v (π n) d = mirrorSign normal d * v' n d
  plane : ∀ n < N, π n = n → v n normal = 0

theorem HalfFields.plane_u {u' v' u v : Nodal ℝ} (hfl : HalfFields normal π N u' v' u v) (n : ℕ) (hn : n < N) (hp : π n = n) :
    u n normal = 0 ∧ u' n normal = 0 := by
  obtain ⟨h1, h2⟩ := hfl.disp n hn normal
  rw [hp, mirrorSign, if_pos rfl] at h2
  constructor <;> linarith

include hc hq hq' in
theorem half_kinematic (tc tp : ℝ) (u' v' u v : Nodal ℝ) (hfl : HalfFields normal π N u' v' u v) :
    HalfFields normal π N (kinematic h tc tp u' v').1 (kinematic h tc tp u' v').2 (kinematic c tc tp u v).1 (kinematic c tc tp u v).2 := by
  rw [kinematic_displacement hq, kinematic_displacement hq']
  refine ⟨hfl.disp, fun n hn d hd => ?_, fun n hn hp => ?_⟩
  · constructor
    · have := kinematic_dof hq hq' (hc.half n hn d hd) tc tp u' v' u v (by rw [one_mul]; exact (hfl.disp n hn d).1)
        (by rw [one_mul]; exact (hfl.velo n hn d hd).1)
      rwa [one_mul] at this
    · exact kinematic_dof hq hq' (hc.other n hn d hd) tc tp u' v' u v (hfl.disp n hn d).2 (hfl.velo n hn d hd).2
  · exact kinematic_plane hq' (hc.plane_full n hn hp).1 (hc.plane_full n hn hp).2 tc tp u v (hfl.plane_u n hn hp).1 (hfl.plane n hn hp)

theorem half_axpy (x : ℝ) {u' v' w' u v w : Nodal ℝ} (hfl : HalfFields normal π N u' v' u v)
    (hw : ∀ n < N, ∀ d : Fin 3, ¬ (π n = n ∧ d = normal) → w n d = w' n d ∧ w (π n) d = mirrorSign normal d * w' n d)
    (hw0 : ∀ n < N, π n = n → w n normal = 0) : HalfFields normal π N u' (axpy v' x w') u (axpy v x w) := by
  refine ⟨hfl.disp, fun n hn d hd => ?_, fun n hn hp => ?_⟩
  · unfold axpy
    rw [(hfl.velo n hn d hd).1, (hfl.velo n hn d hd).2, (hw n hn d hd).1, (hw n hn d hd).2]
    exact ⟨rfl, by ring⟩
  · unfold axpy
    rw [hfl.plane n hn hp, hw0 n hn hp]
    ring

theorem half_move (x : ℝ) {u' v' u v : Nodal ℝ} (hfl : HalfFields normal π N u' v' u v) (h0 : ∀ n < N, π n = n → v' n normal = 0) :
    HalfFields normal π N (axpy u' x v') v' (axpy u x v) v := by
  refine ⟨fun n hn d => ?_, hfl.velo, hfl.plane⟩
  by_cases hd : π n = n ∧ d = normal
  · obtain ⟨hp, rfl⟩ := hd
    unfold axpy
    rw [hp, h0 n hn hp, hfl.plane n hn hp, (hfl.plane_u n hn hp).1, (hfl.plane_u n hn hp).2]
    simp
  · unfold axpy
    rw [(hfl.disp n hn d).1, (hfl.disp n hn d).2, (hfl.velo n hn d hd).1, (hfl.velo n hn d hd).2]
    exact ⟨rfl, by ring⟩

include hc hq in
/-- After the conditions, the half model is at rest normal to the plane. -/
theorem half_rest (tc tp : ℝ) (ht : 0 < tc - tp) (u' v' u v : Nodal ℝ) (hfl : HalfFields normal π N u' v' u v) (n : ℕ) (hn : n < N)
    (hp : π n = n) : (kinematic h tc tp u' v').2 n normal = 0 := by
  obtain ⟨bc, hbc, ha, h0, hs⟩ := hc.plane n hn hp
  exact kinematic_zero hq hbc ha h0 hs tc tp u' v' (hfl.plane_u n hn hp).2 (Or.inl ht)

theorem IsHalf.fields {s' s : Sim ℝ Unit} (hs : IsHalf normal π N s' s) :
    HalfFields normal π N s'.displacement s'.velocity s.displacement s.velocity :=
  ⟨hs.displacement, hs.velocity, fun n hn hp => (hs.plane n hn hp).2.1⟩

include hc hq hq' in
theorem half_predict (hdt : c.dt = h.dt) (ht : 0 < h.dt) (s' s : Sim ℝ Unit) (hs : IsHalf normal π N s' s) :
    HalfFields normal π N (predict h s').1 (predict h s').2 (predict c s).1 (predict c s).2 := by
  have h1 := half_axpy (0.5 * (s'.time + h.dt - s'.time)) hs.fields hs.acceleration (fun n hn hp => (hs.plane n hn hp).2.2)
  have h2 := half_kinematic hc hq hq' (s'.time + h.dt) s'.time _ _ _ _ h1
  have h3 := half_rest hc hq (s'.time + h.dt) s'.time (by linarith) _ _ _ _ h1
  unfold predict
  simp only
  rw [hs.time, hdt]
  apply half_kinematic hc hq hq'
  exact half_move _ h2 h3

include hf hmesh hc hq hq' in
theorem half_step (hM : MassComputed val h half) (hM' : MassComputed val c (half ++ other)) (htimes : SameTimes h c 1) (ht : 0 < h.dt)
    (k : ℕ) (s' s s1' : Sim ℝ Unit) (hs : IsHalf normal π N s' s)
    (h1 : step h (meshPhysics val h.X (serial half)) k s' = some s1') (hD : AllDeform val D half h.X s1'.displacement) :
    ∃ s1, step c (meshPhysics val c.X (serial (half ++ other))) k s = some s1 ∧ IsHalf normal π N s1' s1 := by
  have hdt : c.dt = h.dt := by
    unfold Config.dt
    rw [htimes.initialTime, htimes.finalTime, htimes.numSteps, one_mul, one_mul]
  have hout : c.isOutputStep k = h.isOutputStep k := by
    unfold Config.isOutputStep; rw [htimes.frequency, htimes.numSteps]
  rw [step_eq, Option.map_eq_some_iff] at h1
  obtain ⟨F', hF', rfl⟩ := h1
  rw [correct_displacement h hq] at hD
  have hp := half_predict hc hq hq' hdt ht s' s hs
  obtain ⟨F, hF, hv⟩ := half_forces hf hmesh (val := val) _ _ hp.disp hD F' hF'
  rw [step_eq]
  refine ⟨correct c k s F, by rw [hF]; rfl, ?_⟩
  have hacc : ∀ n < N, ∀ d : Fin 3, ¬ (π n = n ∧ d = normal) →
      accel c (fun n i => F (3 * n + i)) (fun _ _ => 0) none n d = accel h (fun n i => F' (3 * n + i)) (fun _ _ => 0) none n d ∧
      accel c (fun n i => F (3 * n + i)) (fun _ _ => 0) none (π n) d
        = mirrorSign normal d * accel h (fun n i => F' (3 * n + i)) (fun _ _ => 0) none n d := by
    intro n hn d hd
    obtain ⟨m1, m2⟩ := half_mass hf hmesh hM hM' n hn
    obtain ⟨f1, f2⟩ := hv n hn d
    unfold accel
    simp only [add_zero]
    by_cases hpl : π n = n
    · have hd' : d ≠ normal := fun hd' => hd ⟨hpl, hd'⟩
      have hsig : mirrorSign normal d = 1 := if_neg hd'
      rw [hpl, m2 hpl, f2 hpl, hsig]
      have : 1 / (2 * h.mass n) * (F' (3 * n + d) + 1 * F' (3 * n + d)) = 1 / h.mass n * F' (3 * n + d) := by
        rw [one_mul, ← two_mul]
        by_cases hz : h.mass n = 0
        · simp [hz]
        · field_simp
      exact ⟨this, by rw [this]; ring⟩
    · rw [(m1 hpl).1, (m1 hpl).2, (f1 hpl).1, (f1 hpl).2]
      exact ⟨rfl, by ring⟩
  have hacc0 : ∀ n < N, π n = n → accel c (fun n i => F (3 * n + i)) (fun _ _ => 0) none n normal = 0 := by
    intro n hn hpl
    have := (hv n hn normal).2 hpl
    unfold accel
    simp only [add_zero]
    rw [this, mirrorSign, if_pos rfl]
    ring
  have hvel := half_axpy (0.5 * (s'.time + h.dt - s'.time)) hp hacc hacc0
  have hfin : HalfFields normal π N (correct h k s' F').displacement (correct h k s' F').velocity
      (correct c k s F).displacement (correct c k s F).velocity := by
    unfold correct
    simp only [hout, hs.time, hdt]
    split_ifs
    · exact half_kinematic hc hq hq' _ _ _ _ _ _ hvel
    · exact hvel
  refine ⟨?_, hfin.disp, hfin.velo, hacc, fun n hn hpl => ⟨(hfin.plane_u n hn hpl).1, hfin.plane n hn hpl, hacc0 n hn hpl⟩⟩
  show s.time + c.dt = s'.time + h.dt
  rw [hs.time, hdt]

end Run

/-! ## C128 -/

/-- **C128.**  A half model with zero normal displacement (or velocity) on the plane of symmetry computes the half of the full model:
after every step the nodes of the half move as in the full model, the other nodes as their mirror images, and the nodes on the plane
stay on it. -/
theorem half_model (val : ℝ) (f : ℝ → ℝ) (hf : IsCosThird f) (D : Matrix (Fin 3) (Fin 3) ℝ → Prop) (normal : Fin 3) (o : Fin 3 → ℝ)
    (π : ℕ → ℕ) (N : ℕ) (h c : Config ℝ) (half other : List (Blk ℝ)) (hmesh : HalfMesh f D normal o π N h c half other)
    (hc : HalfConditions normal π N h c) (hq : h.manager.scheme ≠ .quasistatic) (hq' : c.manager.scheme ≠ .quasistatic)
    (hM : MassComputed val h half) (hM' : MassComputed val c (half ++ other)) (htimes : SameTimes h c 1)
    (ht : h.initialTime < h.finalTime) (hn : 0 < h.numSteps)
    (hv : ∀ n < N, ∀ d : Fin 3, ¬ (π n = n ∧ d = normal) → initialVelocity c n d = initialVelocity h n d ∧
      initialVelocity c (π n) d = mirrorSign normal d * initialVelocity h n d)
    (hv0 : ∀ n < N, π n = n → initialVelocity c n normal = 0)
    (hD : RunDeforms val D h half) (k : ℕ) (s' : Sim ℝ Unit) (hs' : state val h half k = some s') :
    ∃ s, state val c (half ++ other) k = some s ∧ IsHalf normal π N s' s := by
  have hdt : 0 < h.dt := by
    unfold Config.dt
    exact div_pos (by linarith) (by exact_mod_cast hn)
  unfold state at hs' ⊢
  induction k generalizing s' with
  | zero =>
    rw [loop_zero] at hs' ⊢
    cases hs'
    refine ⟨_, rfl, ?_⟩
    have h1 := half_kinematic hc hq hq' 0 0 (fun _ _ => 0) (initialVelocity h) (fun _ _ => 0) (initialVelocity c)
      ⟨fun n hn d => by simp, hv, hv0⟩
    refine ⟨by show c.initialTime = h.initialTime; rw [htimes.initialTime, one_mul], h1.disp, h1.velo, ?_, ?_⟩
    · intro n hn d _
      show (0 : ℝ) = 0 ∧ (0 : ℝ) = mirrorSign normal d * 0
      simp
    · exact fun n hn hp => ⟨(h1.plane_u n hn hp).1, h1.plane n hn hp, rfl⟩
  | succ k ih =>
    have hdef := hD (k + 1) s' hs'
    rw [loop_succ, Option.bind_eq_some_iff] at hs'
    obtain ⟨s0', h1, h2⟩ := hs'
    obtain ⟨s0, h3, h4⟩ := ih s0' h1
    obtain ⟨s, h5, h6⟩ := half_step hf hmesh hc hq hq' hM hM' htimes hdt k s0' s0 s' h4 h2 hdef
    exact ⟨s, by rw [loop_succ, h3, Option.bind_some, h5], h6⟩

/-- **C128.**  The half model does not fail where the full model succeeds. -/
theorem half_model_runs (val : ℝ) (f : ℝ → ℝ) (hf : IsCosThird f) (D : Matrix (Fin 3) (Fin 3) ℝ → Prop) (normal : Fin 3) (o : Fin 3 → ℝ)
    (π : ℕ → ℕ) (N : ℕ) (h c : Config ℝ) (half other : List (Blk ℝ)) (hmesh : HalfMesh f D normal o π N h c half other)
    (hc : HalfConditions normal π N h c) (hq : h.manager.scheme ≠ .quasistatic) (hq' : c.manager.scheme ≠ .quasistatic)
    (hM : MassComputed val h half) (hM' : MassComputed val c (half ++ other)) (htimes : SameTimes h c 1)
    (ht : h.initialTime < h.finalTime) (hn : 0 < h.numSteps)
    (hv : ∀ n < N, ∀ d : Fin 3, ¬ (π n = n ∧ d = normal) → initialVelocity c n d = initialVelocity h n d ∧
      initialVelocity c (π n) d = mirrorSign normal d * initialVelocity h n d)
    (hv0 : ∀ n < N, π n = n → initialVelocity c n normal = 0)
    (hD : RunDeforms val D h half) (k : ℕ) (s : Sim ℝ Unit) (hs : state val c (half ++ other) k = some s) :
    ∃ s', state val h half k = some s' := by
  induction k generalizing s with
  | zero => exact ⟨_, by unfold state; rw [loop_zero]⟩
  | succ k ih =>
    unfold state at hs
    rw [loop_succ, Option.bind_eq_some_iff] at hs
    obtain ⟨s0, h1, h2⟩ := hs
    obtain ⟨s0', h3⟩ := ih s0 h1
    obtain ⟨s1, h4, h5⟩ := half_model val f hf D normal o π N h c half other hmesh hc hq hq' hM hM' htimes ht hn hv hv0 hD k s0' h3
    have : s1 = s0 := by
      unfold state at h4
      rw [h4] at h1
      exact Option.some.inj h1
    subst this
    have hdt : c.dt = h.dt := by
      unfold Config.dt
      rw [htimes.initialTime, htimes.finalTime, htimes.numSteps, one_mul, one_mul]
    have hpos : 0 < h.dt := by
      unfold Config.dt
      exact div_pos (by linarith) (by exact_mod_cast hn)
    have hp := half_predict hc hq hq' hdt hpos s0' s1 h5
    rw [step_eq, Option.map_eq_some_iff] at h2
    obtain ⟨F, hF, -⟩ := h2
    have h6 : ∃ F', computeInternalForce val (flat h.X) (flat (predict h s0').1) (serial half) = some F' := by
      rw [internal_force_defined]
      intro b hb e he
      rw [elementForce_congr val b.1 b.1 rfl e (flat h.X) (flat c.X) (flat (predict h s0').1) (flat (predict c s1).1)
        (fun k hk d => by rw [flat_apply, flat_apply, hmesh.positions _ (hmesh.inMesh b hb e he k hk) d])
        (fun k hk d => by rw [flat_apply, flat_apply, (hp.disp _ (hmesh.inMesh b hb e he k hk) d).1])]
      exact (internal_force_defined val _ _ _).mp ⟨F, hF⟩ b (by rw [serial_append]; exact List.mem_append_left _ hb) e he
    obtain ⟨F', hF'⟩ := h6
    unfold state at h3 ⊢
    exact ⟨_, by rw [loop_succ, h3, Option.bind_some, step_eq, hF', Option.map_some]⟩

end NimbleSM.Integrate
