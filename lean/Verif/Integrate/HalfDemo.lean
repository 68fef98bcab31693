import Verif.Integrate.HalfProps
import Verif.Integrate.SymmetryDemo

/-!
# C128: a case that meets the hypotheses

The half model is the guided cube, its plane of symmetry the face `y = 0`.  The full model has two elements and twelve nodes, and the
four nodes between the elements have no condition in the `y` direction.
-/

open scoped BigOperators

namespace NimbleSM.Integrate

open Matrix NimbleSM.Bc NimbleSM.Assembly NimbleSM.Hex NimbleSM.Tensor NimbleSM.Constitutive

/-- Nodes 2, 3, 6, 7 have the images 8, 9, 10, 11; nodes 0, 1, 4, 5 are on the plane. -/
def imageNode : Equiv.Perm ℕ := Equiv.swap 2 8 * Equiv.swap 3 9 * Equiv.swap 6 10 * Equiv.swap 7 11

/-- The order 3 2 1 0 7 6 5 4 of the corners. -/
def swapOrder1 : Equiv.Perm (Fin 8) where
  toFun := ![3, 2, 1, 0, 7, 6, 5, 4]
  invFun := ![3, 2, 1, 0, 7, 6, 5, 4]
  left_inv := by decide
  right_inv := by decide

theorem swapOrder1_reflection : CubeReflection swapOrder1 :=
  ⟨1, ![1, -1, 1], ⟨by decide +kernel⟩, by decide +kernel⟩

theorem mirror1_det : (mirrorMatrix 1).det = -1 := by
  unfold mirrorMatrix
  rw [Matrix.det_diagonal, Fin.prod_univ_three]
  norm_num [mirrorSign]
  decide

/-- The element of the other half. -/
noncomputable def otherCube (m : Material ℝ) : Blk ℝ :=
  { cubeBlk m with conn := fun k => if hk : k < 8 then imageNode (swapOrder1⁻¹ ⟨k, hk⟩ : Fin 8) else k }

/-- Both halves. -/
noncomputable def wholeBar (val : ℝ) (m : Material ℝ) (h v0 dt : ℝ) (steps : ℕ) : Config ℝ :=
  let X0 := (guidedCube val m h v0 dt steps).X
  let X : Nodal ℝ := fun n d => if n < 8 then X0 n d else if d = 1 then -X0 (imageNode n) d else X0 (imageNode n) d
  { manager :=
      { sets := fun i => if i = 1 then some [0, 1, 2, 3, 4, 5, 6, 7, 8, 9, 10, 11] else
          if i = 2 then some [2, 3, 6, 7, 8, 9, 10, 11] else none
        bcs := [⟨.prescribedDisplacement, 2, 1, .inl 0⟩, ⟨.prescribedDisplacement, 1, 2, .inl 0⟩,
          ⟨.initialVelocity, 1, 0, .inr fun x _ _ _ => v0 * (2 * x / h - 1)⟩]
        dim := 3
        scheme := .explicit }
    X := X
    mass := (computeLumpedMassField val (flat X) [cubeBlk m, otherCube m] (fun _ => 0)).getD (fun _ => 0)
    initialTime := 0
    finalTime := dt * steps
    numSteps := steps
    frequency := 0 }

section Demo
variable (val : ℝ) (m : Material ℝ) (h v0 dt : ℝ) (steps : ℕ)

theorem imageNode_cases (n : ℕ) (hn : n < 8) : (imageNode n = n ∧ n ∈ [0, 1, 4, 5]) ∨
    (imageNode (imageNode n) = n ∧ imageNode n ∈ [8, 9, 10, 11] ∧ n ∈ [2, 3, 6, 7]) := by
  have : ∀ n : Fin 8, (imageNode n = n ∧ (n : ℕ) ∈ [0, 1, 4, 5]) ∨
    (imageNode (imageNode n) = n ∧ imageNode n ∈ [8, 9, 10, 11] ∧ (n : ℕ) ∈ [2, 3, 6, 7]) := by decide +kernel
  exact this ⟨n, hn⟩

theorem plane_corner (n : Fin 8) (hn : (n : ℕ) ∈ [0, 1, 4, 5]) : (corner n 1 : ℝ) = -1 := by
  have : ∀ n : Fin 8, (n : ℕ) ∈ [0, 1, 4, 5] → cornerZ n 1 = -1 := by decide +kernel
  rw [corner_cast, this n hn]; norm_num

theorem wholeBar_mesh (f : ℝ → ℝ) : HalfMesh f (fun _ => True) 1 0 imageNode 8 (guidedCube val m h v0 dt steps) (wholeBar val m h v0 dt steps)
    [cubeBlk m] [otherCube m] where
  inMesh := cube_inMesh m
  injective := imageNode.injective
  new := by
    intro n hn hi
    rcases imageNode_cases n hn with h1 | h1
    · exact h1.1
    · have := h1.2.1
      simp at this
      omega
  positions := by
    intro n hn d
    show (if n < 8 then _ else _) = _
    rw [if_pos hn]
  images := by
    intro n hn d
    rw [Pi.zero_apply, add_zero]
    show (if imageNode n < 8 then _ else _) = _
    rcases imageNode_cases n hn with ⟨h1, h2⟩ | ⟨h1, h2, -⟩
    · rw [h1, if_pos hn, mirrorSign]
      by_cases hd : d = 1
      · subst hd
        have h3 := guidedCube_X val m h v0 dt steps ⟨n, hn⟩ 1
        rw [plane_corner ⟨n, hn⟩ h2] at h3
        simp only at h3
        rw [if_pos rfl, h3]
        ring
      · rw [if_neg hd, one_mul]
    · rw [if_neg (by simp at h2; omega), h1, mirrorSign]
      by_cases hd : d = 1
      · subst hd
        rw [if_pos (show ((1 : Fin 3) : ℕ) = 1 from rfl), if_pos rfl]
        ring
      · rw [if_neg (show ¬ (d : ℕ) = 1 from fun h => hd (Fin.ext h)), if_neg hd, one_mul]
  elements := by
    refine ⟨[(otherCube m, 0)], List.Forall₂.cons ⟨rfl, .elastic m m rfl rfl (one_mul _).symm (one_mul _).symm, ?_⟩ List.Forall₂.nil,
      List.Perm.refl _⟩
    refine ⟨swapOrder1, Or.inr ⟨mirror1_det, swapOrder1_reflection⟩, fun n => ?_⟩
    simp [Blk.nodeId, otherCube, cubeBlk]

theorem guided_acts {bc : BoundaryCondition ℝ} (hb : bc ∈ (guidedCube val m h v0 dt steps).manager.bcs) (n : ℕ) (d : Fin 3) :
    Acts (guidedCube val m h v0 dt steps).manager bc n d ↔ n < 8 ∧ ((d = 1 ∧ bc = ⟨.prescribedDisplacement, 1, 1, .inl 0⟩) ∨
      (d = 2 ∧ bc = ⟨.prescribedDisplacement, 1, 2, .inl 0⟩)) := by
  have hmem : n ∈ [0, 1, 2, 3, 4, 5, 6, 7] ↔ n < 8 := by simp; omega
  have hsets : (guidedCube val m h v0 dt steps).manager.sets 1 = some [0, 1, 2, 3, 4, 5, 6, 7] := rfl
  simp only [guidedCube, List.mem_cons, List.not_mem_nil, or_false] at hb
  unfold Acts
  rcases hb with rfl | rfl | rfl
  · simp only [hsets, Option.some.injEq, exists_eq_left', hmem]
    simp [BoundaryCondition.isKinematic]
    constructor
    · rintro ⟨h1, h2⟩; exact ⟨h2, Fin.ext h1.symm⟩
    · rintro ⟨h1, h2⟩; subst h2; exact ⟨rfl, h1⟩
  · simp only [hsets, Option.some.injEq, exists_eq_left', hmem]
    simp [BoundaryCondition.isKinematic]
    constructor
    · rintro ⟨h1, h2⟩; exact ⟨h2, Fin.ext h1.symm⟩
    · rintro ⟨h1, h2⟩; subst h2; exact ⟨rfl, h1⟩
  · simp [BoundaryCondition.isKinematic]

theorem whole_acts {bc : BoundaryCondition ℝ} (hb : bc ∈ (wholeBar val m h v0 dt steps).manager.bcs) (n : ℕ) (d : Fin 3) :
    Acts (wholeBar val m h v0 dt steps).manager bc n d ↔
      (d = 1 ∧ n ∈ [2, 3, 6, 7, 8, 9, 10, 11] ∧ bc = ⟨.prescribedDisplacement, 2, 1, .inl 0⟩) ∨
      (d = 2 ∧ n < 12 ∧ bc = ⟨.prescribedDisplacement, 1, 2, .inl 0⟩) := by
  have hmem : n ∈ [0, 1, 2, 3, 4, 5, 6, 7, 8, 9, 10, 11] ↔ n < 12 := by simp; omega
  have hsets : (wholeBar val m h v0 dt steps).manager.sets 1 = some [0, 1, 2, 3, 4, 5, 6, 7, 8, 9, 10, 11] := rfl
  have hsets2 : (wholeBar val m h v0 dt steps).manager.sets 2 = some [2, 3, 6, 7, 8, 9, 10, 11] := rfl
  simp only [wholeBar, List.mem_cons, List.not_mem_nil, or_false] at hb
  unfold Acts
  rcases hb with rfl | rfl | rfl
  · simp only [hsets2, Option.some.injEq, exists_eq_left']
    simp [BoundaryCondition.isKinematic, -List.mem_cons]
    intro _
    constructor
    · intro h1; exact Fin.ext h1.symm
    · intro h1; subst h1; rfl
  · simp only [hsets, Option.some.injEq, exists_eq_left', hmem]
    simp [BoundaryCondition.isKinematic]
    intro _
    constructor
    · intro h1; exact Fin.ext h1.symm
    · intro h1; subst h1; rfl
  · simp [BoundaryCondition.isKinematic]

theorem guided_single (n : ℕ) (d : Fin 3) : ∀ bc ∈ (guidedCube val m h v0 dt steps).manager.bcs,
    ∀ bc' ∈ (guidedCube val m h v0 dt steps).manager.bcs, Acts (guidedCube val m h v0 dt steps).manager bc n d →
    Acts (guidedCube val m h v0 dt steps).manager bc' n d → bc = bc' := by
  intro bc hb bc' hb' h1 h2
  rw [guided_acts val m h v0 dt steps hb] at h1
  rw [guided_acts val m h v0 dt steps hb'] at h2
  rcases h1.2 with ⟨rfl, rfl⟩ | ⟨rfl, rfl⟩ <;> rcases h2.2 with ⟨h3, rfl⟩ | ⟨h3, rfl⟩
  · rfl
  · exact absurd h3 (by decide)
  · exact absurd h3 (by decide)
  · rfl

theorem whole_single (n : ℕ) (d : Fin 3) : ∀ bc ∈ (wholeBar val m h v0 dt steps).manager.bcs,
    ∀ bc' ∈ (wholeBar val m h v0 dt steps).manager.bcs, Acts (wholeBar val m h v0 dt steps).manager bc n d →
    Acts (wholeBar val m h v0 dt steps).manager bc' n d → bc = bc' := by
  intro bc hb bc' hb' h1 h2
  rw [whole_acts val m h v0 dt steps hb] at h1
  rw [whole_acts val m h v0 dt steps hb'] at h2
  rcases h1 with ⟨rfl, -, rfl⟩ | ⟨rfl, -, rfl⟩ <;> rcases h2 with ⟨h3, -, rfl⟩ | ⟨h3, -, rfl⟩
  · rfl
  · exact absurd h3 (by decide)
  · exact absurd h3 (by decide)
  · rfl

theorem demo_same (n n' : ℕ) (d : Fin 3) (σ : ℝ) (hn : n < 8) (hn' : n' < 12) (hy : d = 1 → n' ∈ [2, 3, 6, 7, 8, 9, 10, 11]) :
    SameCondition (guidedCube val m h v0 dt steps).manager (wholeBar val m h v0 dt steps).manager (guidedCube val m h v0 dt steps).X
      (wholeBar val m h v0 dt steps).X n n' d σ where
  acting := by
    intro bc hb ha
    rw [guided_acts val m h v0 dt steps hb] at ha
    rcases ha.2 with ⟨rfl, rfl⟩ | ⟨rfl, rfl⟩
    · refine ⟨⟨.prescribedDisplacement, 2, 1, .inl 0⟩, by simp [wholeBar], ?_, rfl, fun t => by simp [prescribed]⟩
      rw [whole_acts val m h v0 dt steps (by simp [wholeBar])]
      exact Or.inl ⟨rfl, hy rfl, rfl⟩
    · refine ⟨⟨.prescribedDisplacement, 1, 2, .inl 0⟩, by simp [wholeBar], ?_, rfl, fun t => by simp [prescribed]⟩
      rw [whole_acts val m h v0 dt steps (by simp [wholeBar])]
      exact Or.inr ⟨rfl, hn', rfl⟩
  free := by
    intro hf bc hb ha
    rw [whole_acts val m h v0 dt steps hb] at ha
    rcases ha with ⟨rfl, -, -⟩ | ⟨rfl, -, -⟩
    · refine hf ⟨.prescribedDisplacement, 1, 1, .inl 0⟩ (by simp [guidedCube]) ?_
      rw [guided_acts val m h v0 dt steps (by simp [guidedCube])]
      exact ⟨hn, Or.inl ⟨rfl, rfl⟩⟩
    · refine hf ⟨.prescribedDisplacement, 1, 2, .inl 0⟩ (by simp [guidedCube]) ?_
      rw [guided_acts val m h v0 dt steps (by simp [guidedCube])]
      exact ⟨hn, Or.inr ⟨rfl, rfl⟩⟩
  single := guided_single val m h v0 dt steps n d
  single' := whole_single val m h v0 dt steps n' d

theorem demo_conditions : HalfConditions 1 imageNode 8 (guidedCube val m h v0 dt steps) (wholeBar val m h v0 dt steps) where
  half := by
    intro n hn d hd
    refine demo_same val m h v0 dt steps n n d 1 hn (by omega) fun h1 => ?_
    rcases imageNode_cases n hn with h2 | h2
    · exact absurd ⟨h2.1, h1⟩ hd
    · have := h2.2.2
      simp at this ⊢
      omega
  other := by
    intro n hn d hd
    rcases imageNode_cases n hn with h2 | h2
    · exact demo_same val m h v0 dt steps n _ d _ hn (by rw [h2.1]; omega) fun h1 => absurd ⟨h2.1, h1⟩ hd
    · have := h2.2.1
      exact demo_same val m h v0 dt steps n _ d _ hn (by simp at this; omega) fun _ => by simp at this ⊢; omega
  plane := by
    intro n hn hp
    refine ⟨⟨.prescribedDisplacement, 1, 1, .inl 0⟩, by simp [guidedCube], ?_, fun t => by simp [prescribed], fun bc' hb' ha => ?_⟩
    · rw [guided_acts val m h v0 dt steps (by simp [guidedCube])]
      exact ⟨hn, Or.inl ⟨rfl, rfl⟩⟩
    · rw [guided_acts val m h v0 dt steps hb'] at ha
      rcases ha.2 with h1 | h1
      · exact h1.2
      · exact absurd h1.1 (by decide)
  plane_full := by
    intro n hn hp
    refine ⟨fun bc hb ha t => ?_, whole_single val m h v0 dt steps n 1⟩
    rw [whole_acts val m h v0 dt steps hb] at ha
    rcases ha with ⟨-, -, rfl⟩ | ⟨-, -, rfl⟩ <;> simp [prescribed]

/-- On the plane the full model is free in the normal direction. -/
theorem plane_free : Free (wholeBar val m h v0 dt steps).manager 0 (1 : Fin 3) := by
  intro bc hb ha
  rw [whole_acts val m h v0 dt steps hb] at ha
  rcases ha with ⟨-, h1, -⟩ | ⟨h1, -, -⟩
  · simp at h1
  · exact absurd h1 (by decide)

theorem whole_initial (hh : 0 < h) (n : ℕ) (hn : n < 8) (d : Fin 3) (n' : ℕ) (hn' : n' = n ∨ n' = imageNode n) :
    initialVelocity (wholeBar val m h v0 dt steps) n' d = initialVelocity (guidedCube val m h v0 dt steps) n d := by
  have h1 := guided_initial val m h v0 dt steps hh ⟨n, hn⟩ d
  simp only at h1
  have hX : (wholeBar val m h v0 dt steps).X n' 0 = h * (1 + corner ⟨n, hn⟩ 0) / 2 := by
    have h3 := guidedCube_X val m h v0 dt steps ⟨n, hn⟩ 0
    simp only at h3
    have h4 := (wholeBar_mesh val m h v0 dt steps (fun _ => 0)).positions n hn 0
    have h5 := (wholeBar_mesh val m h v0 dt steps (fun _ => 0)).images n hn 0
    rw [mirrorSign, if_neg (by decide), one_mul, Pi.zero_apply, add_zero] at h5
    rcases hn' with rfl | rfl
    · exact h4.trans h3
    · exact h5.trans h3
  have hlt : n' < 12 := by
    rcases hn' with rfl | rfl
    · omega
    · rcases imageNode_cases n hn with h2 | h2
      · rw [h2.1]; omega
      · have := h2.2.1; simp at this; omega
  rw [h1]
  unfold initialVelocity
  by_cases hd : d = 0
  · subst hd
    rw [if_pos rfl, (initial_velocity_spec _ _ _ _ _ _).1 ⟨.initialVelocity, 1, 0, .inr fun x _ _ _ => v0 * (2 * x / h - 1)⟩ ?_]
    · unfold prescribed
      show v0 * (2 * (wholeBar val m h v0 dt steps).X n' 0 / h - 1) = _
      rw [hX]
      field_simp
      ring
    · refine ⟨[_, _], [], rfl, ⟨rfl, rfl, ?_⟩, by simp⟩
      have : (wholeBar val m h v0 dt steps).manager.sets 1 = some [0, 1, 2, 3, 4, 5, 6, 7, 8, 9, 10, 11] := rfl
      simp [this, Manager.nodeSet]
      omega
  · rw [if_neg hd, (initial_velocity_spec _ _ _ _ _ _).2]
    intro b hb
    simp only [wholeBar, List.mem_cons, List.not_mem_nil, or_false] at hb
    rcases hb with rfl | rfl | rfl
    · rintro ⟨h, -⟩; exact absurd h (by decide)
    · rintro ⟨h, -⟩; exact absurd h (by decide)
    · rintro ⟨-, h2, -⟩
      exact hd (Fin.ext h2.symm)

theorem whole_mass (f : ℝ → ℝ) (hf : IsCosThird f) (hh : 0 < h) :
    MassComputed val (wholeBar val m h v0 dt steps) ([cubeBlk m] ++ [otherCube m]) := by
  have hmesh := wholeBar_mesh val m h v0 dt steps f
  have hM := guidedCube_mass val m h v0 dt steps hh
  obtain ⟨m1, h1, -⟩ := mass_congr val (flat (guidedCube val m h v0 dt steps).X) (flat (wholeBar val m h v0 dt steps).X) _ 8 [cubeBlk m]
    hmesh.inMesh (fun n hn d => by rw [flat_apply, flat_apply, hmesh.positions n hn d]) hM
  obtain ⟨m2, h2, -⟩ := lumped_mass_mapped val [cubeBlk m] [otherCube m] (mirrorMatrix 1) imageNode hmesh.injective (fun _ => True)
    (hmesh.elements.maps hf (mirror_orth 1)) (flat (guidedCube val m h v0 dt steps).X) (flat (wholeBar val m h v0 dt steps).X) 0
    (fun be hbe n hn d => by
      rw [flat_apply, hmesh.imageNodes _ (element_inMesh hmesh.inMesh hbe n hn)]
      simp only [flat_apply]) _ hM
  have h3 : ∃ M, computeLumpedMassField val (flat (wholeBar val m h v0 dt steps).X) [cubeBlk m, otherCube m] (fun _ => 0) = some M := by
    rw [lumped_mass_field_defined]
    intro b hb
    rcases List.mem_cons.mp hb with rfl | hb
    · exact (lumped_mass_field_defined _ _ _ _).mp ⟨m1, h1⟩ _ List.mem_cons_self
    · exact (lumped_mass_field_defined _ _ _ _).mp ⟨m2, h2⟩ b hb
  obtain ⟨M, hM'⟩ := h3
  change computeLumpedMassField val (flat (wholeBar val m h v0 dt steps).X) [cubeBlk m, otherCube m] (fun _ => 0)
    = some ((computeLumpedMassField val (flat (wholeBar val m h v0 dt steps).X) [cubeBlk m, otherCube m] (fun _ => 0)).getD (fun _ => 0))
  rw [hM', Option.getD_some]

/-- **C128**, a case: the half oscillates for ever, and so does the whole. -/
theorem half_model_case (f : ℝ → ℝ) (hf : IsCosThird f) (hh : 0 < h) (hrho : 0 < m.density) (hs : 0 < steps) (hdt : 0 < dt)
    (hv0 : v0 ^ 2 * (m.density * h ^ 2) ^ 2 <
      (m.bulk + 4 / 3 * m.shear) * (m.density * h ^ 2 - dt ^ 2 * (m.bulk + 4 / 3 * m.shear)) * h ^ 2) (k : ℕ) :
    ∃ s' s, state val (guidedCube val m h v0 dt steps) [cubeBlk m] k = some s' ∧
      state val (wholeBar val m h v0 dt steps) [cubeBlk m, otherCube m] k = some s ∧ IsHalf 1 imageNode 8 s' s := by
  have hd := guidedCube_dt val m h v0 dt steps hs
  obtain ⟨s', h1, -⟩ := guided_run_stable_partial val m (guidedCube val m h v0 dt steps) (guidedCube_guided val m h v0 dt steps) h hh
    (guidedCube_X val m h v0 dt steps) (guidedCube_mass val m h v0 dt steps hh) hrho (by rw [hd]; exact hdt) v0
    (by rw [hd]; exact hv0) (guidedCube_start val m h v0 dt steps hh) k
  have hv1 := whole_initial val m h v0 dt steps hh
  have hg : ∀ n < 8, initialVelocity (guidedCube val m h v0 dt steps) n (1 : Fin 3) = 0 := by
    intro n hn
    have := guided_initial val m h v0 dt steps hh ⟨n, hn⟩ 1
    simpa using this
  obtain ⟨s, h2, h3⟩ := half_model val f hf (fun _ => True) 1 0 imageNode 8 (guidedCube val m h v0 dt steps)
    (wholeBar val m h v0 dt steps) [cubeBlk m] [otherCube m] (wholeBar_mesh val m h v0 dt steps f) (demo_conditions val m h v0 dt steps)
    (guidedCube_guided val m h v0 dt steps).scheme (by simp [wholeBar]) (guidedCube_mass val m h v0 dt steps hh)
    (whole_mass val m h v0 dt steps f hf hh) ⟨(one_mul _).symm, (one_mul _).symm, rfl, rfl⟩
    (by show (0 : ℝ) < dt * steps; positivity) hs
    (fun n hn d _ => by
      rw [hv1 n hn d n (Or.inl rfl), hv1 n hn d _ (Or.inr rfl)]
      refine ⟨rfl, ?_⟩
      by_cases h5 : d = 1
      · subst h5; rw [hg n hn, mul_zero]
      · rw [mirrorSign, if_neg h5, one_mul])
    (fun n hn _ => by rw [hv1 n hn 1 n (Or.inl rfl), hg n hn]) (fun _ _ _ _ _ _ _ _ _ _ => trivial) k s' h1
  exact ⟨s', s, h1, h2, h3⟩

end Demo

end NimbleSM.Integrate
