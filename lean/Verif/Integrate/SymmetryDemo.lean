import Verif.Integrate.SymmetryProps
import Verif.Integrate.InvarianceDemo
import Verif.Integrate.CornerRunProps

/-!
# C122: cases that meet the hypotheses
-/

open scoped BigOperators

namespace NimbleSM.Integrate

open Matrix NimbleSM.Bc NimbleSM.Assembly NimbleSM.Hex NimbleSM.Tensor NimbleSM.Constitutive

/-- The mirror that turns the first axis around. -/
def mirror0 : Fin 3 → ℤˣ := Function.update 1 0 (-1)

/-- The order 1 0 3 2 5 4 7 6 of the corners. -/
def swapOrder : Equiv.Perm (Fin 8) where
  toFun := ![1, 0, 3, 2, 5, 4, 7, 6]
  invFun := ![1, 0, 3, 2, 5, 4, 7, 6]
  left_inv := by decide
  right_inv := by decide

/-- The nodes 0 to 7 of a cube are mirrored, all others stay. -/
def swapNode (n : ℕ) : ℕ := if h : n < 8 then (swapOrder ⟨n, h⟩ : Fin 8) else n

theorem swapNode_fin (n : Fin 8) : swapNode n = (swapOrder n : Fin 8) := by
  simp [swapNode, n.isLt]

theorem swapNode_injective : Function.Injective swapNode := by
  have h : ∀ n, swapNode (swapNode n) = n := by
    intro n
    unfold swapNode
    by_cases hn : n < 8
    · rw [dif_pos hn, dif_pos (swapOrder ⟨n, hn⟩).isLt]
      have : ∀ k : Fin 8, swapOrder (swapOrder k) = k := by decide
      simp [this]
    · rw [dif_neg hn, dif_neg hn]
  exact Function.LeftInverse.injective h

theorem swapOrder_reflection : CubeReflection swapOrder :=
  ⟨1, ![-1, 1, 1], ⟨by decide +kernel⟩, by decide +kernel⟩

theorem mirror0_det : (signed 1 mirror0).det = -1 := by
  unfold signed
  rw [Matrix.det_transpose, det_turn]
  have : (Equiv.Perm.sign (1 : Equiv.Perm (Fin 3)) : ℤˣ) * ∏ d, mirror0 d = -1 := by decide +kernel
  rw [this]; simp

theorem swap_corner (n : Fin 8) (d : Fin 3) : (corner (swapOrder n) d : ℝ) = ((mirror0 d : ℤ) : ℝ) * corner n d := by
  have : ∀ n d, cornerZ (swapOrder n) d = (mirror0 d : ℤ) * cornerZ n d := by decide +kernel
  rw [corner_cast, this, corner_cast n d]; push_cast; ring

/-- A cube of one element is its own mirror image. -/
theorem cube_image (f : ℝ → ℝ) (m : Material ℝ) : ImageMesh f (fun _ => True) (signed 1 mirror0) swapNode [cubeBlk m] [cubeBlk m] := by
  refine ⟨[(cubeBlk m, 0)], List.Forall₂.cons ⟨rfl, .elastic m m rfl rfl (one_mul _).symm (one_mul _).symm, ?_⟩ List.Forall₂.nil,
    List.Perm.refl _⟩
  refine ⟨swapOrder, Or.inr ⟨mirror0_det, swapOrder_reflection⟩, fun n => ?_⟩
  simp only [Blk.nodeId, cubeBlk, zero_mul, zero_add]
  exact (swapNode_fin n).symm

theorem cube_nodes (X : Nodal ℝ) (h : ℝ) (hX : IsCube X h) : ImageNodes (signed 1 mirror0) ![h, 0, 0] swapNode 8 X X := by
  intro n hn d
  rw [signed_apply 1 mirror0 (fun k => X n k)]
  have h1 := hX ⟨n, hn⟩ d
  have h2 := hX (swapOrder ⟨n, hn⟩) d
  have h3 := swapNode_fin ⟨n, hn⟩
  simp only at h1 h3
  rw [h3, h2, swap_corner, Equiv.Perm.one_apply, h1]
  fin_cases d <;> simp [mirror0] <;> ring

section Guided
variable (val : ℝ) (m : Material ℝ) (h v0 dt : ℝ) (steps : ℕ)

theorem guided_initial (hh : 0 < h) (n : Fin 8) (d : Fin 3) :
    initialVelocity (guidedCube val m h v0 dt steps) n d = if d = 0 then v0 * corner n 0 else 0 := by
  by_cases hd : d = 0
  · subst hd
    rw [if_pos rfl, ← guidedCube_start val m h v0 dt steps hh n]
    have hfree := (guidedCube_guided val m h v0 dt steps).free n
    exact ((free_dof_untouched (guidedCube val m h v0 dt steps).manager 0 0 (guidedCube val m h v0 dt steps).X
      ⟨fun _ _ => 0, initialVelocity (guidedCube val m h v0 dt steps), []⟩ n 0 hfree).2.1).symm
  · rw [if_neg hd]
    unfold initialVelocity
    rw [(initial_velocity_spec _ _ _ _ _ _).2]
    intro b hb
    simp only [guidedCube, List.mem_cons, List.not_mem_nil, or_false] at hb
    rcases hb with rfl | rfl | rfl
    · rintro ⟨h, -⟩; exact absurd h (by decide)
    · rintro ⟨h, -⟩; exact absurd h (by decide)
    · rintro ⟨-, h2, -⟩
      exact hd (Fin.ext h2.symm)

theorem guided_conditions : ImageConditions 1 mirror0 swapNode 8 (guidedCube val m h v0 dt steps).manager
    (guidedCube val m h v0 dt steps).manager (guidedCube val m h v0 dt steps).X (guidedCube val m h v0 dt steps).X := by
  have hsets : ∀ i, (guidedCube val m h v0 dt steps).manager.sets i = if i = 1 then some [0, 1, 2, 3, 4, 5, 6, 7] else none :=
    fun i => rfl
  have hswap : ∀ n < 8, swapNode n ∈ [0, 1, 2, 3, 4, 5, 6, 7] := by
    intro n hn
    have := swapNode_fin ⟨n, hn⟩
    simp only at this
    rw [this]
    have := (swapOrder ⟨n, hn⟩).isLt
    simp; omega
  have hmem8 : ∀ n < 8, n ∈ [0, 1, 2, 3, 4, 5, 6, 7] := by intro n hn; simp; omega
  have hact : ∀ bc ∈ (guidedCube val m h v0 dt steps).manager.bcs, ∀ a b i, a < 8 → b ∈ [0, 1, 2, 3, 4, 5, 6, 7] →
      Acts (guidedCube val m h v0 dt steps).manager bc a i → Acts (guidedCube val m h v0 dt steps).manager bc b i := by
    rintro bc hb a b i ha hb' ⟨h1, h2, l, h3, h4⟩
    refine ⟨h1, h2, l, h3, ?_⟩
    rw [hsets] at h3
    by_cases h5 : bc.nodeSetId = 1
    · rw [if_pos h5] at h3
      rw [← Option.some.inj h3]; exact hb'
    · rw [if_neg h5] at h3; exact absurd h3 (by simp)
  have hsingle : ∀ a i, ∀ bc ∈ (guidedCube val m h v0 dt steps).manager.bcs, ∀ bc' ∈ (guidedCube val m h v0 dt steps).manager.bcs,
      Acts (guidedCube val m h v0 dt steps).manager bc a i → Acts (guidedCube val m h v0 dt steps).manager bc' a i → bc = bc' := by
    intro a i bc hb bc' hb' h1 h2
    simp only [guidedCube, List.mem_cons, List.not_mem_nil, or_false] at hb hb'
    have k1 := h1.1
    have k2 := h2.1
    have c1 := h1.2.1
    have c2 := h2.2.1
    rcases hb with rfl | rfl | rfl <;> rcases hb' with rfl | rfl | rfl <;>
      first
        | rfl
        | (simp [BoundaryCondition.isKinematic] at k1 k2; done)
        | (simp at c1 c2; omega)
  refine ⟨?_, ?_, fun n _ d bc hb bc' hb' => hsingle n d bc hb bc' hb', fun n _ d bc hb bc' hb' => hsingle _ d bc hb bc' hb'⟩
  · intro n hn d bc hb ha
    refine ⟨bc, hb, hact bc hb n (swapNode n) d hn (hswap n hn) ha, rfl, fun t => ?_⟩
    simp only [guidedCube, List.mem_cons, List.not_mem_nil, or_false] at hb
    rcases hb with rfl | rfl | rfl
    · simp [prescribed]
    · simp [prescribed]
    · exact absurd ha.1 (by simp [BoundaryCondition.isKinematic])
  · intro n hn d hfree bc hb ha
    exact hfree bc hb (hact bc hb (swapNode n) n d (by have := hswap n hn; simp at this; omega) (hmem8 n hn) ha)

/-- **C122**, a case with kinematic conditions: the guided cube oscillates symmetrically for ever. -/
theorem guided_cube_symmetric (f : ℝ → ℝ) (hf : IsCosThird f) (hh : 0 < h) (hrho : 0 < m.density) (hs : 0 < steps) (hdt : 0 < dt)
    (hv0 : v0 ^ 2 * (m.density * h ^ 2) ^ 2 <
      (m.bulk + 4 / 3 * m.shear) * (m.density * h ^ 2 - dt ^ 2 * (m.bulk + 4 / 3 * m.shear)) * h ^ 2) (k : ℕ) :
    ∃ s, state val (guidedCube val m h v0 dt steps) [cubeBlk m] k = some s ∧ ∀ n < 8, ∀ d : Fin 3,
      s.displacement (swapNode n) d = ((mirror0 d : ℤ) : ℝ) * s.displacement n d ∧
      s.velocity (swapNode n) d = ((mirror0 d : ℤ) : ℝ) * s.velocity n d := by
  have hd := guidedCube_dt val m h v0 dt steps hs
  obtain ⟨s, h1, -⟩ := guided_run_stable_partial val m (guidedCube val m h v0 dt steps) (guidedCube_guided val m h v0 dt steps) h hh
    (guidedCube_X val m h v0 dt steps) (guidedCube_mass val m h v0 dt steps hh) hrho (by rw [hd]; exact hdt) v0
    (by rw [hd]; exact hv0) (guidedCube_start val m h v0 dt steps hh) k
  refine ⟨s, h1, fun n hn d => ?_⟩
  have := symmetric_constrained_motion val f hf (fun _ => True) (guidedCube val m h v0 dt steps) [cubeBlk m] 8 (cube_inMesh m) 1 mirror0
    ![h, 0, 0] swapNode swapNode_injective (cube_nodes _ h (guidedCube_X val m h v0 dt steps)) (cube_image f m)
    (guidedCube_guided val m h v0 dt steps).scheme (guidedCube_mass val m h v0 dt steps hh) (guided_conditions val m h v0 dt steps)
    (by
      intro n hn d
      have h3 := swapNode_fin ⟨n, hn⟩
      have h4 := guided_initial val m h v0 dt steps hh ⟨n, hn⟩ d
      simp only at h3 h4
      rw [h3, guided_initial val m h v0 dt steps hh, Equiv.Perm.one_apply, h4]
      by_cases h5 : d = 0
      · subst h5; rw [if_pos rfl, if_pos rfl, swap_corner]; ring
      · rw [if_neg h5, if_neg h5, mul_zero])
    (fun _ _ _ _ _ _ _ _ _ _ => trivial) k s h1 n hn d
  exact ⟨this.1, this.2.1⟩

end Guided

/-- **C122**, a free case: a cube that moves parallel to its plane of symmetry. -/
example (val : ℝ) (f : ℝ → ℝ) (hf : IsCosThird f) (m : Material ℝ) (w1 w2 dt : ℝ) (steps k : ℕ) :
    ∃ s, state val (freeBody val m unitX ![0, w1, w2] dt steps) [cubeBlk m] k = some s ∧ ∀ n < 8, ∀ d : Fin 3,
      s.displacement (swapNode n) d = ∑ j : Fin 3, signed 1 mirror0 d j * s.displacement n j := by
  obtain ⟨s, h1, -⟩ := moving_cube val m ![0, w1, w2] dt steps k
  have hvel : ∀ n < 8, ∀ d : Fin 3, initialVelocity (freeBody val m unitX ![0, w1, w2] dt steps) n d = ![0, w1, w2] d := by
    intro n hn d
    rw [← freeBody_start val m unitX ![0, w1, w2] dt steps n hn d]
    unfold start
    simp only [kinematic_free _ (freeBody_unconstrained val m unitX ![0, w1, w2] dt steps)]
    rfl
  refine ⟨s, h1, fun n hn d => (symmetric_motion val f hf (fun _ => True) (freeBody val m unitX ![0, w1, w2] dt steps) [cubeBlk m] 8
    (cube_inMesh m) (signed 1 mirror0) (signed_orth 1 mirror0) ![1, 0, 0] swapNode swapNode_injective
    (cube_nodes unitX 1 unitX_cube) (cube_image f m) (by simp [freeBody])
    (freeBody_mass val m unitX ![0, w1, w2] dt steps (fun p => by rw [unitX_jac]; simp [Matrix.det_diagonal]))
    (freeBody_unconstrained val m unitX ![0, w1, w2] dt steps) ?_ (fun _ _ _ _ _ _ _ _ _ _ => trivial) k s h1 n hn d).1⟩
  intro n hn d
  have hs : swapNode n < 8 := by
    have := swapNode_fin ⟨n, hn⟩
    simp only at this
    rw [this]; exact (swapOrder ⟨n, hn⟩).isLt
  rw [signed_apply 1 mirror0 (fun j => initialVelocity (freeBody val m unitX ![0, w1, w2] dt steps) n j), hvel _ hs, hvel _ hn,
    Equiv.Perm.one_apply]
  fin_cases d <;> simp [mirror0]

/-! ## A body and its mirror image -/

/-- The unit cube mirrored at the plane `x = 0`: nodes at the mirrored places, with the same numbers. -/
noncomputable def mirroredX : Nodal ℝ := fun n d => if hd : d < 3 then ((mirror0 ⟨d, hd⟩ : ℤ) : ℝ) * unitX n d else 0

theorem mirroredX_eq (n : ℕ) (d : Fin 3) : mirroredX n d = ((mirror0 d : ℤ) : ℝ) * unitX n d := by
  simp [mirroredX, d.isLt]

/-- The mirrored mesh, its element listed so that it is not inside out. -/
theorem mirrored_image (f : ℝ → ℝ) (m : Material ℝ) :
    ImageMesh f (fun _ => True) (signed 1 mirror0) id [cubeBlk m] [listedCube m swapOrder] := by
  refine ⟨[(listedCube m swapOrder, 0)], List.Forall₂.cons ⟨rfl, .elastic m m rfl rfl (one_mul _).symm (one_mul _).symm, ?_⟩
    List.Forall₂.nil, List.Perm.refl _⟩
  exact ⟨swapOrder, Or.inr ⟨mirror0_det, swapOrder_reflection⟩, listedCube_listed m swapOrder⟩

theorem mirrored_nodes : ImageNodes (signed 1 mirror0) 0 id 8 unitX mirroredX := by
  intro n _ d
  rw [signed_apply 1 mirror0 (fun k => unitX n k), id, mirroredX_eq]
  simp

/-- The masses of the mirrored cube are computed, and the ones of the cube listed as before are not. -/
example (m : Material ℝ) : (∃ M, computeLumpedMassField gaussVal (flat mirroredX) [listedCube m swapOrder] (fun _ => 0) = some M) ∧
    computeLumpedMassField gaussVal (flat mirroredX) [cubeBlk m] (fun _ => 0) = none := by
  have hpos : ∀ be ∈ elements (serial [cubeBlk m]), MapsPositions (signed 1 mirror0) 0 id (flat unitX) (flat mirroredX) be := by
    intro be hbe n hn d
    have h1 := mirrored_nodes (be.1.nodeId be.2 n) (element_inMesh (cube_inMesh m) hbe n hn) d
    simp only [id] at h1 ⊢
    rw [flat_apply, h1]
    simp only [flat_apply]
  constructor
  · obtain ⟨M, hM⟩ := (lumped_mass_field_defined gaussVal (flat unitX) (fun _ => 0) [cubeBlk m]).mpr (by
      intro b hb e he p
      obtain rfl := List.mem_singleton.mp hb
      have : e = 0 := by simpa [cubeBlk] using he
      subst this
      rw [unitX_jac]; simp)
    have hmesh : MapsMesh (fun _ => True) (signed 1 mirror0) id (serial [cubeBlk m]) (serial [listedCube m swapOrder]) := by
      refine ⟨[(listedCube m swapOrder, 0)], List.Forall₂.cons ⟨rfl, ?_,
        ⟨swapOrder, Or.inr ⟨mirror0_det, swapOrder_reflection⟩, listedCube_listed m swapOrder⟩⟩ List.Forall₂.nil, List.Perm.refl _⟩
      intro F F' σ _ hF hσ
      refine ⟨_, rfl, ?_⟩
      obtain rfl := Option.some.inj hσ
      refine elastic_stress_isotropic m F F' _ (signed_orth 1 mirror0) ?_
      rw [← hF, Matrix.mul_assoc, signed_orth, Matrix.mul_one]
    obtain ⟨M', h1, -⟩ := lumped_mass_mapped gaussVal [cubeBlk m] [listedCube m swapOrder] (signed 1 mirror0) id
      Function.injective_id (fun _ => True) hmesh (flat unitX) (flat mirroredX) 0 hpos M hM
    exact ⟨M', h1⟩
  · rw [← Option.not_isSome_iff_eq_none, Option.isSome_iff_exists, lumped_mass_field_defined]
    intro h'
    have h1 := h' (cubeBlk m) (List.mem_singleton.mpr rfl) 0 (by simp [cubeBlk]) 0
    have hmoved : Moved (cubeBlk m) (cubeBlk m) 0 0 (flat unitX) (flat mirroredX) (signed 1 mirror0) 0 := by
      intro n hn d
      exact hpos (cubeBlk m, 0) (List.mem_cons_self) n hn d
    rw [moved_jac gaussVal hmoved, Matrix.det_mul, mirror0_det, unitX_jac] at h1
    simp at h1
    linarith

end NimbleSM.Integrate
