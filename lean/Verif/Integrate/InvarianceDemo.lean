import Verif.Integrate.CoastProps
import Verif.Integrate.CubeProps

/-!
# C114-C118: cases that meet the hypotheses
-/

open scoped BigOperators

namespace NimbleSM.Integrate

open Matrix NimbleSM.Bc NimbleSM.Assembly NimbleSM.Hex NimbleSM.Tensor NimbleSM.Constitutive

/-- An elastic hexahedron with the nodes 0 to 7 at `X`, no kinematic conditions, initial velocity `w` of all nodes. -/
noncomputable def freeBody (val : ℝ) (m : Material ℝ) (X : Nodal ℝ) (w : Fin 3 → ℝ) (dt : ℝ) (steps : ℕ) : Config ℝ where
  manager :=
    { sets := fun i => if i = 1 then some [0, 1, 2, 3, 4, 5, 6, 7] else none
      bcs := [⟨.initialVelocity, 1, 0, .inl (w 0)⟩, ⟨.initialVelocity, 1, 1, .inl (w 1)⟩, ⟨.initialVelocity, 1, 2, .inl (w 2)⟩]
      dim := 3
      scheme := .explicit }
  X := X
  mass := (computeLumpedMassField val (flat X) [cubeBlk m] (fun _ => 0)).getD (fun _ => 0)
  initialTime := 0
  finalTime := dt * steps
  numSteps := steps
  frequency := 1

section Free
variable (val : ℝ) (m : Material ℝ) (X : Nodal ℝ) (w : Fin 3 → ℝ) (dt : ℝ) (steps : ℕ)

theorem cube_inMesh : InMesh 8 (serial [cubeBlk m]) := by
  intro b hb e he n hn
  rw [serial_cube, List.mem_singleton] at hb
  subst hb
  rw [List.mem_singleton] at he
  subst he
  simpa [Blk.nodeId, cubeBlk] using hn

theorem freeBody_unconstrained : Unconstrained (freeBody val m X w dt steps) := by
  intro n i b hb
  simp only [freeBody, List.mem_cons, List.not_mem_nil, or_false] at hb
  rcases hb with rfl | rfl | rfl <;> (rintro ⟨h, -⟩; exact absurd h (by simp [BoundaryCondition.isKinematic]))

theorem freeBody_start (n : ℕ) (hn : n < 8) (d : Fin 3) : (start (freeBody val m X w dt steps) ()).velocity n d = w d := by
  have h1 : (start (freeBody val m X w dt steps) ()).velocity n d =
      (applyInitialConditions (freeBody val m X w dt steps).manager (freeBody val m X w dt steps).X (fun _ _ => 0) []).1 n d := by
    unfold start
    simp only [kinematic_free _ (freeBody_unconstrained val m X w dt steps)]
  rw [h1, applyInitialConditions_eq]
  have hmem : n ∈ [0, 1, 2, 3, 4, 5, 6, 7] := by simp; omega
  simp only [freeBody, List.foldl_cons, List.foldl_nil, initialBc, if_true, initial_fold]
  simp only [Manager.nodeSet, if_true, Option.getD_some, hmem, true_and, prescribed]
  fin_cases d <;> simp

theorem freeBody_mass (hJ : ∀ p, 0 < (Jac val (gather (cubeBlk m) 0 (flat X)) p).det) :
    MassComputed val (freeBody val m X w dt steps) [cubeBlk m] := by
  obtain ⟨M, hM⟩ := (lumped_mass_field_defined val (flat X) (fun _ => 0) [cubeBlk m]).mpr (by
    intro b hb e he p
    rw [List.mem_singleton] at hb
    subst hb
    obtain rfl : e = 0 := by simpa [cubeBlk] using he
    exact hJ p)
  change computeLumpedMassField val (flat X) [cubeBlk m] (fun _ => 0)
    = some ((computeLumpedMassField val (flat X) [cubeBlk m] (fun _ => 0)).getD (fun _ => 0))
  rw [hM, Option.getD_some]

end Free

/-- The unit cube. -/
noncomputable def unitX : Nodal ℝ := fun n d => if hnd : n < 8 ∧ d < 3 then 1 * (1 + corner ⟨n, hnd.1⟩ ⟨d, hnd.2⟩) / 2 else 0

theorem unitX_cube : IsCube unitX 1 := by
  intro n d; simp [unitX, n.isLt, d.isLt]

theorem unitX_jac (val : ℝ) (m : Material ℝ) (p : Fin 8) : Jac val (gather (cubeBlk m) 0 (flat unitX)) p = Matrix.diagonal fun _ => 1 / 2 :=
  Jac_box val _ _ _ (cube_reference m _ 1 unitX_cube) p

/-- A quarter turn about the third axis. -/
def quarter : Matrix (Fin 3) (Fin 3) ℝ := !![0, -1, 0; 1, 0, 0; 0, 0, 1]

theorem quarter_orth : quarter * quarterᵀ = 1 := by
  ext i j; fin_cases i <;> fin_cases j <;> simp [quarter, Matrix.mul_apply, Fin.sum_univ_three]

theorem quarter_det : quarter.det = 1 := by simp [quarter, Matrix.det_fin_three]

/-- The cube turned and moved. -/
noncomputable def turnedX : Nodal ℝ := fun n d =>
  if hd : d < 3 then (∑ k : Fin 3, quarter ⟨d, hd⟩ k * unitX n k) + ![5, 6, 7] ⟨d, hd⟩ else 0

theorem turnedX_eq (n : ℕ) (d : Fin 3) : turnedX n d = (∑ k : Fin 3, quarter d k * unitX n k) + ![5, 6, 7] d := by
  simp [turnedX, d.isLt]

theorem turnedX_jac (val : ℝ) (m : Material ℝ) (p : Fin 8) : 0 < (Jac val (gather (cubeBlk m) 0 (flat turnedX)) p).det := by
  have : Moved (cubeBlk m) (cubeBlk m) 0 0 (flat unitX) (flat turnedX) quarter ![5, 6, 7] := by
    intro n hn d
    simp only [flat_apply]
    exact turnedX_eq _ d
  rw [moved_jac val this p, Matrix.det_mul, quarter_det, unitX_jac]
  simp [Matrix.det_diagonal]

theorem elastic_scaled (f : ℝ → ℝ) (m : Material ℝ) : ∀ b ∈ [cubeBlk m], ScaledLaw f (fun _ => True) 1 b b := by
  intro b hb
  rw [List.mem_singleton] at hb
  subst hb
  exact .elastic m m rfl rfl (one_mul _).symm (one_mul _).symm

theorem elastic_stressFree (m : Material ℝ) : ∀ b ∈ [cubeBlk m], StressFree b.law := by
  intro b hb F hF
  rw [List.mem_singleton] at hb
  subst hb
  simp [cubeBlk, elastic_stress_reference m F hF]

/-- **C118**, a case: the moving cube, any number of steps. -/
theorem moving_cube (val : ℝ) (m : Material ℝ) (w : Fin 3 → ℝ) (dt : ℝ) (steps k : ℕ) :
    ∃ s, state val (freeBody val m unitX w dt steps) [cubeBlk m] k = some s ∧
      ∀ n < 8, ∀ d : Fin 3, s.displacement n d = k * (freeBody val m unitX w dt steps).dt * w d := by
  obtain ⟨s, h1, -, h2⟩ := uniform_motion val (freeBody val m unitX w dt steps) (by simp [freeBody])
    (freeBody_unconstrained val m unitX w dt steps) [cubeBlk m] 8 (cube_inMesh m) (elastic_stressFree m)
    ⟨_, freeBody_mass val m unitX w dt steps (fun p => by rw [unitX_jac]; simp [Matrix.det_diagonal])⟩ w
    (freeBody_start val m unitX w dt steps) k
  exact ⟨s, h1, fun n hn d => (h2 n hn d).1⟩

/-- **C114**, a case: the cube moving with velocity (1, 2, 3), turned by a quarter and moved, after 100 steps. -/
example (f : ℝ → ℝ) (hf : IsCosThird f) :
    ∃ s s', state (1 / 2) (freeBody (1 / 2) ⟨1, 1, 1⟩ unitX ![1, 2, 3] 1 100) [cubeBlk ⟨1, 1, 1⟩] 100 = some s ∧
      state (1 / 2) (freeBody (1 / 2) ⟨1, 1, 1⟩ turnedX ![-2, 1, 3] 1 100) [cubeBlk ⟨1, 1, 1⟩] 100 = some s' ∧
      s'.displacement 0 0 = - s.displacement 0 1 ∧ s.displacement 0 1 = 200 := by
  obtain ⟨s, hs, hu⟩ := moving_cube (1 / 2) ⟨1, 1, 1⟩ ![1, 2, 3] 1 100 100
  obtain ⟨s', h1, h2⟩ := axes_independent (1 / 2) f hf (fun _ => True) (freeBody (1 / 2) ⟨1, 1, 1⟩ unitX ![1, 2, 3] 1 100)
    (freeBody (1 / 2) ⟨1, 1, 1⟩ turnedX ![-2, 1, 3] 1 100) [cubeBlk ⟨1, 1, 1⟩] 8 (cube_inMesh _) quarter quarter_orth quarter_det
    ![5, 6, 7] (by simp [freeBody]) (by simp [freeBody]) (fun n _ d => turnedX_eq n d) (elastic_scaled f _)
    ⟨by simp [freeBody], by simp [freeBody], rfl, rfl⟩
    (freeBody_mass _ _ _ _ _ _ (fun p => by rw [unitX_jac]; simp [Matrix.det_diagonal]))
    (freeBody_mass _ _ _ _ _ _ (turnedX_jac _ _)) (freeBody_unconstrained _ _ _ _ _ _) (freeBody_unconstrained _ _ _ _ _ _)
    (by
      intro n hn d
      simp only [freeBody_start _ _ _ _ _ _ n hn]
      fin_cases d <;> simp [quarter, Fin.sum_univ_three])
    (fun _ _ _ _ _ _ _ _ _ _ => trivial) 100 s hs
  refine ⟨s, s', hs, h1, ?_, ?_⟩
  · have := (h2 0 (by norm_num) 0).1
    simpa [quarter, Fin.sum_univ_three] using this
  · have := hu 0 (by norm_num) 1
    have hdt : (freeBody (1 / 2) ⟨1, 1, 1⟩ unitX ![1, 2, 3] 1 100).dt = 1 := by simp [Config.dt, freeBody]
    rw [hdt] at this
    norm_num at this
    exact this

/-- **C117**, a case: the resting cube in a frame moving with velocity (-1, 0, 0), after 50 steps. -/
example (f : ℝ → ℝ) (hf : IsCosThird f) :
    ∃ s', state (1 / 2) (freeBody (1 / 2) ⟨1, 1, 1⟩ unitX ![1, 2, 4] 1 100) [cubeBlk ⟨1, 1, 1⟩] 50 = some s' ∧
      s'.displacement 7 2 = 200 := by
  obtain ⟨s, hs, hu⟩ := moving_cube (1 / 2) ⟨1, 1, 1⟩ ![1, 2, 3] 1 100 50
  obtain ⟨s', h1, h2⟩ := galilean_invariant (1 / 2) f hf (fun _ => True) (freeBody (1 / 2) ⟨1, 1, 1⟩ unitX ![1, 2, 3] 1 100)
    (freeBody (1 / 2) ⟨1, 1, 1⟩ unitX ![1, 2, 4] 1 100) [cubeBlk ⟨1, 1, 1⟩] 8 (cube_inMesh _) ![0, 0, 1]
    (by simp [freeBody]) (by simp [freeBody]) (fun _ _ _ => rfl) (elastic_scaled f _)
    ⟨by simp [freeBody], by simp [freeBody], rfl, rfl⟩
    (freeBody_mass _ _ _ _ _ _ (fun p => by rw [unitX_jac]; simp [Matrix.det_diagonal]))
    (freeBody_mass _ _ _ _ _ _ (fun p => by rw [unitX_jac]; simp [Matrix.det_diagonal]))
    (freeBody_unconstrained _ _ _ _ _ _) (freeBody_unconstrained _ _ _ _ _ _)
    (by
      intro n hn d
      simp only [freeBody_start _ _ _ _ _ _ n hn]
      fin_cases d <;> simp; norm_num)
    (fun _ _ _ _ _ _ _ _ _ _ => trivial) 50 s hs
  refine ⟨s', h1, ?_⟩
  have hdt : (freeBody (1 / 2) ⟨1, 1, 1⟩ unitX ![1, 2, 3] 1 100).dt = 1 := by simp [Config.dt, freeBody]
  have ht : s.time = 50 := by
    obtain ⟨s0, h0, ht, -⟩ := uniform_motion (1 / 2 : ℝ) (freeBody (1 / 2) ⟨1, 1, 1⟩ unitX ![1, 2, 3] 1 100) (by simp [freeBody])
      (freeBody_unconstrained _ _ _ _ _ _) [cubeBlk ⟨1, 1, 1⟩] 8 (cube_inMesh _) (elastic_stressFree _)
      ⟨_, freeBody_mass _ _ _ ![1, 2, 3] 1 100 (fun p => by rw [unitX_jac]; simp [Matrix.det_diagonal])⟩ ![1, 2, 3]
      (freeBody_start _ _ _ _ _ _) 50
    have h0' : state (1 / 2) (freeBody (1 / 2) ⟨1, 1, 1⟩ unitX ![1, 2, 3] 1 100) [cubeBlk ⟨1, 1, 1⟩] 50 = some s0 := h0
    rw [hs] at h0'
    rw [Option.some.inj h0', ht, hdt]
    simp [freeBody]
  have h3 := (h2 7 (by norm_num) 2).1
  have h4 := hu 7 (by norm_num) 2
  rw [hdt] at h4
  have e2 : ((2 : Fin 3) : ℕ) = 2 := rfl
  rw [e2] at h3 h4
  rw [h3, h4, ht]
  simp [freeBody]
  norm_num

/-- **C116**, a case: the vibrating guided cube in other units, any number of steps. -/
example (f : ℝ → ℝ) (hf : IsCosThird f) (ℓ τ δ : ℝ) (hℓ : 0 < ℓ) (hτ : 0 < τ) (hδ : 0 < δ) (steps k : ℕ) (hs : 0 < steps) :
    ∃ s s', state 0 (guidedCube 0 ⟨1, 1, 1⟩ 1 (1 / 10) (1 / 2) steps) [cubeBlk ⟨1, 1, 1⟩] k = some s ∧
      state 0 (guidedCube 0 ⟨δ, δ * (ℓ / τ) ^ 2, δ * (ℓ / τ) ^ 2⟩ ℓ (ℓ / τ / 10) (τ / 2) steps)
        [cubeBlk ⟨δ, δ * (ℓ / τ) ^ 2, δ * (ℓ / τ) ^ 2⟩] k = some s' ∧
      s'.time = τ * s.time ∧ ∀ n < 8, ∀ d : Fin 3, s'.displacement n d = ℓ * s.displacement n d := by
  have hd := guidedCube_dt 0 ⟨1, 1, 1⟩ 1 (1 / 10) (1 / 2) steps hs
  obtain ⟨s, h1, -⟩ := guided_run_stable_partial 0 ⟨1, 1, 1⟩ (guidedCube 0 ⟨1, 1, 1⟩ 1 (1 / 10) (1 / 2) steps)
    (guidedCube_guided _ _ _ _ _ _) 1 one_pos (guidedCube_X _ _ _ _ _ _)
    (guidedCube_mass _ _ _ _ _ _ one_pos) one_pos (by rw [hd]; norm_num) (1 / 10) (by rw [hd]; norm_num)
    (guidedCube_start _ _ _ _ _ _ one_pos) k
  have hX : ∀ n < 8, ∀ d : Fin 3, (guidedCube 0 ⟨δ, δ * (ℓ / τ) ^ 2, δ * (ℓ / τ) ^ 2⟩ ℓ (ℓ / τ / 10) (τ / 2) steps).X n d
      = ℓ * (guidedCube 0 ⟨1, 1, 1⟩ 1 (1 / 10) (1 / 2) steps).X n d := by
    intro n hn d
    have a1 := guidedCube_X 0 ⟨δ, δ * (ℓ / τ) ^ 2, δ * (ℓ / τ) ^ 2⟩ ℓ (ℓ / τ / 10) (τ / 2) steps ⟨n, hn⟩ d
    have a2 := guidedCube_X 0 ⟨1, 1, 1⟩ 1 (1 / 10) (1 / 2) steps ⟨n, hn⟩ d
    simp only at a1 a2
    rw [a1, a2]; ring
  obtain ⟨s', b1, b2, b3, -⟩ := units_independent 0 f hf (fun _ => True) (guidedCube 0 ⟨1, 1, 1⟩ 1 (1 / 10) (1 / 2) steps)
    (guidedCube 0 ⟨δ, δ * (ℓ / τ) ^ 2, δ * (ℓ / τ) ^ 2⟩ ℓ (ℓ / τ / 10) (τ / 2) steps) [cubeBlk ⟨1, 1, 1⟩] 8 (cube_inMesh _)
    (fun _ => cubeBlk ⟨δ, δ * (ℓ / τ) ^ 2, δ * (ℓ / τ) ^ 2⟩) ℓ τ δ hℓ hτ hδ id Function.injective_id 0
    (guidedCube_guided _ _ _ _ _ _).scheme (guidedCube_guided _ _ _ _ _ _).scheme
    (fun n hn d => by rw [id, hX n hn d]; simp)
    (fun b hb => by rw [List.mem_singleton.mp hb]; rfl) (fun b hb e he n hn => by rw [List.mem_singleton.mp hb]; rfl)
    (fun b hb => by rw [List.mem_singleton.mp hb]; simp [cubeBlk])
    (fun b hb => by
      rw [List.mem_singleton.mp hb]
      exact .elastic ⟨1, 1, 1⟩ ⟨δ, δ * (ℓ / τ) ^ 2, δ * (ℓ / τ) ^ 2⟩ rfl rfl (mul_one _).symm (mul_one _).symm)
    ⟨by simp [guidedCube], by simp [guidedCube]; ring, rfl, rfl⟩
    (guidedCube_mass _ _ _ _ _ _ one_pos) (guidedCube_mass _ _ _ _ _ _ hℓ)
    (fun bc => if bc.type = .initialVelocity then
      ⟨.initialVelocity, 1, 0, .inr fun x _ _ _ => ℓ / τ / 10 * (2 * x / ℓ - 1)⟩ else bc)
    { list := by simp [guidedCube]
      type := by intro bc _; split_ifs with h <;> simp [h]
      coordinate := by
        intro bc hb
        simp only [guidedCube, List.mem_cons, List.not_mem_nil, or_false] at hb
        rcases hb with rfl | rfl | rfl <;> simp
      sets := by
        intro bc hb n _
        simp only [guidedCube, List.mem_cons, List.not_mem_nil, or_false] at hb
        rcases hb with rfl | rfl | rfl <;> simp [Manager.nodeSet, guidedCube]
      displacement := by
        intro bc hb ht n hn t
        simp only [guidedCube, List.mem_cons, List.not_mem_nil, or_false] at hb
        rcases hb with rfl | rfl | rfl
        · simp [prescribed]
        · simp [prescribed]
        · exact absurd ht (by simp)
      velocity := by
        intro bc hb ht n hn t
        simp only [guidedCube, List.mem_cons, List.not_mem_nil, or_false] at hb
        rcases hb with rfl | rfl | rfl
        · exact absurd ht (by simp)
        · exact absurd ht (by simp)
        · have hx := hX n hn 0
          rw [show ((0 : Fin 3) : ℕ) = 0 from rfl] at hx
          simp only [if_true, prescribed, id]
          rw [hx]
          generalize (guidedCube 0 ⟨1, 1, 1⟩ 1 (1 / 10) (1 / 2) steps).X n 0 = x
          simp only [guidedCube, if_true]
          field_simp }
    (fun _ _ _ _ _ _ _ _ _ _ => trivial) k s h1
  exact ⟨s, s', h1, b1, b2, fun n hn d => (b3 n hn d).1⟩

/-- The configuration with the node numbers increased by three. -/
noncomputable def shifted (c : Config ℝ) (val : ℝ) (blocks : List (Blk ℝ)) : Config ℝ :=
  { c with
    manager := { c.manager with sets := fun i => (c.manager.sets i).map (List.map (· + 3)) }
    X := fun n d => c.X (n - 3) d
    mass := (computeLumpedMassField val (flat fun n d => c.X (n - 3) d) (blocks.map (renumber (· + 3))) (fun _ => 0)).getD fun _ => 0 }

theorem shifted_mass (c : Config ℝ) (val : ℝ) (blocks : List (Blk ℝ)) (h : MassComputed val c blocks) :
    MassComputed val (shifted c val blocks) (blocks.map (renumber (· + 3))) := by
  obtain ⟨M, hM, -⟩ := lumped_mass_transformed val blocks (renumber (· + 3)) (· + 3)
    ⟨fun a b h => by simpa using h, fun _ _ _ _ _ _ => rfl⟩ (fun _ _ => rfl) 1 (fun b _ => by simp [renumber])
    (flat c.X) (flat fun n d => c.X (n - 3) d) 1 0 (by simp) (by
      intro b _ e _ n _ d
      rw [flat_apply, show (renumber (· + 3) b).nodeId e n - 3 = b.nodeId e n from by simp [Blk.nodeId, renumber],
        Finset.sum_eq_single d]
      · rw [Matrix.one_apply_eq, one_mul, flat_apply]; simp
      · intro k _ hk; rw [Matrix.one_apply_ne (Ne.symm hk), zero_mul]
      · intro h; exact absurd (Finset.mem_univ d) h) c.mass h
  change computeLumpedMassField val (flat fun n d => c.X (n - 3) d) (blocks.map (renumber (· + 3))) (fun _ => 0)
    = some ((computeLumpedMassField val (flat fun n d => c.X (n - 3) d) (blocks.map (renumber (· + 3))) (fun _ => 0)).getD fun _ => 0)
  rw [hM, Option.getD_some]

/-- **C115**, a case: the vibrating guided cube with other node numbers, any number of steps. -/
example (f : ℝ → ℝ) (hf : IsCosThird f) (steps k : ℕ) (hs : 0 < steps) :
    ∃ s s', state 0 (guidedCube 0 ⟨1, 1, 1⟩ 1 (1 / 10) (1 / 2) steps) [cubeBlk ⟨1, 1, 1⟩] k = some s ∧
      state 0 (shifted (guidedCube 0 ⟨1, 1, 1⟩ 1 (1 / 10) (1 / 2) steps) 0 [cubeBlk ⟨1, 1, 1⟩])
        [renumber (· + 3) (cubeBlk ⟨1, 1, 1⟩)] k = some s' ∧
      ∀ n < 8, ∀ d : Fin 3, s'.displacement (n + 3) d = s.displacement n d := by
  have hd := guidedCube_dt 0 ⟨1, 1, 1⟩ 1 (1 / 10) (1 / 2) steps hs
  obtain ⟨s, h1, -⟩ := guided_run_stable_partial 0 ⟨1, 1, 1⟩ (guidedCube 0 ⟨1, 1, 1⟩ 1 (1 / 10) (1 / 2) steps)
    (guidedCube_guided _ _ _ _ _ _) 1 one_pos (guidedCube_X _ _ _ _ _ _)
    (guidedCube_mass _ _ _ _ _ _ one_pos) one_pos (by rw [hd]; norm_num) (1 / 10) (by rw [hd]; norm_num)
    (guidedCube_start _ _ _ _ _ _ one_pos) k
  obtain ⟨s', b1, -, b3, -⟩ := numbering_independent 0 f hf (fun _ => True) (guidedCube 0 ⟨1, 1, 1⟩ 1 (1 / 10) (1 / 2) steps)
    (shifted (guidedCube 0 ⟨1, 1, 1⟩ 1 (1 / 10) (1 / 2) steps) 0 [cubeBlk ⟨1, 1, 1⟩]) [cubeBlk ⟨1, 1, 1⟩] 8 (cube_inMesh _)
    (· + 3) (fun a b h => by simpa using h) (guidedCube_guided _ _ _ _ _ _).scheme
    (guidedCube_guided 0 ⟨1, 1, 1⟩ 1 (1 / 10) (1 / 2) steps).scheme
    (fun n _ d => by simp [shifted]) (elastic_scaled f _) ⟨by simp [shifted], by simp [shifted], rfl, rfl⟩
    (guidedCube_mass _ _ _ _ _ _ one_pos) (shifted_mass _ _ _ (guidedCube_mass _ _ _ _ _ _ one_pos)) rfl rfl (fun _ => rfl)
    (fun _ _ _ _ _ _ _ _ _ _ => trivial) k s h1
  exact ⟨s, s', h1, b1, fun n hn d => (b3 n hn d).1⟩

end NimbleSM.Integrate
