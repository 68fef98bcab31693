import Verif.Integrate.SimilarityProps

/-!
# C114-C117: what an explicit run does not depend on

Theorems about `loop c (meshPhysics ..) k (start c ())`, the state of an explicit run after `k` steps, for meshes of elastic and
neo-Hookean hexahedral blocks, without contact.
-/

open scoped BigOperators

namespace NimbleSM.Integrate

open Matrix NimbleSM.Bc NimbleSM.Assembly NimbleSM.Hex NimbleSM.Tensor NimbleSM.Constitutive

/-! ## Specification -/

/-- `b` and `b'` use the same material law, `b'` with the moduli multiplied by `κ`.  `D` are the deformation gradients that occur;
for a neo-Hookean block they have to be ones at which the law is evaluated exactly (C30), for an elastic block they are
arbitrary. -/
inductive ScaledLaw (f : ℝ → ℝ) (D : Matrix (Fin 3) (Fin 3) ℝ → Prop) (κ : ℝ) (b b' : Blk ℝ) : Prop where
  | elastic (m m' : Material ℝ) : (b.law = fun F => some (elasticStress m F)) → (b'.law = fun F => some (elasticStress m' F)) →
      m'.bulk = κ * m.bulk → m'.shear = κ * m.shear → ScaledLaw f D κ b b'
  | neohookean (m m' : Material ℝ) : b.law = neohookeanStress f m → b'.law = neohookeanStress f m' →
      m'.bulk = κ * m.bulk → m'.shear = κ * m.shear → (∀ M, D M → NeoDomain M) → ScaledLaw f D κ b b'

/-- The state after `k` steps of the run. -/
noncomputable def state (val : ℝ) (c : Config ℝ) (blocks : List (Blk ℝ)) (k : ℕ) : Option (Sim ℝ Unit) :=
  loop c (meshPhysics val c.X (serial blocks)) k (start c ())

/-- All deformation gradients of the run are in `D`. -/
def RunDeforms (val : ℝ) (D : Matrix (Fin 3) (Fin 3) ℝ → Prop) (c : Config ℝ) (blocks : List (Blk ℝ)) : Prop :=
  ∀ k s, state val c blocks k = some s → AllDeform val D blocks c.X s.displacement

/-- The masses are the ones `ComputeLumpedMass` computes. -/
def MassComputed (val : ℝ) (c : Config ℝ) (blocks : List (Blk ℝ)) : Prop :=
  computeLumpedMassField val (flat c.X) blocks (fun _ => 0) = some c.mass

/-- Same times, steps and output frequency. -/
structure SameTimes (c c' : Config ℝ) (τ : ℝ) : Prop where
  initialTime : c'.initialTime = τ * c.initialTime
  finalTime : c'.finalTime = τ * c.finalTime
  numSteps : c'.numSteps = c.numSteps
  frequency : c'.frequency = c.frequency

theorem scaled_corresponding (f : ℝ → ℝ) (hf : IsCosThird f) (D : Matrix (Fin 3) (Fin 3) ℝ → Prop) (κ s : ℝ) (hs : s ≠ 0)
    (R : Matrix (Fin 3) (Fin 3) ℝ) (hR : R * Rᵀ = 1) (hdet : R.det = 1) (b b' : Blk ℝ) (h : ScaledLaw f D κ b b') :
    Corresponding b.law b'.law D (s • R) (s • R) ((κ * s ^ 2) • Rᵀ) := by
  cases h with
  | elastic m m' h1 h2 h3 h4 =>
    rw [h1, h2]
    exact elastic_corresponding m m' κ s hs R hR hdet h3 h4 _
  | neohookean m m' h1 h2 h3 h4 h5 =>
    rw [h1, h2]
    intro F F' σ hD hF hσ
    exact neohookean_corresponding_partial f hf m m' κ s hs R R hR hdet hR hdet h3 h4 F F' σ (h5 _ hD) hF hσ

/-- The start of an unconstrained run. -/
theorem start_same_free (χ : Change ℝ) (c c' : Config ℝ) (hm : c.manager.scheme ≠ .quasistatic)
    (hm' : c'.manager.scheme ≠ .quasistatic) (h0 : c'.initialTime = χ.time * c.initialTime)
    (hv : ∀ n < χ.nodes, ∀ d : Fin 3, (start c' ()).velocity (χ.node n) d
      = χ.vec (χ.length / χ.time) (start c ()).velocity n d + χ.drift d) :
    χ.Same c.initialTime (start c ()) (start c' ()) := by
  have hf : χ.Fields (χ.time * (c.initialTime - c.initialTime)) (start c ()).displacement (start c ()).velocity
      (start c' ()).displacement (start c' ()).velocity := by
    intro n hn d
    refine ⟨?_, hv n hn d⟩
    rw [start_displacement c hm, start_displacement c' hm']
    simp [Change.vec]
  have hacc : ∀ n < χ.nodes, ∀ d : Fin 3, (start c' ()).acceleration (χ.node n) d
      = χ.vec (χ.length / χ.time ^ 2) (start c ()).acceleration n d := by
    intro n hn d; simp [start, Change.vec]
  exact ⟨h0, hf, hacc, List.Forall₂.cons ⟨h0, hf, hacc⟩ List.Forall₂.nil⟩

/-! ## C114, C117: axes, origin and moving frames -/

/-- Rotated axes, moved origin, and a frame in which the body drifts with velocity `w`. -/
def frame (R : Matrix (Fin 3) (Fin 3) ℝ) (origin w : Fin 3 → ℝ) (N : ℕ) : Change ℝ where
  length := 1
  time := 1
  stress := 1
  density := 1
  axes := R
  origin := origin
  drift := w
  node := id
  nodes := N

theorem frame_same (val : ℝ) (f : ℝ → ℝ) (hf : IsCosThird f) (D : Matrix (Fin 3) (Fin 3) ℝ → Prop) (c c' : Config ℝ)
    (blocks : List (Blk ℝ)) (N : ℕ) (hN : InMesh N (serial blocks)) (R : Matrix (Fin 3) (Fin 3) ℝ) (hR : R * Rᵀ = 1) (hdet : R.det = 1) (origin w : Fin 3 → ℝ)
    (hm : c.manager.scheme ≠ .quasistatic) (hm' : c'.manager.scheme ≠ .quasistatic)
    (hX : ∀ n < N, ∀ d : Fin 3, c'.X n d = (∑ k : Fin 3, R d k * c.X n k) + origin d)
    (hlaw : ∀ b ∈ blocks, ScaledLaw f D 1 b b) (ht : SameTimes c c' 1)
    (hM : MassComputed val c blocks) (hM' : MassComputed val c' blocks) (hfree : Unconstrained c) (hfree' : Unconstrained c')
    (hv : ∀ n < N, ∀ d : Fin 3, (start c' ()).velocity n d = (∑ k : Fin 3, R d k * (start c ()).velocity n k) + w d)
    (hD : RunDeforms val D c blocks) (k : ℕ) (s : Sim ℝ Unit) (h : state val c blocks k = some s) :
    ∃ s', state val c' blocks k = some s' ∧ (frame R origin w N).Same c.initialTime s s' := by
  have hχ : (frame R origin w N).Valid :=
    ⟨one_pos, one_pos, one_pos, by simp [frame], hR, hdet, Function.injective_id⟩
  have ha : (frame R origin w N).Applied val c c' blocks id D :=
    { inMesh := hN
      positions := fun n hn d => by rw [show (frame R origin w N).node n = n from rfl, hX n hn d]; simp [frame, Change.vec]
      elements := fun b hb => rfl
      corners := fun b hb e he n hn => rfl
      densities := fun b hb => by simp [frame]
      laws := fun b hb => scaled_corresponding f hf D 1 1 one_ne_zero R hR hdet b b (hlaw b hb)
      initialTime := ht.initialTime
      finalTime := ht.finalTime
      numSteps := ht.numSteps
      frequency := ht.frequency
      mass := hM
      mass' := by rw [List.map_id]; exact hM' }
  have := run_same hχ ha (kinematics_free _ c c' hfree hfree') hm
    (start_same_free _ c c' hm hm' ht.initialTime (fun n hn d => by
      rw [show (frame R origin w N).node n = n from rfl, hv n hn d]; simp [frame, Change.vec])) hD k s h
  rw [List.map_id] at this
  exact this

/-- **C114.**  The results of a run do not depend on the axes and the origin in which the mesh is described: for every mesh, every
rotation and every translation, if the coordinates of the nodes and the initial velocities of an unconstrained body are given in
rotated axes, then after every step the displacements, velocities and accelerations are the same vectors in the rotated axes. -/
theorem axes_independent (val : ℝ) (f : ℝ → ℝ) (hf : IsCosThird f) (D : Matrix (Fin 3) (Fin 3) ℝ → Prop) (c c' : Config ℝ)
    (blocks : List (Blk ℝ)) (N : ℕ) (hN : InMesh N (serial blocks)) (R : Matrix (Fin 3) (Fin 3) ℝ) (hR : R * Rᵀ = 1) (hdet : R.det = 1) (origin : Fin 3 → ℝ)
    (hm : c.manager.scheme ≠ .quasistatic) (hm' : c'.manager.scheme ≠ .quasistatic)
    (hX : ∀ n < N, ∀ d : Fin 3, c'.X n d = (∑ k : Fin 3, R d k * c.X n k) + origin d)
    (hlaw : ∀ b ∈ blocks, ScaledLaw f D 1 b b) (ht : SameTimes c c' 1)
    (hM : MassComputed val c blocks) (hM' : MassComputed val c' blocks) (hfree : Unconstrained c) (hfree' : Unconstrained c')
    (hv : ∀ n < N, ∀ d : Fin 3, (start c' ()).velocity n d = ∑ k : Fin 3, R d k * (start c ()).velocity n k)
    (hD : RunDeforms val D c blocks) (k : ℕ) (s : Sim ℝ Unit) (h : state val c blocks k = some s) :
    ∃ s', state val c' blocks k = some s' ∧ ∀ n < N, ∀ d : Fin 3,
      s'.displacement n d = ∑ k : Fin 3, R d k * s.displacement n k ∧
      s'.velocity n d = ∑ k : Fin 3, R d k * s.velocity n k ∧
      s'.acceleration n d = ∑ k : Fin 3, R d k * s.acceleration n k := by
  obtain ⟨s', h1, h2⟩ := frame_same val f hf D c c' blocks N hN R hR hdet origin 0 hm hm' hX hlaw ht hM hM' hfree hfree'
    (fun n hn d => by rw [hv n hn d]; simp) hD k s h
  refine ⟨s', h1, fun n hn d => ⟨?_, ?_, ?_⟩⟩
  · have := (h2.fields n hn d).1
    simpa [frame, Change.vec] using this
  · have := (h2.fields n hn d).2
    simpa [frame, Change.vec] using this
  · have := h2.acceleration n hn d
    simpa [frame, Change.vec] using this

/-- **C117.**  Adding the same velocity `w` to all initial velocities of an unconstrained body changes its motion by the uniform
translation with that velocity and nothing else: after every step the displacements have changed by `w` times the elapsed time,
the velocities by `w`, and the accelerations not at all. -/
theorem galilean_invariant (val : ℝ) (f : ℝ → ℝ) (hf : IsCosThird f) (D : Matrix (Fin 3) (Fin 3) ℝ → Prop) (c c' : Config ℝ)
    (blocks : List (Blk ℝ)) (N : ℕ) (hN : InMesh N (serial blocks)) (w : Fin 3 → ℝ) (hm : c.manager.scheme ≠ .quasistatic) (hm' : c'.manager.scheme ≠ .quasistatic)
    (hX : ∀ n < N, ∀ d : Fin 3, c'.X n d = c.X n d) (hlaw : ∀ b ∈ blocks, ScaledLaw f D 1 b b) (ht : SameTimes c c' 1)
    (hM : MassComputed val c blocks) (hM' : MassComputed val c' blocks) (hfree : Unconstrained c) (hfree' : Unconstrained c')
    (hv : ∀ n < N, ∀ d : Fin 3, (start c' ()).velocity n d = (start c ()).velocity n d + w d)
    (hD : RunDeforms val D c blocks) (k : ℕ) (s : Sim ℝ Unit) (h : state val c blocks k = some s) :
    ∃ s', state val c' blocks k = some s' ∧ ∀ n < N, ∀ d : Fin 3,
      s'.displacement n d = s.displacement n d + (s.time - c.initialTime) * w d ∧
      s'.velocity n d = s.velocity n d + w d ∧
      s'.acceleration n d = s.acceleration n d := by
  have hone : ∀ (x : Nodal ℝ) n (d : Fin 3), ∑ k : Fin 3, (1 : Matrix (Fin 3) (Fin 3) ℝ) d k * x n k = x n d := by
    intro x n d
    rw [Finset.sum_eq_single d]
    · rw [Matrix.one_apply_eq, one_mul]
    · intro k _ hk; rw [Matrix.one_apply_ne (Ne.symm hk), zero_mul]
    · intro h; exact absurd (Finset.mem_univ d) h
  obtain ⟨s', h1, h2⟩ := frame_same val f hf D c c' blocks N hN 1 (by simp) (by simp) 0 w hm hm'
    (fun n hn d => by rw [hone, hX n hn d]; simp) hlaw ht hM hM' hfree hfree'
    (fun n hn d => by rw [hone, hv n hn d]) hD k s h
  refine ⟨s', h1, fun n hn d => ⟨?_, ?_, ?_⟩⟩
  · have := (h2.fields n hn d).1
    simp only [frame, Change.vec, hone, one_mul] at this
    exact this
  · have := (h2.fields n hn d).2
    simp only [frame, Change.vec, hone, one_mul, div_one] at this
    exact this
  · have := h2.acceleration n hn d
    simp only [frame, Change.vec, hone, one_pow, div_one, one_mul] at this
    exact this

/-! ## C115, C116: numbering and units -/

/-- The block with renumbered nodes. -/
def renumber (π : ℕ → ℕ) (b : Blk ℝ) : Blk ℝ := { b with conn := fun k => π (b.conn k) }

/-- **C116.**  The results of a run do not depend on the units of the input: if lengths are multiplied by `ℓ`, times by `τ`,
densities by `δ`, moduli by `δ (ℓ/τ)²`, and the conditions of the input deck are converted accordingly, then after every step the
displacements are multiplied by `ℓ`, the velocities by `ℓ/τ` and the accelerations by `ℓ/τ²`, in the state and in everything that
has been written.  (With any renumbering of the nodes, any translation of the mesh, and with kinematic and initial
conditions.) -/
theorem units_independent (val : ℝ) (f : ℝ → ℝ) (hf : IsCosThird f) (D : Matrix (Fin 3) (Fin 3) ℝ → Prop) (c c' : Config ℝ)
    (blocks : List (Blk ℝ)) (N : ℕ) (hN : InMesh N (serial blocks)) (g : Blk ℝ → Blk ℝ) (ℓ τ δ : ℝ) (hℓ : 0 < ℓ) (hτ : 0 < τ) (hδ : 0 < δ) (π : ℕ → ℕ)
    (hπ : Function.Injective π) (origin : Fin 3 → ℝ)
    (hm : c.manager.scheme ≠ .quasistatic) (hm' : c'.manager.scheme ≠ .quasistatic)
    (hX : ∀ n < N, ∀ d : Fin 3, c'.X (π n) d = ℓ * c.X n d + origin d)
    (hel : ∀ b ∈ blocks, (g b).numElem = b.numElem)
    (hcor : ∀ b ∈ blocks, ∀ e < b.numElem, ∀ n < 8, (g b).nodeId e n = π (b.nodeId e n))
    (hrho : ∀ b ∈ blocks, (g b).density = δ * b.density)
    (hlaw : ∀ b ∈ blocks, ScaledLaw f D (δ * (ℓ / τ) ^ 2) b (g b)) (ht : SameTimes c c' τ)
    (hM : MassComputed val c blocks) (hM' : MassComputed val c' (blocks.map g))
    (hbc : BoundaryCondition ℝ → BoundaryCondition ℝ) (hc : SameConditions c.manager c'.manager hbc c.X c'.X π N ℓ τ)
    (hD : RunDeforms val D c blocks) (k : ℕ) (s : Sim ℝ Unit) (h : state val c blocks k = some s) :
    ∃ s', state val c' (blocks.map g) k = some s' ∧ s'.time = τ * s.time ∧
      (∀ n < N, ∀ d : Fin 3, s'.displacement (π n) d = ℓ * s.displacement n d ∧ s'.velocity (π n) d = ℓ / τ * s.velocity n d ∧
        s'.acceleration (π n) d = ℓ / τ ^ 2 * s.acceleration n d) ∧
      List.Forall₂ (fun o o' : Output ℝ => o'.time = τ * o.time ∧ ∀ n < N, ∀ d : Fin 3,
        o'.displacement (π n) d = ℓ * o.displacement n d ∧ o'.velocity (π n) d = ℓ / τ * o.velocity n d ∧
        o'.acceleration (π n) d = ℓ / τ ^ 2 * o.acceleration n d) s.outputs s'.outputs := by
  have hχ := units_valid ℓ τ δ origin π N hℓ hτ hδ hπ
  have ha : (units ℓ τ δ origin π N).Applied val c c' blocks g D :=
    { inMesh := hN
      positions := fun n hn d => by
        rw [units_vec]; exact hX n hn d
      elements := hel
      corners := hcor
      densities := hrho
      laws := fun b hb => scaled_corresponding f hf D _ ℓ hℓ.ne' 1 (by simp) (by simp) b (g b) (hlaw b hb)
      initialTime := ht.initialTime
      finalTime := ht.finalTime
      numSteps := ht.numSteps
      frequency := ht.frequency
      mass := hM
      mass' := hM' }
  obtain ⟨s', h1, h2⟩ := run_same hχ ha (kinematics_units ℓ τ δ origin π N hτ c c' hm hm' hbc hc) hm
    (start_units ℓ τ δ origin π N hτ c c' hm hm' hbc hc ht.initialTime) hD k s h
  have hacc : ∀ a a' : Nodal ℝ, (∀ n < N, ∀ d : Fin 3, a' ((units ℓ τ δ origin π N).node n) d
      = (units ℓ τ δ origin π N).vec ((units ℓ τ δ origin π N).length / (units ℓ τ δ origin π N).time ^ 2) a n d) →
      ∀ n < N, ∀ d : Fin 3, a' (π n) d = ℓ / τ ^ 2 * a n d := by
    intro a a' h n hn d
    have := h n hn d
    rw [units_vec] at this
    exact this
  refine ⟨s', h1, h2.time, fun n hn d => ?_, h2.outputs.imp fun o o' ho => ⟨ho.time, fun n hn d => ?_⟩⟩
  · have h3 := (units_fields ..).mp h2.fields n hn d
    exact ⟨h3.1, h3.2, hacc _ _ h2.acceleration n hn d⟩
  · have h3 := (units_fields ..).mp ho.fields n hn d
    exact ⟨h3.1, h3.2, hacc _ _ ho.acceleration n hn d⟩

/-- **C115.**  The results of a run do not depend on the numbering of the nodes: if the nodes are renumbered in the coordinates,
the connectivity and the node sets, then after every step every node has, under its new number, the same displacement, velocity
and acceleration, and so has everything that has been written. -/
theorem numbering_independent (val : ℝ) (f : ℝ → ℝ) (hf : IsCosThird f) (D : Matrix (Fin 3) (Fin 3) ℝ → Prop) (c c' : Config ℝ)
    (blocks : List (Blk ℝ)) (N : ℕ) (hN : InMesh N (serial blocks)) (π : ℕ → ℕ) (hπ : Function.Injective π)
    (hm : c.manager.scheme ≠ .quasistatic) (hm' : c'.manager.scheme ≠ .quasistatic)
    (hX : ∀ n < N, ∀ d : Fin 3, c'.X (π n) d = c.X n d)
    (hlaw : ∀ b ∈ blocks, ScaledLaw f D 1 b b) (ht : SameTimes c c' 1)
    (hM : MassComputed val c blocks) (hM' : MassComputed val c' (blocks.map (renumber π)))
    (hbcs : c'.manager.bcs = c.manager.bcs) (hdim : c'.manager.dim = c.manager.dim)
    (hsets : ∀ i, c'.manager.sets i = (c.manager.sets i).map (List.map π))
    (hD : RunDeforms val D c blocks) (k : ℕ) (s : Sim ℝ Unit) (h : state val c blocks k = some s) :
    ∃ s', state val c' (blocks.map (renumber π)) k = some s' ∧ s'.time = s.time ∧
      (∀ n < N, ∀ d : Fin 3, s'.displacement (π n) d = s.displacement n d ∧ s'.velocity (π n) d = s.velocity n d ∧
        s'.acceleration (π n) d = s.acceleration n d) ∧
      List.Forall₂ (fun o o' : Output ℝ => o'.time = o.time ∧ ∀ n < N, ∀ d : Fin 3,
        o'.displacement (π n) d = o.displacement n d ∧ o'.velocity (π n) d = o.velocity n d ∧
        o'.acceleration (π n) d = o.acceleration n d) s.outputs s'.outputs := by
  have hpre : ∀ bc, ∀ n < N, ∀ t, prescribed c'.manager bc c'.X (π n) t = prescribed c.manager bc c.X n t := by
    intro bc n hn t
    unfold prescribed
    have e0 : c'.X (π n) 0 = c.X n 0 := hX n hn 0
    have e1 : c'.X (π n) 1 = c.X n 1 := hX n hn 1
    have e2 : c'.X (π n) 2 = c.X n 2 := hX n hn 2
    rw [hdim, e0, e1, e2]
  have hc : SameConditions c.manager c'.manager id c.X c'.X π N 1 1 :=
    { list := by rw [hbcs, List.map_id]
      type := fun _ _ => rfl
      coordinate := fun _ _ => rfl
      sets := by
        intro bc _ n _
        change π n ∈ c'.manager.nodeSet bc ↔ _
        unfold Manager.nodeSet
        rw [hsets]
        cases c.manager.sets bc.nodeSetId with
        | none => simp
        | some l => simp [List.mem_map, hπ.eq_iff]
      displacement := fun bc _ _ n hn t => by rw [one_mul, one_mul]; exact hpre bc n hn t
      velocity := fun bc _ _ n hn t => by rw [div_one, one_mul, one_mul]; exact hpre bc n hn t }
  have := units_independent val f hf D c c' blocks N hN (renumber π) 1 1 1 one_pos one_pos one_pos π hπ 0 hm hm'
    (fun n hn d => by rw [hX n hn d]; simp) (fun _ _ => rfl) (fun _ _ _ _ _ _ => rfl) (fun b _ => by simp [renumber])
    (fun b hb => by
      have h1 := hlaw b hb
      rw [show (1 : ℝ) * (1 / 1) ^ 2 = 1 by norm_num]
      cases h1 with
      | elastic m m' a1 a2 a3 a4 => exact .elastic m m' a1 a2 a3 a4
      | neohookean m m' a1 a2 a3 a4 a5 => exact .neohookean m m' a1 a2 a3 a4 a5)
    ht hM hM' id hc hD k s h
  simpa using this

end NimbleSM.Integrate
