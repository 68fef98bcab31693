import Verif.Integrate.MomentumProps
import Verif.Assembly.TransformLawProps

/-!
# C114-C117: explicit runs of the same problem in other axes, units, numberings and moving frames
-/

open scoped BigOperators

namespace NimbleSM.Integrate

open Matrix NimbleSM.Bc NimbleSM.Assembly NimbleSM.Hex NimbleSM.Tensor NimbleSM.Constitutive

variable {K : Type*} [Field K] [LinearOrder K] [IsStrictOrderedRing K]

/-! ## Specification -/

/-- How a second description of the same problem differs from the first. -/
structure Change (K : Type*) where
  /-- number of new length units per old one -/
  length : K
  /-- the same for times -/
  time : K
  /-- the same for stresses and moduli -/
  stress : K
  /-- the same for mass densities -/
  density : K
  /-- the new components of the old axes -/
  axes : Matrix (Fin 3) (Fin 3) K
  /-- the new position of the old origin -/
  origin : Fin 3 → K
  /-- the velocity of the old frame in the new one -/
  drift : Fin 3 → K
  /-- the new number of a node -/
  node : ℕ → ℕ
  /-- the number of nodes of the mesh -/
  nodes : ℕ

/-- The units are consistent (a stress is a density times a squared velocity), the axes are rotated, different nodes have
different numbers. -/
structure Change.Valid (χ : Change K) : Prop where
  length : 0 < χ.length
  time : 0 < χ.time
  density : 0 < χ.density
  units : χ.stress = χ.density * (χ.length / χ.time) ^ 2
  rotation : χ.axes * χ.axesᵀ = 1
  proper : χ.axes.det = 1
  node : Function.Injective χ.node

/-- The vector `x` in the new axes, multiplied by `a`. -/
def Change.vec (χ : Change K) (a : K) (x : Nodal K) (n : ℕ) (d : Fin 3) : K := a * ∑ k : Fin 3, χ.axes d k * x n k

/-- Displacements and velocities of the two descriptions a time `t` (new units) after the start. -/
def Change.Fields (χ : Change K) (t : K) (u v u' v' : Nodal K) : Prop :=
  ∀ n < χ.nodes, ∀ d : Fin 3, u' (χ.node n) d = χ.vec χ.length u n d + t * χ.drift d ∧
    v' (χ.node n) d = χ.vec (χ.length / χ.time) v n d + χ.drift d

/-- The two configurations have the same mesh, blocks and times; masses are what `ComputeLumpedMass` computes. -/
structure Change.Applied (χ : Change K) (val : K) (c c' : Config K) (blocks : List (Blk K)) (g : Blk K → Blk K)
    (D : Matrix (Fin 3) (Fin 3) K → Prop) : Prop where
  inMesh : InMesh χ.nodes (serial blocks)
  positions : ∀ n < χ.nodes, ∀ d : Fin 3, c'.X (χ.node n) d = χ.vec χ.length c.X n d + χ.origin d
  elements : ∀ b ∈ blocks, (g b).numElem = b.numElem
  corners : ∀ b ∈ blocks, ∀ e < b.numElem, ∀ n < 8, (g b).nodeId e n = χ.node (b.nodeId e n)
  densities : ∀ b ∈ blocks, (g b).density = χ.density * b.density
  laws : ∀ b ∈ blocks, Corresponding b.law (g b).law D (χ.length • χ.axes) (χ.length • χ.axes)
    ((χ.stress * χ.length ^ 2) • χ.axesᵀ)
  initialTime : c'.initialTime = χ.time * c.initialTime
  finalTime : c'.finalTime = χ.time * c.finalTime
  numSteps : c'.numSteps = c.numSteps
  frequency : c'.frequency = c.frequency
  mass : computeLumpedMassField val (flat c.X) blocks (fun _ => 0) = some c.mass
  mass' : computeLumpedMassField val (flat c'.X) (blocks.map g) (fun _ => 0) = some c'.mass

/-- The kinematic conditions of the two descriptions do corresponding things. -/
def Change.Kinematics (χ : Change K) (c c' : Config K) : Prop :=
  ∀ tc tp t u v u' v', χ.Fields t u v u' v' →
    χ.Fields t (kinematic c tc tp u v).1 (kinematic c tc tp u v).2
      (kinematic c' (χ.time * tc) (χ.time * tp) u' v').1 (kinematic c' (χ.time * tc) (χ.time * tp) u' v').2

/-- What the two descriptions write: times, displacements, velocities and accelerations.  `t0` is the time of the start in the
first description. -/
structure Change.SameOutput (χ : Change K) (t0 : K) (o o' : Output K) : Prop where
  time : o'.time = χ.time * o.time
  fields : χ.Fields (χ.time * (o.time - t0)) o.displacement o.velocity o'.displacement o'.velocity
  acceleration : ∀ n < χ.nodes, ∀ d : Fin 3, o'.acceleration (χ.node n) d = χ.vec (χ.length / χ.time ^ 2) o.acceleration n d

/-- The same for the states of two runs and all they have written. -/
structure Change.Same (χ : Change K) (t0 : K) (s s' : Sim K Unit) : Prop where
  time : s'.time = χ.time * s.time
  fields : χ.Fields (χ.time * (s.time - t0)) s.displacement s.velocity s'.displacement s'.velocity
  acceleration : ∀ n < χ.nodes, ∀ d : Fin 3, s'.acceleration (χ.node n) d = χ.vec (χ.length / χ.time ^ 2) s.acceleration n d
  outputs : List.Forall₂ (χ.SameOutput t0) s.outputs s'.outputs

/-- All deformation gradients of the mesh are in `D`. -/
def AllDeform (val : K) (D : Matrix (Fin 3) (Fin 3) K → Prop) (blocks : List (Blk K)) (X u : Nodal K) : Prop :=
  ∀ b ∈ blocks, ∀ e < b.numElem, Deforms val D b e (flat X) fun k => flat X k + flat u k

/-! ## One step -/

/-- What a step computes before the force evaluation: displacement and half-step velocity. -/
def predict (c : Config K) (s : Sim K Unit) : Nodal K × Nodal K :=
  let K1 := kinematic c (s.time + c.dt) s.time s.displacement (axpy s.velocity (0.5 * (s.time + c.dt - s.time)) s.acceleration)
  kinematic c (s.time + c.dt) s.time (axpy K1.1 (s.time + c.dt - s.time) K1.2) K1.2

/-- What it computes after it. -/
def correct (c : Config K) (k : ℕ) (s : Sim K Unit) (F : ℕ → K) : Sim K Unit :=
  let a := accel c (fun n i => F (3 * n + i)) (fun _ _ => 0) none
  let u := (predict c s).1
  let v := axpy (predict c s).2 (0.5 * (s.time + c.dt - s.time)) a
  let r := if c.isOutputStep k then kinematic c (s.time + c.dt) s.time u v else (u, v)
  { time := s.time + c.dt, displacement := r.1, velocity := r.2, acceleration := a, state := (),
    outputs := if c.isOutputStep k then s.outputs ++ [⟨s.time + c.dt, r.1, r.2, a⟩] else s.outputs }

theorem step_eq (c : Config K) (val : K) (blocks : List (Blk K × List ℕ)) (k : ℕ) (s : Sim K Unit) :
    step c (meshPhysics val c.X blocks) k s
      = (computeInternalForce val (flat c.X) (flat (predict c s).1) blocks).map (correct c k s) := by
  unfold step correct predict
  simp only [meshPhysics, contactForce, Option.bind_eq_bind]
  cases computeInternalForce val (flat c.X) _ blocks with
  | none => rfl
  | some F => rfl

theorem correct_displacement (c : Config K) (hm : c.manager.scheme ≠ .quasistatic) (k : ℕ) (s : Sim K Unit) (F : ℕ → K) :
    (correct c k s F).displacement = (predict c s).1 := by
  unfold correct
  simp only
  split_ifs
  · exact applyKinematicBC_displacement c.manager hm _ _ c.X _
  · rfl

/-- What the comparison of two runs needs of their data: consistent units, the same times, corresponding masses. -/
structure Change.Data (χ : Change K) (c c' : Config K) : Prop where
  length : χ.length ≠ 0
  time : χ.time ≠ 0
  density : χ.density ≠ 0
  units : χ.stress = χ.density * (χ.length / χ.time) ^ 2
  initialTime : c'.initialTime = χ.time * c.initialTime
  finalTime : c'.finalTime = χ.time * c.finalTime
  numSteps : c'.numSteps = c.numSteps
  frequency : c'.frequency = c.frequency
  mass : ∀ n < χ.nodes, c'.mass (χ.node n) = χ.density * χ.length ^ 3 * c.mass n

/-- The internal forces at corresponding displacements correspond, if the displacement has the property `G`. -/
def Change.Forces (χ : Change K) (val : K) (c c' : Config K) (blocks blocks' : List (Blk K × List ℕ)) (G : Nodal K → Prop) : Prop :=
  ∀ t u v u' v', χ.Fields t u v u' v' → G u → ∀ F, computeInternalForce val (flat c.X) (flat u) blocks = some F →
    ∃ F', computeInternalForce val (flat c'.X) (flat u') blocks' = some F' ∧
      ∀ n < χ.nodes, ∀ d : Fin 3, F' (3 * χ.node n + d) = χ.stress * χ.length ^ 2 * ∑ k : Fin 3, χ.axes d k * F (3 * n + k)

section Core

variable {χ : Change K} {c c' : Config K} (hd : χ.Data c c') (hk : χ.Kinematics c c')

include hd in
theorem changed_dt : c'.dt = χ.time * c.dt := by
  unfold Config.dt
  rw [hd.initialTime, hd.finalTime, hd.numSteps]
  ring

theorem vec_axpy (χ : Change K) (a b : K) (x y : Nodal K) (n : ℕ) (d : Fin 3) :
    χ.vec a (axpy x b y) n d = χ.vec a x n d + χ.vec (a * b) y n d := by
  unfold Change.vec axpy
  simp only [mul_add, Finset.sum_add_distrib]
  congr 1
  rw [mul_assoc a b, Finset.mul_sum (a := b)]
  congr 1
  apply Finset.sum_congr rfl; intro k _; ring

theorem vec_smul (χ : Change K) (a b : K) (x : Nodal K) (n : ℕ) (d : Fin 3) : χ.vec (a * b) x n d = b * χ.vec a x n d := by
  unfold Change.vec; ring

include hd hk in
theorem predict_same (s s' : Sim K Unit) (hs : χ.Same c.initialTime s s') :
    χ.Fields (χ.time * (s.time + c.dt - c.initialTime)) (predict c s).1 (predict c s).2 (predict c' s').1 (predict c' s').2 := by
  have hτ := hd.time
  have hdt := changed_dt hd
  have e1 : s'.time + c'.dt = χ.time * (s.time + c.dt) := by rw [hs.time, hdt]; ring
  have e2 : s'.time + c'.dt - s'.time = χ.time * (s.time + c.dt - s.time) := by rw [e1, hs.time]; ring
  have h1 : χ.Fields (χ.time * (s.time - c.initialTime)) s.displacement
      (axpy s.velocity (0.5 * (s.time + c.dt - s.time)) s.acceleration) s'.displacement
      (axpy s'.velocity (0.5 * (s'.time + c'.dt - s'.time)) s'.acceleration) := by
    intro n hn d
    refine ⟨(hs.fields n hn d).1, ?_⟩
    rw [vec_axpy, axpy, (hs.fields n hn d).2, hs.acceleration n hn d, e2, vec_smul]
    have : χ.vec (χ.length / χ.time) s.acceleration n d = χ.time * χ.vec (χ.length / χ.time ^ 2) s.acceleration n d := by
      unfold Change.vec; field_simp
    rw [this]; ring
  have h2 := hk (s.time + c.dt) s.time _ _ _ _ _ h1
  rw [← e1, ← hs.time] at h2
  have h3 := fun t u v u' v' h => hk (s.time + c.dt) s.time t u v u' v' h
  rw [← e1, ← hs.time] at h3
  unfold predict
  simp only
  apply h3
  intro n hn d
  refine ⟨?_, (h2 n hn d).2⟩
  rw [vec_axpy, axpy, (h2 n hn d).1, (h2 n hn d).2, e2, vec_smul]
  set V := (kinematic c (s.time + c.dt) s.time s.displacement
    (axpy s.velocity (0.5 * (s.time + c.dt - s.time)) s.acceleration)).2
  have : χ.vec χ.length V n d = χ.time * χ.vec (χ.length / χ.time) V n d := by
    unfold Change.vec; field_simp
  rw [this]; ring

include hd hk in
/-- One step. -/
theorem step_core {val : K} {blocks blocks' : List (Blk K × List ℕ)} {G : Nodal K → Prop} (hforce : χ.Forces val c c' blocks blocks' G)
    (hm : c.manager.scheme ≠ .quasistatic) (k : ℕ) (s s' s1 : Sim K Unit) (hs : χ.Same c.initialTime s s')
    (h1 : step c (meshPhysics val c.X blocks) k s = some s1) (hD : G s1.displacement) :
    ∃ s1', step c' (meshPhysics val c'.X blocks') k s' = some s1' ∧ χ.Same c.initialTime s1 s1' := by
  have hτ := hd.time
  have hℓ := hd.length
  have hδ := hd.density
  have hdt := changed_dt hd
  have e1 : s'.time + c'.dt = χ.time * (s.time + c.dt) := by rw [hs.time, hdt]; ring
  have e2 : s'.time + c'.dt - s'.time = χ.time * (s.time + c.dt - s.time) := by rw [e1, hs.time]; ring
  rw [step_eq, Option.map_eq_some_iff] at h1
  obtain ⟨F, hF, rfl⟩ := h1
  rw [correct_displacement c hm] at hD
  have hp := predict_same hd hk s s' hs
  obtain ⟨F', hF', hv⟩ := hforce _ _ _ _ _ hp hD F hF
  rw [step_eq]
  refine ⟨correct c' k s' F', by rw [hF']; rfl, ?_⟩
  have hacc : ∀ n < χ.nodes, ∀ d : Fin 3, accel c' (fun n i => F' (3 * n + i)) (fun _ _ => 0) none (χ.node n) d
      = χ.vec (χ.length / χ.time ^ 2) (accel c (fun n i => F (3 * n + i)) (fun _ _ => 0) none) n d := by
    intro n hn d
    unfold accel Change.vec
    simp only [add_zero]
    rw [hv n hn, hd.mass n hn, hd.units, Finset.mul_sum, Finset.mul_sum, Finset.mul_sum]
    apply Finset.sum_congr rfl; intro j _
    by_cases hz : c.mass n = 0
    · simp [hz]
    · field_simp
  have hvel : χ.Fields (χ.time * (s.time + c.dt - c.initialTime)) (predict c s).1
      (axpy (predict c s).2 (0.5 * (s.time + c.dt - s.time)) (accel c (fun n i => F (3 * n + i)) (fun _ _ => 0) none))
      (predict c' s').1
      (axpy (predict c' s').2 (0.5 * (s'.time + c'.dt - s'.time)) (accel c' (fun n i => F' (3 * n + i)) (fun _ _ => 0) none)) := by
    intro n hn d
    refine ⟨(hp n hn d).1, ?_⟩
    rw [vec_axpy, axpy, (hp n hn d).2, hacc n hn d, e2, vec_smul]
    have : χ.vec (χ.length / χ.time) (accel c (fun n i => F (3 * n + i)) (fun _ _ => 0) none) n d
        = χ.time * χ.vec (χ.length / χ.time ^ 2) (accel c (fun n i => F (3 * n + i)) (fun _ _ => 0) none) n d := by
      unfold Change.vec; field_simp
    rw [this]; ring
  have hout : c'.isOutputStep k = c.isOutputStep k := by
    unfold Config.isOutputStep; rw [hd.frequency, hd.numSteps]
  have hfin : χ.Fields (χ.time * (s.time + c.dt - c.initialTime)) (correct c k s F).displacement (correct c k s F).velocity
      (correct c' k s' F').displacement (correct c' k s' F').velocity := by
    unfold correct
    simp only [hout]
    split_ifs
    · have h3 := hk (s.time + c.dt) s.time _ _ _ _ _ hvel
      rw [← e1, ← hs.time] at h3
      exact h3
    · exact hvel
  refine ⟨e1, hfin, hacc, ?_⟩
  by_cases ho : c.isOutputStep k = true
  · have hw : (correct c k s F).outputs
        = s.outputs ++ [⟨s.time + c.dt, (correct c k s F).displacement, (correct c k s F).velocity, (correct c k s F).acceleration⟩] := by
      unfold correct; simp only [ho, if_true]
    have hw' : (correct c' k s' F').outputs = s'.outputs ++ [⟨s'.time + c'.dt, (correct c' k s' F').displacement,
        (correct c' k s' F').velocity, (correct c' k s' F').acceleration⟩] := by
      unfold correct; simp only [hout, ho, if_true]
    rw [hw, hw']
    exact List.rel_append hs.outputs (List.Forall₂.cons ⟨e1, hfin, hacc⟩ List.Forall₂.nil)
  · have hw : (correct c k s F).outputs = s.outputs := by
      unfold correct; simp only [ho, if_false, Bool.false_eq_true]
    have hw' : (correct c' k s' F').outputs = s'.outputs := by
      unfold correct; simp only [hout, ho, if_false, Bool.false_eq_true]
    rw [hw, hw']
    exact hs.outputs

include hd hk in
/-- A whole run. -/
theorem run_core {val : K} {blocks blocks' : List (Blk K × List ℕ)} {G : Nodal K → Prop} (hforce : χ.Forces val c c' blocks blocks' G)
    (hm : c.manager.scheme ≠ .quasistatic) (hstart : χ.Same c.initialTime (start c ()) (start c' ()))
    (hD : ∀ j s, loop c (meshPhysics val c.X blocks) j (start c ()) = some s → G s.displacement)
    (k : ℕ) (s : Sim K Unit) (h : loop c (meshPhysics val c.X blocks) k (start c ()) = some s) :
    ∃ s', loop c' (meshPhysics val c'.X blocks') k (start c' ()) = some s' ∧ χ.Same c.initialTime s s' := by
  induction k generalizing s with
  | zero =>
    rw [loop_zero] at h; cases h
    exact ⟨_, loop_zero _ _ _, hstart⟩
  | succ k ih =>
    have hdef := hD (k + 1) s h
    rw [loop_succ, Option.bind_eq_some_iff] at h
    obtain ⟨s1, h1, h2⟩ := h
    obtain ⟨s1', h1', hs1⟩ := ih s1 h1
    obtain ⟨s2', h2', hs2⟩ := step_core hd hk hforce hm k s1 s1' s hs1 h2 hdef
    exact ⟨s2', by rw [loop_succ, h1', Option.bind_some, h2'], hs2⟩

end Core

section Step

variable {χ : Change K} (hχ : χ.Valid) {val : K} {c c' : Config K} {blocks : List (Blk K)} {g : Blk K → Blk K}
  {D : Matrix (Fin 3) (Fin 3) K → Prop} (ha : χ.Applied val c c' blocks g D) (hk : χ.Kinematics c c')

theorem flat_vec (χ : Change K) (x : Nodal K) (n : ℕ) (d : Fin 3) :
    χ.vec χ.length x n d = ∑ k : Fin 3, (χ.length • χ.axes) d k * flat x (3 * n + k) := by
  unfold Change.vec
  rw [Finset.mul_sum]
  apply Finset.sum_congr rfl; intro k _
  rw [flat_apply, Matrix.smul_apply, smul_eq_mul]; ring

include hχ ha in
theorem force_same (t : K) (u v u' v' : Nodal K) (hf : χ.Fields t u v u' v') (hD : AllDeform val D blocks c.X u)
    (F : ℕ → K) (hF : computeInternalForce val (flat c.X) (flat u) (serial blocks) = some F) :
    ∃ F', computeInternalForce val (flat c'.X) (flat u') (serial (blocks.map g)) = some F' ∧
      ∀ n (d : Fin 3), F' (3 * χ.node n + d) = χ.stress * χ.length ^ 2 * ∑ k : Fin 3, χ.axes d k * F (3 * n + k) := by
  have hpos : 0 < (χ.length • χ.axes).det := by
    rw [det_smul3 _ _ hχ.proper]; exact pow_pos hχ.length 3
  have hmem : ∀ b ∈ serial blocks, b.1 ∈ blocks ∧ b.2 = List.range b.1.numElem := by
    intro b hb
    simp only [serial, List.mem_map] at hb
    obtain ⟨b0, h0, rfl⟩ := hb
    exact ⟨h0, rfl⟩
  have hel : ∀ b ∈ serial blocks, ∀ e ∈ b.2, e < b.1.numElem := by
    intro b hb e he
    rw [(hmem b hb).2] at he
    exact List.mem_range.mp he
  have hin : ∀ b ∈ serial blocks, ∀ e ∈ b.2, ∀ n < 8, b.1.nodeId e n < χ.nodes :=
    fun b hb e he n hn => ha.inMesh b hb e he n hn
  have hren : Renumbered (serial blocks) g χ.node :=
    ⟨hχ.node, fun b hb e he n hn => ha.corners b.1 (hmem b hb).1 e (hel b hb e he) n hn⟩
  rw [serial_map blocks g ha.elements]
  obtain ⟨F', h1, h2⟩ := internal_force_transformed val (serial blocks) g χ.node hren (flat c.X) (flat c'.X) (flat u) (flat u')
    (χ.length • χ.axes) (χ.length • χ.axes) ((χ.stress * χ.length ^ 2) • χ.axesᵀ) χ.origin
    (fun d => χ.origin d + t * χ.drift d) hpos hpos
    (by
      intro b hb e he n hn d
      rw [ha.corners b.1 (hmem b hb).1 e (hel b hb e he) n hn, flat_apply, ha.positions _ (hin b hb e he n hn), flat_vec])
    (by
      intro b hb e he n hn d
      simp only
      rw [ha.corners b.1 (hmem b hb).1 e (hel b hb e he) n hn, flat_apply, flat_apply,
        ha.positions _ (hin b hb e he n hn), (hf _ (hin b hb e he n hn) d).1, flat_vec, flat_vec]
      simp only [mul_add, Finset.sum_add_distrib]
      ring)
    D (fun b hb e he => hD b.1 (hmem b hb).1 e (hel b hb e he)) (fun b hb => ha.laws b.1 (hmem b hb).1) F hF
  refine ⟨F', h1, fun n d => ?_⟩
  rw [h2, Finset.mul_sum]
  apply Finset.sum_congr rfl; intro k _
  rw [Matrix.smul_apply, Matrix.transpose_apply, smul_eq_mul]; ring

include hχ ha in
theorem mass_same (n : ℕ) : c'.mass (χ.node n) = χ.density * χ.length ^ 3 * c.mass n := by
  have hpos : 0 < (χ.length • χ.axes).det := by
    rw [det_smul3 _ _ hχ.proper]; exact pow_pos hχ.length 3
  have hren : Renumbered (serial blocks) g χ.node := by
    refine ⟨hχ.node, fun b hb e he n hn => ?_⟩
    simp only [serial, List.mem_map] at hb
    obtain ⟨b0, h0, rfl⟩ := hb
    exact ha.corners b0 h0 e (List.mem_range.mp he) n hn
  obtain ⟨m', h1, h2⟩ := lumped_mass_transformed val blocks g χ.node hren ha.elements χ.density ha.densities (flat c.X) (flat c'.X)
    (χ.length • χ.axes) χ.origin hpos (by
      intro b hb e he n hn d
      rw [ha.corners b hb e he n hn, flat_apply, ha.positions _ (ha.inMesh (b, List.range b.numElem)
        (List.mem_map.mpr ⟨b, hb, rfl⟩) e (List.mem_range.mpr he) n hn), flat_vec]) c.mass ha.mass
  rw [ha.mass'] at h1
  rw [Option.some.inj h1, h2, det_smul3 _ _ hχ.proper]

include hχ ha in
theorem applied_data : χ.Data c c' :=
  ⟨hχ.length.ne', hχ.time.ne', hχ.density.ne', hχ.units, ha.initialTime, ha.finalTime, ha.numSteps, ha.frequency,
    fun n _ => mass_same hχ ha n⟩

include hχ ha in
theorem applied_forces : χ.Forces val c c' (serial blocks) (serial (blocks.map g)) (AllDeform val D blocks c.X) := by
  intro t u v u' v' hf hD F hF
  obtain ⟨F', h1, h2⟩ := force_same hχ ha t u v u' v' hf hD F hF
  exact ⟨F', h1, fun n _ d => h2 n d⟩

include hχ ha hk in
/-- A whole run. -/
theorem run_same (hm : c.manager.scheme ≠ .quasistatic) (hstart : χ.Same c.initialTime (start c ()) (start c' ()))
    (hD : ∀ j s, loop c (meshPhysics val c.X (serial blocks)) j (start c ()) = some s → AllDeform val D blocks c.X s.displacement)
    (k : ℕ) (s : Sim K Unit) (h : loop c (meshPhysics val c.X (serial blocks)) k (start c ()) = some s) :
    ∃ s', loop c' (meshPhysics val c'.X (serial (blocks.map g))) k (start c' ()) = some s' ∧ χ.Same c.initialTime s s' :=
  run_core (applied_data hχ ha) hk (applied_forces hχ ha) hm hstart hD k s h

end Step

/-! ## Kinematic conditions -/

/-- Without kinematic conditions there is nothing to compare. -/
theorem kinematics_free (χ : Change K) (c c' : Config K) (h : Unconstrained c) (h' : Unconstrained c') : χ.Kinematics c c' := by
  intro tc tp t u v u' v' hf n hn d
  have h1 := free_dof_untouched c.manager tc tp c.X ⟨u, v, []⟩
  have h2 := free_dof_untouched c'.manager (χ.time * tc) (χ.time * tp) c'.X ⟨u', v', []⟩ (χ.node n) d (h' _ _)
  have e1 : ∀ k : Fin 3, (kinematic c tc tp u v).1 n k = u n k := fun k => (h1 n k (h n k)).1
  have e2 : ∀ k : Fin 3, (kinematic c tc tp u v).2 n k = v n k := fun k => (h1 n k (h n k)).2.1
  have e3 : (kinematic c' (χ.time * tc) (χ.time * tp) u' v').1 (χ.node n) d = u' (χ.node n) d := h2.1
  have e4 : (kinematic c' (χ.time * tc) (χ.time * tp) u' v').2 (χ.node n) d = v' (χ.node n) d := h2.2.1
  unfold Change.vec
  simp only [e1, e2, e3, e4]
  exact hf n hn d

/-- The conditions of the two input decks correspond, condition by condition: same kind, same coordinate, the same nodes, and
the same magnitude in the units of the second deck. -/
structure SameConditions (m m' : Manager K) (h : BoundaryCondition K → BoundaryCondition K) (X X' : Nodal K) (node : ℕ → ℕ)
    (nodes : ℕ) (length time : K) : Prop where
  list : m'.bcs = m.bcs.map h
  type : ∀ bc ∈ m.bcs, (h bc).type = bc.type
  coordinate : ∀ bc ∈ m.bcs, (h bc).coordinate = bc.coordinate
  sets : ∀ bc ∈ m.bcs, ∀ n < nodes, node n ∈ m'.nodeSet (h bc) ↔ n ∈ m.nodeSet bc
  displacement : ∀ bc ∈ m.bcs, bc.type = .prescribedDisplacement → ∀ n < nodes, ∀ t,
    prescribed m' (h bc) X' (node n) (time * t) = length * prescribed m bc X n t
  velocity : ∀ bc ∈ m.bcs, bc.type = .prescribedVelocity ∨ bc.type = .initialVelocity → ∀ n < nodes, ∀ t,
    prescribed m' (h bc) X' (node n) (time * t) = length / time * prescribed m bc X n t

theorem velocity_fold (m : Manager K) (hm : m.scheme ≠ .quasistatic) (bc : BoundaryCondition K) (X : Nodal K) (tc dt : K)
    (l : List ℕ) (s : Kin K) :
    (l.foldl (velocityNode m bc X tc dt) s).displacement = s.displacement ∧ ∀ a j,
      (l.foldl (velocityNode m bc X tc dt) s).velocity a j
        = if a ∈ l ∧ j = bc.coordinate then prescribed m bc X a tc else s.velocity a j := by
  induction l generalizing s with
  | nil => simp
  | cons n l ih =>
    rw [List.foldl_cons]
    obtain ⟨h1, h2⟩ := ih (velocityNode m bc X tc dt s n)
    refine ⟨by rw [h1]; simp [velocityNode, hm], fun a j => ?_⟩
    rw [h2]
    simp only [velocityNode, setAt, value_eq, List.mem_cons]
    by_cases h3 : a ∈ l ∧ j = bc.coordinate
    · rw [if_pos h3, if_pos ⟨Or.inr h3.1, h3.2⟩]
    · rw [if_neg h3]
      by_cases h4 : a = n ∧ j = bc.coordinate
      · rw [if_pos h4, if_pos ⟨Or.inl h4.1, h4.2⟩, h4.1]
      · rw [if_neg h4, if_neg]
        rintro ⟨h5 | h5, h6⟩
        · exact h4 ⟨h5, h6⟩
        · exact h3 ⟨h5, h6⟩

theorem displacement_fold (m : Manager K) (hm : m.scheme ≠ .quasistatic) (bc : BoundaryCondition K) (X : Nodal K) (tc dt : K)
    (l : List ℕ) (s : Kin K) :
    (l.foldl (displacementNode m bc X tc dt) s).displacement = s.displacement ∧ ∀ a j,
      (l.foldl (displacementNode m bc X tc dt) s).velocity a j
        = if a ∈ l ∧ j = bc.coordinate then (prescribed m bc X a tc - s.displacement a j) / dt else s.velocity a j := by
  induction l generalizing s with
  | nil => simp
  | cons n l ih =>
    rw [List.foldl_cons]
    obtain ⟨h1, h2⟩ := ih (displacementNode m bc X tc dt s n)
    have hd : (displacementNode m bc X tc dt s n).displacement = s.displacement := by simp [displacementNode, hm]
    refine ⟨by rw [h1, hd], fun a j => ?_⟩
    rw [h2, hd]
    simp only [displacementNode, setAt, value_eq, List.mem_cons]
    by_cases h3 : a ∈ l ∧ j = bc.coordinate
    · rw [if_pos h3, if_pos ⟨Or.inr h3.1, h3.2⟩]
    · rw [if_neg h3]
      by_cases h4 : a = n ∧ j = bc.coordinate
      · rw [if_pos h4, if_pos ⟨Or.inl h4.1, h4.2⟩, h4.1, h4.2]
      · rw [if_neg h4, if_neg]
        rintro ⟨h5 | h5, h6⟩
        · exact h4 ⟨h5, h6⟩
        · exact h3 ⟨h5, h6⟩

theorem initial_fold (m : Manager K) (bc : BoundaryCondition K) (X : Nodal K) (l : List ℕ) (st : Nodal K × List (Nodal K)) (a j : ℕ) :
    (l.foldl (initialNode m bc X) st).1 a j
      = if a ∈ l ∧ j = bc.coordinate then prescribed m bc X a 0 else st.1 a j := by
  induction l generalizing st with
  | nil => simp
  | cons n l ih =>
    rw [List.foldl_cons, ih]
    simp only [initialNode, setAt, value_eq, List.mem_cons]
    by_cases h3 : a ∈ l ∧ j = bc.coordinate
    · rw [if_pos h3, if_pos ⟨Or.inr h3.1, h3.2⟩]
    · rw [if_neg h3]
      by_cases h4 : a = n ∧ j = bc.coordinate
      · rw [if_pos h4, if_pos ⟨Or.inl h4.1, h4.2⟩, h4.1]
      · rw [if_neg h4, if_neg]
        rintro ⟨h5 | h5, h6⟩
        · exact h4 ⟨h5, h6⟩
        · exact h3 ⟨h5, h6⟩

/-- Other units and another numbering, same axes, same frame. -/
def units (length time density : K) (origin : Fin 3 → K) (node : ℕ → ℕ) (nodes : ℕ) : Change K where
  length := length
  time := time
  stress := density * (length / time) ^ 2
  density := density
  axes := 1
  origin := origin
  drift := 0
  node := node
  nodes := nodes

theorem units_valid (length time density : K) (origin : Fin 3 → K) (node : ℕ → ℕ) (nodes : ℕ) (hl : 0 < length) (ht : 0 < time)
    (hd : 0 < density) (hn : Function.Injective node) : (units length time density origin node nodes).Valid :=
  ⟨hl, ht, hd, rfl, by simp [units], by simp [units], hn⟩

theorem units_vec (length time density : K) (origin : Fin 3 → K) (node : ℕ → ℕ) (nodes : ℕ) (a : K) (x : Nodal K) (n : ℕ) (d : Fin 3) :
    (units length time density origin node nodes).vec a x n d = a * x n d := by
  unfold Change.vec units
  simp only
  rw [Finset.sum_eq_single d]
  · rw [Matrix.one_apply_eq, one_mul]
  · intro k _ hk; rw [Matrix.one_apply_ne (Ne.symm hk), zero_mul]
  · intro h; exact absurd (Finset.mem_univ d) h

theorem units_fields (length time density : K) (origin : Fin 3 → K) (node : ℕ → ℕ) (nodes : ℕ) (t : K) (u v u' v' : Nodal K) :
    (units length time density origin node nodes).Fields t u v u' v' ↔
      ∀ n < nodes, ∀ d : Fin 3, u' (node n) d = length * u n d ∧ v' (node n) d = length / time * v n d := by
  unfold Change.Fields
  simp only [units_vec]
  simp [units]

/-- Corresponding kinematic conditions do corresponding things. -/
theorem kinematics_units (length time density : K) (origin : Fin 3 → K) (node : ℕ → ℕ) (nodes : ℕ) (ht : 0 < time)
    (c c' : Config K) (hm : c.manager.scheme ≠ .quasistatic) (hm' : c'.manager.scheme ≠ .quasistatic)
    (h : BoundaryCondition K → BoundaryCondition K)
    (hc : SameConditions c.manager c'.manager h c.X c'.X node nodes length time) :
    (units length time density origin node nodes).Kinematics c c' := by
  intro tc tp t u v u' v' hf
  rw [units_fields] at hf ⊢
  change ∀ n < nodes, ∀ d : Fin 3, (kinematic c' (time * tc) (time * tp) u' v').1 (node n) d = length * (kinematic c tc tp u v).1 n d ∧
    (kinematic c' (time * tc) (time * tp) u' v').2 (node n) d = length / time * (kinematic c tc tp u v).2 n d
  unfold kinematic applyKinematicBC
  simp only
  rw [hc.list]
  have key : ∀ (l : List (BoundaryCondition K)), (∀ bc ∈ l, bc ∈ c.manager.bcs) → ∀ (s s' : Kin K),
      (∀ n < nodes, ∀ d : Fin 3, s'.displacement (node n) d = length * s.displacement n d ∧
        s'.velocity (node n) d = length / time * s.velocity n d) →
      ∀ n < nodes, ∀ d : Fin 3, ((l.map h).foldl (kinematicBc c'.manager c'.X (time * tc) (time * tc - time * tp)) s').displacement (node n) d
          = length * (l.foldl (kinematicBc c.manager c.X tc (tc - tp)) s).displacement n d ∧
        ((l.map h).foldl (kinematicBc c'.manager c'.X (time * tc) (time * tc - time * tp)) s').velocity (node n) d
          = length / time * (l.foldl (kinematicBc c.manager c.X tc (tc - tp)) s).velocity n d := by
    intro l
    induction l with
    | nil => intro _ s s' hs; exact hs
    | cons bc l ih =>
      intro hl s s' hs
      rw [List.map_cons, List.foldl_cons, List.foldl_cons]
      refine ih (fun b hb => hl b (List.mem_cons_of_mem _ hb)) _ _ ?_
      have hbc := hl bc List.mem_cons_self
      intro n hn d
      have hdt : time * tc - time * tp > 0 ↔ tc - tp > 0 := by
        rw [← mul_sub]; exact mul_pos_iff_of_pos_left ht
      have hmem : (node n ∈ c'.manager.nodeSet (h bc) ∧ (d : ℕ) = (h bc).coordinate) ↔
          (n ∈ c.manager.nodeSet bc ∧ (d : ℕ) = bc.coordinate) := by
        rw [hc.sets bc hbc n hn, hc.coordinate bc hbc]
      unfold kinematicBc
      rw [hc.type bc hbc]
      by_cases h1 : bc.type = .prescribedVelocity
      · rw [if_pos h1, if_pos h1]
        obtain ⟨a1, a2⟩ := velocity_fold c.manager hm bc c.X tc (tc - tp) (c.manager.nodeSet bc) s
        obtain ⟨b1, b2⟩ := velocity_fold c'.manager hm' (h bc) c'.X (time * tc) (time * tc - time * tp) (c'.manager.nodeSet (h bc)) s'
        rw [a1, a2, b1, b2]
        refine ⟨(hs n hn d).1, ?_⟩
        by_cases h2 : n ∈ c.manager.nodeSet bc ∧ (d : ℕ) = bc.coordinate
        · rw [if_pos h2, if_pos (hmem.mpr h2), hc.velocity bc hbc (Or.inl h1) n hn]
        · rw [if_neg h2, if_neg (fun h3 => h2 (hmem.mp h3)), (hs n hn d).2]
      · rw [if_neg h1, if_neg h1]
        by_cases h3 : bc.type = .prescribedDisplacement ∧ tc - tp > 0
        · rw [if_pos h3, if_pos ⟨h3.1, hdt.mpr h3.2⟩]
          obtain ⟨a1, a2⟩ := displacement_fold c.manager hm bc c.X tc (tc - tp) (c.manager.nodeSet bc) s
          obtain ⟨b1, b2⟩ := displacement_fold c'.manager hm' (h bc) c'.X (time * tc) (time * tc - time * tp)
            (c'.manager.nodeSet (h bc)) s'
          rw [a1, a2, b1, b2]
          refine ⟨(hs n hn d).1, ?_⟩
          by_cases h2 : n ∈ c.manager.nodeSet bc ∧ (d : ℕ) = bc.coordinate
          · rw [if_pos h2, if_pos (hmem.mpr h2), hc.displacement bc hbc h3.1 n hn, (hs n hn d).1]
            have ht' := ht.ne'
            have hd' := h3.2.ne'
            rw [← mul_sub, ← mul_sub]
            field_simp
          · rw [if_neg h2, if_neg (fun h4 => h2 (hmem.mp h4)), (hs n hn d).2]
        · rw [if_neg h3, if_neg (fun h4 => h3 ⟨h4.1, hdt.mp h4.2⟩)]
          exact hs n hn d
  exact key c.manager.bcs (fun _ hb => hb) _ _ hf

/-- Corresponding initial conditions give corresponding starts. -/
theorem start_units (length time density : K) (origin : Fin 3 → K) (node : ℕ → ℕ) (nodes : ℕ) (ht : 0 < time)
    (c c' : Config K) (hm : c.manager.scheme ≠ .quasistatic) (hm' : c'.manager.scheme ≠ .quasistatic)
    (h : BoundaryCondition K → BoundaryCondition K)
    (hc : SameConditions c.manager c'.manager h c.X c'.X node nodes length time) (h0 : c'.initialTime = time * c.initialTime) :
    (units length time density origin node nodes).Same c.initialTime (start c ()) (start c' ()) := by
  have hini : ∀ n < nodes, ∀ d : Fin 3, (applyInitialConditions c'.manager c'.X (fun _ _ => 0) []).1 (node n) d
      = length / time * (applyInitialConditions c.manager c.X (fun _ _ => 0) []).1 n d := by
    rw [applyInitialConditions_eq, applyInitialConditions_eq, hc.list]
    have key : ∀ (l : List (BoundaryCondition K)), (∀ bc ∈ l, bc ∈ c.manager.bcs) → ∀ (s s' : Nodal K × List (Nodal K)),
        (∀ n < nodes, ∀ d : Fin 3, s'.1 (node n) d = length / time * s.1 n d) →
        ∀ n < nodes, ∀ d : Fin 3, ((l.map h).foldl (initialBc c'.manager c'.X) s').1 (node n) d
          = length / time * (l.foldl (initialBc c.manager c.X) s).1 n d := by
      intro l
      induction l with
      | nil => intro _ s s' hs; exact hs
      | cons bc l ih =>
        intro hl s s' hs
        rw [List.map_cons, List.foldl_cons, List.foldl_cons]
        refine ih (fun b hb => hl b (List.mem_cons_of_mem _ hb)) _ _ ?_
        have hbc := hl bc List.mem_cons_self
        intro n hn d
        unfold initialBc
        rw [hc.type bc hbc]
        by_cases h1 : bc.type = .initialVelocity
        · rw [if_pos h1, if_pos h1, initial_fold, initial_fold, hc.coordinate bc hbc]
          by_cases h2 : n ∈ c.manager.nodeSet bc ∧ (d : ℕ) = bc.coordinate
          · rw [if_pos h2, if_pos ⟨(hc.sets bc hbc n hn).mpr h2.1, h2.2⟩]
            have := hc.velocity bc hbc (Or.inr h1) n hn 0
            rw [mul_zero] at this
            exact this
          · rw [if_neg h2, if_neg (fun h4 => h2 ⟨(hc.sets bc hbc n hn).mp h4.1, h4.2⟩), hs n hn d]
        · rw [if_neg h1, if_neg h1]
          exact hs n hn d
    exact key c.manager.bcs (fun _ hb => hb) _ _ (fun _ _ _ => by simp)
  have hkin := kinematics_units length time density origin node nodes ht c c' hm hm' h hc 0 0 0 (fun _ _ => 0)
    (applyInitialConditions c.manager c.X (fun _ _ => 0) []).1 (fun _ _ => 0)
    (applyInitialConditions c'.manager c'.X (fun _ _ => 0) []).1
    ((units_fields ..).mpr fun n hn d => ⟨by simp, hini n hn d⟩)
  have hf : (units length time density origin node nodes).Fields (time * (c.initialTime - c.initialTime)) (start c ()).displacement
      (start c ()).velocity (start c' ()).displacement (start c' ()).velocity := by
    rw [units_fields] at hkin ⊢
    rw [show (units length time density origin node nodes).time * (0 : K) = 0 from mul_zero _] at hkin
    exact hkin
  have hacc : ∀ n < nodes, ∀ d : Fin 3, (start c' ()).acceleration (node n) d
      = (units length time density origin node nodes).vec (length / time ^ 2) (start c ()).acceleration n d := by
    intro n hn d
    rw [units_vec]
    simp [start]
  exact ⟨h0, hf, hacc, List.Forall₂.cons ⟨h0, hf, hacc⟩ List.Forall₂.nil⟩

end NimbleSM.Integrate
