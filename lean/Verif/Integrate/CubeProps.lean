import Verif.Integrate.StabilityProps
import Verif.Assembly.ParallelProps
import Verif.Element.HexLength
import Verif.Element.FaceProps
import Verif.Material.MaterialProps

/-!
# C111: the reported maximum stable time step

Before the first step the code prints an "approximate maximum stable time step" and warns when the user's step is larger
(integrators/explicit_time_integrator.cc:125, 156-163).  The step is computed from the sound speed `√(bulk / density)`
(nimble_block_base.cc:51-84), which leaves out the shear modulus.  For one cubic element of linear elastic material that can
only be stretched along one axis the true limit is `h / √((bulk + 4/3 shear) / density)`: below it runs stay bounded
(`guided_run_stable_partial`), above it every run aborts (`guided_run_aborts`); the reported step is above it for every
material (`reported_step_unstable`), so a run at the reported step, without any warning, blows up.
-/

open scoped BigOperators

namespace NimbleSM.Integrate

open NimbleSM.Bc NimbleSM.Assembly NimbleSM.Hex NimbleSM.Constitutive NimbleSM.Tensor

variable {K : Type*} [Field K] [LinearOrder K] [IsStrictOrderedRing K]

/-- A block with one element of linear elastic material. -/
def cubeBlk (m : Material K) : Blk K where
  density := m.density
  bulk := m.bulk
  law := fun F => some (elasticStress m F)
  numElem := 1
  conn := fun k => k

/-- The reference positions of the nodes 0 to 7 are the corners of the cube `[0, h]³`. -/
def IsCube (X : Nodal K) (h : K) : Prop := ∀ (n : Fin 8) (d : Fin 3), X n d = h * (1 + corner n d) / 2

/-- The displacements of the nodes 0 to 7 stretch the cube along the first axis by `2 q`. -/
def Stretched (u : Nodal K) (q : K) : Prop := ∀ n : Fin 8, u n 0 = corner n 0 * q ∧ u n 1 = 0 ∧ u n 2 = 0

/-! ## The element -/

theorem gauss_gradN (val : K) (n : Fin 8) (d : Fin 3) : ∑ p : Fin 8, gradN n (gaussPt val p) d = corner n d := by
  have e0 : (Finset.univ.erase 0 : Finset (Fin 3)) = {1, 2} := by decide
  have e1 : (Finset.univ.erase 1 : Finset (Fin 3)) = {0, 2} := by decide
  have e2 : (Finset.univ.erase 2 : Finset (Fin 3)) = {0, 1} := by decide
  rw [Fin.sum_univ_eight]
  fin_cases n <;> fin_cases d <;>
    simp [gradN, gaussPt, corner, e0, e1, e2, Finset.prod_pair] <;> ring

theorem gauss_N (val : K) (n : Fin 8) : ∑ p : Fin 8, N n (gaussPt val p) = 1 := by
  rw [Fin.sum_univ_eight]
  fin_cases n <;> simp [N, gaussPt, corner, Fin.prod_univ_three] <;> ring

section Cube
variable (val : K) (m : Material K) (X u : Nodal K) (h q : K)

theorem cube_reference (hX : IsCube X h) (n : Fin 8) (d : Fin 3) :
    gather (cubeBlk m) 0 (flat X) (3 * n + d) = (fun _ : Fin 3 => h / 2) d * corner n d + (fun _ : Fin 3 => h / 2) d := by
  rw [gather_val _ _ _ n.isLt]
  have : (cubeBlk m).nodeId 0 n = n := by simp [Blk.nodeId, cubeBlk]
  rw [this, flat_apply, hX]
  ring

theorem cube_current (hX : IsCube X h) (hu : Stretched u q) (n : Fin 8) (d : Fin 3) :
    gather (cubeBlk m) 0 (fun k => flat X k + flat u k) (3 * n + d)
      = ![h / 2 + q, h / 2, h / 2] d * corner n d + (fun _ : Fin 3 => h / 2) d := by
  rw [gather_val _ _ _ n.isLt]
  have : (cubeBlk m).nodeId 0 n = n := by simp [Blk.nodeId, cubeBlk]
  rw [this, flat_apply, flat_apply, hX]
  obtain ⟨h0, h1, h2⟩ := hu n
  fin_cases d
  · simp [h0]; ring
  · simp [h1]; ring
  · simp [h2]; ring

/-- The element force exists exactly while the cube is not turned inside out. -/
theorem cube_force_defined (hh : 0 < h) (hX : IsCube X h) (hu : Stretched u q) :
    (∃ f, elementForce val (cubeBlk m) (flat X) (flat u) 0 = some f) ↔ 0 < h + 2 * q := by
  have hJ : ∀ p, Jac val (gather (cubeBlk m) 0 (flat X)) p = Matrix.diagonal fun _ => h / 2 :=
    Jac_box val _ _ _ (cube_reference m X h hX)
  have hJ' : ∀ p, Jac val (gather (cubeBlk m) 0 fun k => flat X k + flat u k) p = Matrix.diagonal ![h / 2 + q, h / 2, h / 2] :=
    Jac_box val _ _ _ (cube_current m X u h q hX hu)
  constructor
  · rintro ⟨f, hf⟩
    unfold elementForce at hf
    simp only [Option.bind_eq_bind, Option.bind_eq_some_iff] at hf
    obtain ⟨F, -, σ, -, hf⟩ := hf
    have h1 := (nodal_forces_defined val _ σ).mp ⟨f, hf⟩ 0
    rw [hJ', det_box] at h1
    simp only [Matrix.cons_val_zero, Matrix.cons_val_one, Matrix.cons_val_two, Matrix.head_cons, Matrix.tail_cons] at h1
    have h2 : 0 < h / 2 * (h / 2) := by positivity
    have h3 : 0 < (h / 2 + q) * (h / 2 * (h / 2)) := by
      have : (h / 2 + q) * (h / 2 * (h / 2)) = (h / 2 + q) * (h / 2) * (h / 2) := by ring
      rw [this]; exact h1
    have := pos_of_mul_pos_left h3 h2.le
    linarith
  · intro hpos
    apply elementForce_defined
    · intro F; exact ⟨_, rfl⟩
    · intro p; rw [hJ, det_box]; positivity
    · intro p
      rw [hJ', det_box]
      simp only [Matrix.cons_val_zero, Matrix.cons_val_one, Matrix.cons_val_two, Matrix.head_cons, Matrix.tail_cons]
      have : 0 < h / 2 + q := by linarith
      positivity

/-- The force along the axis is exactly linear in the stretch, with the P-wave modulus `k + 4g/3`. -/
theorem cube_force (hh : 0 < h) (hX : IsCube X h) (hu : Stretched u q) (f : ℕ → Fin 3 → K)
    (hf : elementForce val (cubeBlk m) (flat X) (flat u) 0 = some f) (n : Fin 8) :
    f n 0 = - ((m.bulk + 4 / 3 * m.shear) * h / 2) * (corner n 0 * q) := by
  have hpos := (cube_force_defined val m X u h q hh hX hu).mp ⟨f, hf⟩
  have hJ' : ∀ p, Jac val (gather (cubeBlk m) 0 fun k => flat X k + flat u k) p = Matrix.diagonal ![h / 2 + q, h / 2, h / 2] :=
    Jac_box val _ _ _ (cube_current m X u h q hX hu)
  unfold elementForce at hf
  simp only [Option.bind_eq_bind, Option.bind_eq_some_iff] at hf
  obtain ⟨F, hF, σ, hσ, hf⟩ := hf
  -- deformation gradient
  have hFp := deformation_gradient_affine val _ _ F (Matrix.diagonal ![1 + 2 * q / h, 1, 1]) ![-q, 0, 0] (by
    intro n hn d
    have e1 := cube_current m X u h q hX hu ⟨n, hn⟩ d
    have e2 := cube_reference m X h hX ⟨n, hn⟩
    rw [e1]
    simp only [e2, Fin.sum_univ_three, Matrix.diagonal_apply]
    fin_cases d
    · simp; field_simp; ring
    · simp
    · simp) hF
  -- stress
  have hS : ∀ (p : Fin 8) (e : Fin 3), symMat (fun c : Fin 6 => σ (6 * p + c)) e 0
      = if e = 0 then (m.bulk + 4 / 3 * m.shear) * (2 * q / h) else 0 := by
    intro p e
    obtain ⟨sig, hs, hval⟩ := (pointLoop_val _ 8 F _ σ hσ).1 p p.isLt
    have hsig : sig = elasticStress m fun i : Fin 9 => F (9 * p + i) := (Option.some.inj hs).symm
    have : (fun c : Fin 6 => σ (6 * p + c)) = elasticStress m fun i : Fin 9 => F (9 * p + i) := by
      funext c; rw [hval, hsig]
    rw [this, elastic_stress_spec, hFp]
    fin_cases e
    · simp [hooke, smallStrain, Matrix.trace, Fin.sum_univ_three, Matrix.diagonal_apply]; ring
    · simp [hooke, smallStrain, Matrix.trace, Fin.sum_univ_three, Matrix.diagonal_apply]
    · simp [hooke, smallStrain, Matrix.trace, Fin.sum_univ_three, Matrix.diagonal_apply]
  obtain ⟨inv, -, hinv, hval⟩ := computeNodalForces_val val _ σ f hf
  -- inverse Jacobian
  have hi : ∀ (p : Fin 8) (e : Fin 3), inv p e 0 = if e = 0 then 1 / (h / 2 + q) else 0 := by
    intro p e
    have h1 := hinv p
    rw [jacMat_spec, hJ'] at h1
    have h2 := congrFun (congrFun h1 e) 0
    rw [Matrix.diagonal_mul, Matrix.of_apply] at h2
    have hne : h / 2 + q ≠ 0 := by intro h0; linarith
    fin_cases e
    · have h3 : (h / 2 + q) * inv p 0 0 = 1 := by simpa [Matrix.one_apply] using h2
      simp only [Fin.zero_eta, if_true]
      rw [eq_div_iff hne]
      linarith
    · simpa [hh.ne'] using h2
    · simpa [hh.ne'] using h2
  rw [hval n n.isLt 0]
  have hterm : ∀ p : Fin 8, (Jac val (gather (cubeBlk m) 0 fun k => flat X k + flat u k) p).det *
      ∑ e : Fin 3, dNdx val (inv p) p n e * symMat (fun c : Fin 6 => σ (6 * p + c)) e 0
      = (m.bulk + 4 / 3 * m.shear) * h / 2 * q * gradN n (gaussPt val p) 0 := by
    intro p
    rw [hJ', det_box]
    simp only [hS, Fin.sum_univ_three, dNdx_eq, dtab_spec, hi]
    have hne : h / 2 + q ≠ 0 := by intro h0; linarith
    simp
    field_simp
  rw [Finset.sum_congr rfl fun p _ => hterm p, ← Finset.mul_sum, gauss_gradN]
  ring

/-- The lumped masses of the cube. -/
theorem cube_mass (hX : IsCube X h) (M : ℕ → K)
    (hM : computeLumpedMassField val (flat X) [cubeBlk m] (fun _ => 0) = some M) (n : Fin 8) :
    M n = m.density * h ^ 3 / 8 := by
  have hJ : ∀ p, Jac val (gather (cubeBlk m) 0 (flat X)) p = Matrix.diagonal fun _ => h / 2 :=
    Jac_box val _ _ _ (cube_reference m X h hX)
  rw [lumped_mass_sum val _ _ M _ hM]
  obtain ⟨me, hme⟩ : ∃ me, computeLumpedMass val (cubeBlk m).density (gather (cubeBlk m) 0 (flat X)) = some me := by
    rw [lumped_mass_defined]
    exact (lumped_mass_field_defined val _ _ _).mp ⟨M, hM⟩ (cubeBlk m) (by simp) 0 (by simp [cubeBlk])
  have hn : (cubeBlk m).numElem = 1 := rfl
  simp only [List.map_cons, List.map_nil, List.sum_cons, List.sum_nil, hn, List.range_one, hme, Option.elim_some, add_zero,
    zero_add]
  have : ∀ c, (cubeBlk m).nodeId 0 c = c := fun c => by simp [Blk.nodeId, cubeBlk]
  simp only [this]
  rw [Finset.sum_ite_eq' (Finset.range 8) n.val me, if_pos (Finset.mem_range.mpr n.isLt)]
  rw [(computeLumpedMass_val val _ _).2 me hme n]
  simp only [hJ, det_box, ← Finset.sum_mul, gauss_N]
  simp only [cubeBlk]
  ring

end Cube

/-! ## The run -/

/-- A cube whose nodes move along the first axis only: the other displacements are prescribed to be zero, the first
ones are free. -/
structure Guided (c : Config K) : Prop where
  scheme : c.manager.scheme ≠ .quasistatic
  free : ∀ n : Fin 8, Free c.manager n 0
  held : ∀ (n : Fin 8) (i : ℕ), i = 1 ∨ i = 2 → ∃ bc, Governs c.manager bc n i ∧
    bc.type = .prescribedDisplacement ∧ bc.magnitude = .inl 0

/-- `4 (k + 4g/3) / (ρ h²)`, the square of the frequency of the guided cube. -/
def guidedRate (m : Material K) (h : K) : K := 4 * (m.bulk + 4 / 3 * m.shear) / (m.density * h ^ 2)

/-- The state of a guided run after `k` steps. -/
def GuidedState (m : Material K) (c : Config K) (h v0 : K) (k : ℕ) (s : Sim K Unit) : Prop :=
  Stretched s.displacement (amplitude c.dt (c.dt ^ 2 * guidedRate m h / 2) v0 k).1 ∧
  ∀ n : Fin 8, s.velocity n 0 = (amplitude c.dt (c.dt ^ 2 * guidedRate m h / 2) v0 k).2 * corner n 0 ∧
    s.acceleration n 0 = - guidedRate m h * (amplitude c.dt (c.dt ^ 2 * guidedRate m h / 2) v0 k).1 * corner n 0

section Run
variable (val : K) (m : Material K) (c : Config K) (hg : Guided c) (h : K) (hh : 0 < h)
  (hX : IsCube c.X h) (hM : computeLumpedMassField val (flat c.X) [cubeBlk m] (fun _ => 0) = some c.mass)
  (hrho : 0 < m.density) (hdt : 0 < c.dt) (v0 : K)
include hg hh hX hM hrho hdt

omit [LinearOrder K] [IsStrictOrderedRing K] hg hh hX hM hrho hdt in
theorem serial_cube : serial [cubeBlk m] = [(cubeBlk m, [0])] := rfl

theorem guided_state_step (k : ℕ) (s s' : Sim K Unit) (hs : GuidedState m c h v0 k s)
    (h2 : step c (meshPhysics val c.X (serial [cubeBlk m])) k s = some s') :
    GuidedState m c h v0 (k + 1) s' ∧ 0 < h + 2 * (amplitude c.dt (c.dt ^ 2 * guidedRate m h / 2) v0 (k + 1)).1 := by
  obtain ⟨i1, i2⟩ := hs
  have hu : Stretched s'.displacement (amplitude c.dt (c.dt ^ 2 * guidedRate m h / 2) v0 (k + 1)).1 := by
    intro n
    refine ⟨?_, ?_, ?_⟩
    · rw [(free_dof_step c hg.scheme _ k _ _ h2 n 0 (hg.free n)).1, (i1 n).1, (i2 n).1, (i2 n).2]
      simp only [amplitude]
      ring
    · obtain ⟨bc, hgov, hty, hmag⟩ := hg.held n 1 (Or.inl rfl)
      rw [(step_displacement c hg.scheme hdt _ k _ _ h2 bc n _ hgov).1 hty]
      unfold prescribed
      rw [hmag]
    · obtain ⟨bc, hgov, hty, hmag⟩ := hg.held n 2 (Or.inr rfl)
      rw [(step_displacement c hg.scheme hdt _ k _ _ h2 bc n _ hgov).1 hty]
      unfold prescribed
      rw [hmag]
  obtain ⟨F, st, hF, -, ha⟩ := step_acceleration c hg.scheme _ k _ _ h2 rfl
  simp only [meshPhysics, Option.map_eq_some_iff, Prod.mk.injEq] at hF
  obtain ⟨G, hG, hFG, -⟩ := hF
  rw [serial_cube] at hG
  obtain ⟨f, hf⟩ := (internal_force_defined val _ _ _).mp ⟨G, hG⟩ (cubeBlk m, [0]) (by simp) 0 (by simp)
  have hq := (cube_force_defined val m c.X _ h _ hh hX hu).mp ⟨f, hf⟩
  have hacc : ∀ n : Fin 8, s'.acceleration n 0 =
      - guidedRate m h * (amplitude c.dt (c.dt ^ 2 * guidedRate m h / 2) v0 (k + 1)).1 * corner n 0 := by
    intro n
    have hsum := internal_force_sum val _ _ G _ hG n 0
    have hid : ∀ e, (cubeBlk m).nodeId 0 e = e := fun e => by simp [Blk.nodeId, cubeBlk]
    simp only [List.map_cons, List.map_nil, List.sum_cons, List.sum_nil, hf, Option.elim_some, add_zero, hid] at hsum
    rw [Finset.sum_ite_eq' (Finset.range 8) n.val (fun e => f e 0), if_pos (Finset.mem_range.mpr n.isLt),
      cube_force val m c.X _ h _ hh hX hu f hf n] at hsum
    have hmass := cube_mass val m c.X h hX c.mass hM n
    rw [ha, ← hFG, hmass]
    simp only [meshPhysics, add_zero]
    have hz3 : (3 * n.val + ((0 : Fin 3) : ℕ)) = 3 * n.val + 0 := rfl
    rw [hz3] at hsum
    simp only [add_zero] at hsum
    rw [hsum, guidedRate]
    have hne : m.density ≠ 0 := hrho.ne'
    have hne' : h ≠ 0 := hh.ne'
    field_simp
    ring
  refine ⟨⟨hu, fun n => ⟨?_, hacc n⟩⟩, hq⟩
  rw [(free_dof_step c hg.scheme _ k _ _ h2 n 0 (hg.free n)).2, (i2 n).1, (i2 n).2, hacc n]
  have hne : c.dt ≠ 0 := hdt.ne'
  simp only [amplitude]
  field_simp
  ring

theorem guided_state (hstart : ∀ n : Fin 8, (start c ()).velocity n 0 = v0 * corner n 0) (k : ℕ) (s : Sim K Unit)
    (hl : loop c (meshPhysics val c.X (serial [cubeBlk m])) k (start c ()) = some s) :
    GuidedState m c h v0 k s ∧ (0 < k → 0 < h + 2 * (amplitude c.dt (c.dt ^ 2 * guidedRate m h / 2) v0 k).1) := by
  induction k generalizing s with
  | zero =>
    rw [loop_zero] at hl; cases hl
    have hu : (start c ()).displacement = fun _ _ => 0 := start_displacement c hg.scheme ()
    refine ⟨⟨fun n => by rw [hu]; simp [amplitude], fun n => ⟨by rw [hstart]; rfl, ?_⟩⟩, fun h0 => absurd h0 (by omega)⟩
    simp [start, amplitude]
  | succ k ih =>
    rw [loop_succ, Option.bind_eq_some_iff] at hl
    obtain ⟨s1, h1, h2⟩ := hl
    obtain ⟨r1, r2⟩ := guided_state_step val m c hg h hh hX hM hrho hdt v0 k s1 s (ih s1 h1).1 h2
    exact ⟨r1, fun _ => r2⟩

/-- A step of a guided run is possible if it does not turn the cube inside out. -/
theorem guided_step_defined (k : ℕ) (s : Sim K Unit) (hs : GuidedState m c h v0 k s)
    (hq : 0 < h + 2 * (amplitude c.dt (c.dt ^ 2 * guidedRate m h / 2) v0 (k + 1)).1) :
    ∃ s', step c (meshPhysics val c.X (serial [cubeBlk m])) k s = some s' := by
  -- the same step without forces
  let dry : Physics K Unit := { meshPhysics val c.X (serial [cubeBlk m]) with internal := fun _ _ _ _ _ => some (fun _ _ => 0, ()) }
  obtain ⟨s', hs'⟩ : ∃ s', step c dry k s = some s' := by
    unfold step
    simp only [contactForce, dry, meshPhysics]
    exact ⟨_, rfl⟩
  obtain ⟨i1, i2⟩ := hs
  have hu : Stretched s'.displacement (amplitude c.dt (c.dt ^ 2 * guidedRate m h / 2) v0 (k + 1)).1 := by
    intro n
    refine ⟨?_, ?_, ?_⟩
    · rw [(free_dof_step c hg.scheme _ k _ _ hs' n 0 (hg.free n)).1, (i1 n).1, (i2 n).1, (i2 n).2]
      simp only [amplitude]
      ring
    · obtain ⟨bc, hgov, hty, hmag⟩ := hg.held n 1 (Or.inl rfl)
      rw [(step_displacement c hg.scheme hdt _ k _ _ hs' bc n _ hgov).1 hty]
      unfold prescribed
      rw [hmag]
    · obtain ⟨bc, hgov, hty, hmag⟩ := hg.held n 2 (Or.inr rfl)
      rw [(step_displacement c hg.scheme hdt _ k _ _ hs' bc n _ hgov).1 hty]
      unfold prescribed
      rw [hmag]
  obtain ⟨f, hf⟩ := (cube_force_defined val m c.X _ h _ hh hX hu).mpr hq
  obtain ⟨G, hG⟩ := (internal_force_defined val (flat c.X) (flat s'.displacement) (serial [cubeBlk m])).mpr (by
    intro b hb e he
    rw [serial_cube, List.mem_singleton] at hb
    subst hb
    rw [List.mem_singleton] at he
    subst he
    exact ⟨f, hf⟩)
  have hd : s'.displacement = (kinematic c (s.time + c.dt) s.time (axpy (kinematic c (s.time + c.dt) s.time s.displacement
      (axpy s.velocity (0.5 * (s.time + c.dt - s.time)) s.acceleration)).1 (s.time + c.dt - s.time)
      (kinematic c (s.time + c.dt) s.time s.displacement
        (axpy s.velocity (0.5 * (s.time + c.dt - s.time)) s.acceleration)).2)
      (kinematic c (s.time + c.dt) s.time s.displacement
        (axpy s.velocity (0.5 * (s.time + c.dt - s.time)) s.acceleration)).2).1 := by
    unfold step at hs'
    simp only [contactForce, dry, meshPhysics, Option.bind_eq_bind, Option.bind_some, Option.some.injEq] at hs'
    subst hs'
    dsimp only
    split
    · exact applyKinematicBC_displacement c.manager hg.scheme _ _ c.X _
    · rfl
  unfold step
  simp only [contactForce, meshPhysics, Option.bind_eq_bind]
  rw [← hd, hG]
  exact ⟨_, rfl⟩

omit hg hh hX hM hrho hdt in
theorem loop_prefix {S : Type*} (c : Config K) (p : Physics K S) (n : ℕ) (s0 s : Sim K S) (hl : loop c p n s0 = some s)
    (k : ℕ) (hk : k ≤ n) : ∃ s, loop c p k s0 = some s := by
  induction n generalizing s with
  | zero => obtain rfl : k = 0 := by omega
            exact ⟨_, rfl⟩
  | succ n ih =>
    rcases Nat.lt_or_ge n k with h | h
    · obtain rfl : k = n + 1 := by omega
      exact ⟨s, hl⟩
    · rw [loop_succ, Option.bind_eq_some_iff] at hl
      obtain ⟨s1, h1, -⟩ := hl
      exact ih s1 h1 h

/-- **C111, how the property fails.**  Above the limit `ρ h² < Δt² (k + 4g/3)` every run of the guided cube with an initial
velocity `v₀ ≠ 0` - however small - ends in an abort because the cube turns inside out, after at most `2 j + 2` steps if
`h ≤ j Δt |v₀|`. -/
theorem guided_run_aborts
    (hlim : m.density * h ^ 2 < c.dt ^ 2 * (m.bulk + 4 / 3 * m.shear))
    (hstart : ∀ n : Fin 8, (start c ()).velocity n 0 = v0 * corner n 0) (j : ℕ) (hj : h ≤ j * |c.dt * v0|) :
    loop c (meshPhysics val c.X (serial [cubeBlk m])) (2 * j + 2) (start c ()) = none := by
  by_contra hno
  obtain ⟨s, hs⟩ := Option.ne_none_iff_exists'.mp hno
  have hst := loop_prefix c _ _ _ s hs
  set z := c.dt ^ 2 * guidedRate m h / 2 with hzdef
  have hz : 1 ≤ z - 1 := by
    have hp : 0 < m.density * h ^ 2 := by positivity
    have : 2 ≤ z := by
      rw [hzdef, guidedRate]
      rw [le_div_iff₀ two_pos, mul_div_assoc', le_div_iff₀ hp]
      linarith
    linarith
  have hbig : ∀ k, j ≤ k → 1 ≤ k → k ≤ 2 * j + 2 → (-1) ^ (k + 1) * (c.dt * v0) = - |c.dt * v0| → False := by
    intro k hjk hk hk2 hs
    obtain ⟨sk, hsk⟩ := hst k hk2
    have h1 := (guided_state val m c hg h hh hX hM hrho hdt v0 hstart k _ hsk).2 hk
    rw [← hzdef, amplitude_eq c.dt z v0 hdt.ne' k, hs] at h1
    obtain ⟨g1, -⟩ := growth_ge (z - 1) hz k
    have hjk' : (j : K) ≤ k := Nat.cast_le.mpr hjk
    have h2 : h ≤ |c.dt * v0| * growth (z - 1) k := by
      calc h ≤ j * |c.dt * v0| := hj
        _ ≤ growth (z - 1) k * |c.dt * v0| := mul_le_mul_of_nonneg_right (hjk'.trans g1) (abs_nonneg _)
        _ = _ := by ring
    linarith
  rcases le_or_gt 0 (c.dt * v0) with hs | hs
  · refine hbig (2 * (j + 1)) (by omega) (by omega) (by omega) ?_
    rw [abs_of_nonneg hs, pow_succ, pow_mul]; simp
  · refine hbig (2 * j + 1) (by omega) (by omega) (by omega) ?_
    rw [abs_of_neg hs, show 2 * j + 1 + 1 = 2 * (j + 1) by ring, pow_mul]; simp

omit hg hh hX hM hrho hdt [LinearOrder K] [IsStrictOrderedRing K] in
theorem amplitude_energy [CharZero K] (dt lam v0 : K) (hdt : dt ≠ 0) (k : ℕ) :
    (amplitude dt (dt ^ 2 * lam / 2) v0 k).2 ^ 2
      + lam * (1 - dt ^ 2 * lam / 4) * (amplitude dt (dt ^ 2 * lam / 2) v0 k).1 ^ 2 = v0 ^ 2 := by
  induction k with
  | zero => simp [amplitude]
  | succ k ih =>
    rw [← ih]
    simp only [amplitude]
    generalize (amplitude dt (dt ^ 2 * lam / 2) v0 k).1 = q
    generalize (amplitude dt (dt ^ 2 * lam / 2) v0 k).2 = r
    field_simp
    ring

/-- **C111, the part that holds for the guided cube.**  With the speed of the pressure wave in place of the one used by the code,
`Δt² (k + 4g/3) < ρ h²`, runs with a small enough initial velocity (`hv0`, which implies this bound on `Δt`) go on for ever,
and the stretch stays bounded. -/
theorem guided_run_stable_partial
    (hv0 : v0 ^ 2 * (m.density * h ^ 2) ^ 2 <
      (m.bulk + 4 / 3 * m.shear) * (m.density * h ^ 2 - c.dt ^ 2 * (m.bulk + 4 / 3 * m.shear)) * h ^ 2)
    (hstart : ∀ n : Fin 8, (start c ()).velocity n 0 = v0 * corner n 0) (k : ℕ) :
    ∃ s, loop c (meshPhysics val c.X (serial [cubeBlk m])) k (start c ()) = some s ∧
      ∀ n : Fin 8, |s.displacement n 0| < h / 2 := by
  have hp : 0 < m.density * h ^ 2 := by positivity
  have hq : ∀ k, |(amplitude c.dt (c.dt ^ 2 * guidedRate m h / 2) v0 k).1| < h / 2 := by
    intro k
    have he := amplitude_energy c.dt (guidedRate m h) v0 hdt.ne' k
    set q := (amplitude c.dt (c.dt ^ 2 * guidedRate m h / 2) v0 k).1
    set r := (amplitude c.dt (c.dt ^ 2 * guidedRate m h / 2) v0 k).2
    set P := m.bulk + 4 / 3 * m.shear with hP
    set R := m.density * h ^ 2 with hR
    have e1 : guidedRate m h * (1 - c.dt ^ 2 * guidedRate m h / 4) * R ^ 2 = 4 * (P * (R - c.dt ^ 2 * P)) := by
      rw [guidedRate, ← hP, ← hR]; field_simp
    have hA : 0 < P * (R - c.dt ^ 2 * P) := by
      have h1 : 0 ≤ v0 ^ 2 * R ^ 2 := by positivity
      have h2 : 0 < P * (R - c.dt ^ 2 * P) * h ^ 2 := lt_of_le_of_lt h1 hv0
      exact pos_of_mul_pos_left h2 (by positivity)
    have e2 : 4 * (P * (R - c.dt ^ 2 * P)) * q ^ 2 ≤ v0 ^ 2 * R ^ 2 := by
      have h3 : v0 ^ 2 * R ^ 2 = r ^ 2 * R ^ 2 + 4 * (P * (R - c.dt ^ 2 * P)) * q ^ 2 := by
        rw [← he, ← e1]; ring
      have h4 : 0 ≤ r ^ 2 * R ^ 2 := by positivity
      linarith
    have e3 : 4 * (P * (R - c.dt ^ 2 * P)) * q ^ 2 < 4 * (P * (R - c.dt ^ 2 * P)) * (h / 2) ^ 2 := by
      calc _ ≤ v0 ^ 2 * R ^ 2 := e2
        _ < _ := hv0
        _ = _ := by ring
    have e4 : q ^ 2 < (h / 2) ^ 2 := lt_of_mul_lt_mul_left e3 (by positivity)
    exact abs_lt_of_sq_lt_sq e4 (by positivity)
  have hex : ∃ s, loop c (meshPhysics val c.X (serial [cubeBlk m])) k (start c ()) = some s := by
    induction k with
    | zero => exact ⟨_, rfl⟩
    | succ k ih =>
      obtain ⟨s, hs⟩ := ih
      rw [loop_succ, hs, Option.bind_some]
      refine guided_step_defined val m c hg h hh hX hM hrho hdt v0 k s
        (guided_state val m c hg h hh hX hM hrho hdt v0 hstart k s hs).1 ?_
      have := abs_lt.mp (hq (k + 1))
      linarith
  obtain ⟨s, hs⟩ := hex
  refine ⟨s, hs, fun n => ?_⟩
  rw [((guided_state val m c hg h hh hX hM hrho hdt v0 hstart k s hs).1.1 n).1, abs_mul]
  have : |(corner n 0 : K)| = 1 := by fin_cases n <;> simp [corner]
  rw [this, one_mul]
  exact hq k

end Run

/-! ## What the code reports for the cube -/

theorem corner_cases (n : Fin 8) (d : Fin 3) : (corner n d : K) = 1 ∨ (corner n d : K) = -1 := by
  fin_cases n <;> fin_cases d <;> simp [corner]

theorem corner_differ (n m : Fin 8) (hnm : n ≠ m) : ∃ d : Fin 3, ((corner n d : K) - corner m d) ^ 2 = 4 := by
  have key : ∀ n m : Fin 8, n ≠ m → ∃ d : Fin 3, ((corner n d : ℚ) - corner m d) ^ 2 = 4 := by decide +kernel
  obtain ⟨d, hd⟩ := key n m hnm
  refine ⟨d, ?_⟩
  have hc : ∀ n : Fin 8, ((corner n d : ℚ) = 1 ∧ (corner n d : K) = 1) ∨ ((corner n d : ℚ) = -1 ∧ (corner n d : K) = -1) := by
    intro n; fin_cases n <;> fin_cases d <;> simp [corner]
  rcases hc n with ⟨a, b⟩ | ⟨a, b⟩ <;> rcases hc m with ⟨a', b'⟩ | ⟨a', b'⟩ <;> rw [a, a'] at hd <;> rw [b, b'] <;> first | (exfalso; norm_num at hd; done) | norm_num

/-- The characteristic length of the cube is its side. -/
theorem cube_length (x : ℕ → ℝ) (h dmax : ℝ) (hh : 0 < h)
    (hx : ∀ (n : Fin 8) (d : Fin 3), x (3 * n + d) = h / 2 * corner n d + h / 2)
    (hmax : h ≤ dmax) (hmax2 : 3 * h ^ 2 ≤ dmax) : computeCharacteristicLength Real.sqrt dmax x = h := by
  have hd : ∀ n m : Fin 8, dist2 x n m = h ^ 2 / 4 * ∑ d : Fin 3, ((corner n d : ℝ) - corner m d) ^ 2 := by
    intro n m
    rw [dist2, Finset.mul_sum]
    apply Finset.sum_congr rfl
    intro d _
    rw [hx, hx]; ring
  have hle : ∀ (n m : Fin 8) (d : Fin 3), ((corner n d : ℝ) - corner m d) ^ 2 ≤ 4 := by
    intro n m d
    rcases corner_cases (K := ℝ) n d with a | a <;> rcases corner_cases (K := ℝ) m d with b | b <;> rw [a, b] <;> norm_num
  have hbelow : Below dmax x := by
    constructor
    · intro n d
      rw [hx]
      rcases corner_cases (K := ℝ) n d with a | a <;> rw [a] <;> linarith
    · intro n m
      rw [hd]
      refine le_trans ?_ hmax2
      have : ∑ d : Fin 3, ((corner n d : ℝ) - corner m d) ^ 2 ≤ 12 := by
        rw [Fin.sum_univ_three]
        linarith [hle n m 0, hle n m 1, hle n m 2]
      nlinarith [sq_nonneg h]
  rw [characteristic_length_correct_partial Real.sqrt dmax x hbelow (fun d => ⟨6, by
    rw [hx]; fin_cases d <;> simp [corner] <;> positivity⟩), charLength]
  have hm : minDist2 x = h ^ 2 := by
    apply le_antisymm
    · refine (Finset.inf'_le _ (show ((0, 1) : Fin 8 × Fin 8) ∈ pairs by decide)).trans ?_
      have := hd 0 1
      have e : ∑ d : Fin 3, ((corner 0 d : ℝ) - corner 1 d) ^ 2 = 4 := by
        rw [Fin.sum_univ_three]; simp [corner]; norm_num
      rw [e] at this
      refine le_of_eq (this.trans ?_)
      ring
    · apply Finset.le_inf'
      rintro ⟨n, m⟩ hnm
      have hlt : n < m := (Finset.mem_filter.mp hnm).2
      obtain ⟨d, h4⟩ := corner_differ (K := ℝ) n m hlt.ne
      have := Finset.single_le_sum (f := fun d : Fin 3 => ((corner n d : ℝ) - corner m d) ^ 2)
        (fun d _ => sq_nonneg _) (Finset.mem_univ d)
      rw [h4] at this
      rw [hd]
      nlinarith [sq_nonneg h]
  rw [hm, Real.sqrt_sq hh.le]
  have hside : ∀ d : Fin 3, hi x d - lo x d = h := by
    intro d
    have h1 : hi x d = h := by
      apply le_antisymm
      · apply Finset.sup'_le
        intro n _
        rw [hx]
        rcases corner_cases (K := ℝ) n d with a | a <;> rw [a] <;> linarith
      · refine le_trans ?_ (Finset.le_sup' (fun n : Fin 8 => x (3 * n + d)) (Finset.mem_univ 6))
        have : (corner 6 d : ℝ) = 1 := by fin_cases d <;> simp [corner]
        simp only [hx, this]; linarith
    have h2 : lo x d = 0 := by
      apply le_antisymm
      · refine (Finset.inf'_le (fun n : Fin 8 => x (3 * n + d)) (Finset.mem_univ 0)).trans ?_
        have : (corner 0 d : ℝ) = -1 := by fin_cases d <;> simp [corner]
        simp only [hx, this]; linarith
      · apply Finset.le_inf'
        intro n _
        rw [hx]
        rcases corner_cases (K := ℝ) n d with a | a <;> rw [a] <;> linarith
    rw [h1, h2, sub_zero]
  have : (Finset.univ.inf' Finset.univ_nonempty fun d : Fin 3 => hi x d - lo x d) = h := by
    simp only [hside]
    exact Finset.inf'_const Finset.univ_nonempty h
  rw [this, min_self]

/-- The maximum stable time step that the code reports for the cube: side over `√(k/ρ)`. -/
theorem reported_step (m : Material ℝ) (X : Nodal ℝ) (h dmax : ℝ) (hh : 0 < h) (hX : IsCube X h)
    (hmax : h ≤ dmax) (hmax2 : 3 * h ^ 2 ≤ dmax) (hmax3 : h / Real.sqrt (m.bulk / m.density) < dmax) :
    criticalTimeStep Real.sqrt dmax (flat X) (fun _ => 0) [cubeBlk m] = h / Real.sqrt (m.bulk / m.density) := by
  have hlen : elementTimeStep Real.sqrt dmax (flat X) (fun _ => 0) (cubeBlk m) 0 = h / Real.sqrt (m.bulk / m.density) := by
    unfold elementTimeStep
    rw [cube_length _ h dmax hh _ hmax hmax2]
    · rfl
    · intro n d
      have : (fun k => flat X k + (0 : ℝ)) = flat X := by funext k; simp
      rw [this]
      exact cube_reference m X h hX n d
  obtain ⟨h1, h2, h3⟩ := critical_time_step_spec Real.sqrt dmax (flat X) (fun _ => 0) [cubeBlk m]
  have h4 := h1 (cubeBlk m) (by simp) 0 (by simp [cubeBlk])
  rw [hlen] at h4
  rcases h3 with h3 | ⟨b, hb, e, he, h3⟩
  · linarith
  · rw [List.mem_singleton] at hb
    subst hb
    obtain rfl : e = 0 := by simpa [cubeBlk] using he
    rw [h3, hlen]

/-! ## A run at the reported step -/

/-- The cube `[0, h]³` with lateral displacements prescribed to zero and the initial velocity `v₀ (2x/h - 1)` along the first
axis: `steps` steps of size `dt`, no output. -/
noncomputable def guidedCube (val : ℝ) (m : Material ℝ) (h v0 dt : ℝ) (steps : ℕ) : Config ℝ :=
  let X : Nodal ℝ := fun n d => if hnd : n < 8 ∧ d < 3 then h * (1 + corner ⟨n, hnd.1⟩ ⟨d, hnd.2⟩) / 2 else 0
  { manager :=
      { sets := fun i => if i = 1 then some [0, 1, 2, 3, 4, 5, 6, 7] else none
        bcs := [⟨.prescribedDisplacement, 1, 1, .inl 0⟩, ⟨.prescribedDisplacement, 1, 2, .inl 0⟩,
          ⟨.initialVelocity, 1, 0, .inr fun x _ _ _ => v0 * (2 * x / h - 1)⟩]
        dim := 3
        scheme := .explicit }
    X := X
    mass := (computeLumpedMassField val (flat X) [cubeBlk m] (fun _ => 0)).getD (fun _ => 0)
    initialTime := 0
    finalTime := dt * steps
    numSteps := steps
    frequency := 0 }

section Example
variable (val : ℝ) (m : Material ℝ) (h v0 dt : ℝ) (steps : ℕ)

theorem guidedCube_X : IsCube (guidedCube val m h v0 dt steps).X h := by
  intro n d
  simp [guidedCube, n.isLt, d.isLt]

theorem guidedCube_guided : Guided (guidedCube val m h v0 dt steps) := by
  have hs : (guidedCube val m h v0 dt steps).manager.sets 1 = some [0, 1, 2, 3, 4, 5, 6, 7] := by simp [guidedCube]
  refine ⟨by simp [guidedCube], ?_, ?_⟩
  · intro n b hb
    simp only [guidedCube, List.mem_cons, List.not_mem_nil, or_false] at hb
    rcases hb with rfl | rfl | rfl
    · rintro ⟨-, h, -⟩; exact absurd h (by decide)
    · rintro ⟨-, h, -⟩; exact absurd h (by decide)
    · rintro ⟨h, -⟩; exact absurd h (by simp [BoundaryCondition.isKinematic])
  · intro n i hi
    have hmem : (n : ℕ) ∈ [0, 1, 2, 3, 4, 5, 6, 7] := by have := n.isLt; simp; omega
    rcases hi with rfl | rfl
    · refine ⟨⟨.prescribedDisplacement, 1, 1, .inl 0⟩, ⟨[], _, rfl, ⟨by simp [BoundaryCondition.isKinematic], rfl, _, hs, hmem⟩, ?_⟩, rfl, rfl⟩
      intro b hb
      simp only [List.mem_cons, List.not_mem_nil, or_false] at hb
      rcases hb with rfl | rfl
      · rintro ⟨-, h, -⟩; exact absurd h (by decide)
      · rintro ⟨h, -⟩; exact absurd h (by simp [BoundaryCondition.isKinematic])
    · refine ⟨⟨.prescribedDisplacement, 1, 2, .inl 0⟩, ⟨[_], _, rfl, ⟨by simp [BoundaryCondition.isKinematic], rfl, _, hs, hmem⟩, ?_⟩, rfl, rfl⟩
      intro b hb
      simp only [List.mem_cons, List.not_mem_nil, or_false] at hb
      rcases hb with rfl
      rintro ⟨h, -⟩; exact absurd h (by simp [BoundaryCondition.isKinematic])

theorem guidedCube_mass (hh : 0 < h) : computeLumpedMassField val (flat (guidedCube val m h v0 dt steps).X) [cubeBlk m] (fun _ => 0)
    = some (guidedCube val m h v0 dt steps).mass := by
  obtain ⟨M, hM⟩ := (lumped_mass_field_defined val (flat (guidedCube val m h v0 dt steps).X) (fun _ => 0) [cubeBlk m]).mpr (by
    intro b hb e he p
    rw [List.mem_singleton] at hb
    subst hb
    obtain rfl : e = 0 := by simpa [cubeBlk] using he
    rw [Jac_box val _ _ _ (cube_reference m _ h (guidedCube_X val m h v0 dt steps)), det_box]
    positivity)
  have : (guidedCube val m h v0 dt steps).mass
    = (computeLumpedMassField val (flat (guidedCube val m h v0 dt steps).X) [cubeBlk m] (fun _ => 0)).getD (fun _ => 0) := rfl
  rw [this, hM, Option.getD_some]

theorem guidedCube_start (hh : 0 < h) (n : Fin 8) : (start (guidedCube val m h v0 dt steps) ()).velocity n 0 = v0 * corner n 0 := by
  have hfree := (guidedCube_guided val m h v0 dt steps).free n
  have h1 : (start (guidedCube val m h v0 dt steps) ()).velocity n 0 =
      (applyInitialConditions (guidedCube val m h v0 dt steps).manager (guidedCube val m h v0 dt steps).X (fun _ _ => 0) []).1 n 0 :=
    (free_dof_untouched (guidedCube val m h v0 dt steps).manager 0 0 (guidedCube val m h v0 dt steps).X _ n 0 hfree).2.1
  rw [h1, (initial_velocity_spec _ _ _ _ _ _).1 ⟨.initialVelocity, 1, 0, .inr fun x _ _ _ => v0 * (2 * x / h - 1)⟩ ?_]
  · have hX := guidedCube_X val m h v0 dt steps n 0
    unfold prescribed
    simp only [guidedCube] at hX ⊢
    simp only [if_true]
    rw [show ((0 : Fin 3) : ℕ) = 0 from rfl] at hX
    rw [hX]
    field_simp
    ring
  · refine ⟨[_, _], [], rfl, ⟨rfl, rfl, ?_⟩, by simp⟩
    simp [guidedCube, Manager.nodeSet]
    have := n.isLt
    omega

theorem guidedCube_start_le (hh : 0 < h) (hv0 : 0 ≤ v0) (n i : ℕ) :
    |(start (guidedCube val m h v0 dt steps) ()).velocity n i| ≤ v0 := by
  by_cases hn : n < 8 ∧ i = 0
  · obtain ⟨hn, rfl⟩ := hn
    have := guidedCube_start val m h v0 dt steps hh ⟨n, hn⟩
    simp only at this
    rw [this, abs_mul, abs_of_nonneg hv0]
    rcases corner_cases (K := ℝ) ⟨n, hn⟩ 0 with a | a <;> rw [a] <;> simp
  · have h1 : (start (guidedCube val m h v0 dt steps) ()).velocity =
        (applyInitialConditions (guidedCube val m h v0 dt steps).manager (guidedCube val m h v0 dt steps).X (fun _ _ => 0) []).1 := by
      simp [start, kinematic, applyKinematicBC, kinematicBc, guidedCube]
    rw [h1, (initial_velocity_spec _ _ _ _ _ _).2]
    · simpa using hv0
    · intro b hb
      simp only [guidedCube, List.mem_cons, List.not_mem_nil, or_false] at hb
      rcases hb with rfl | rfl | rfl
      · rintro ⟨h, -⟩; exact absurd h (by decide)
      · rintro ⟨h, -⟩; exact absurd h (by decide)
      · rintro ⟨-, h2, h3⟩
        apply hn
        simp [guidedCube, Manager.nodeSet] at h2 h3
        omega

theorem guidedCube_dt (hs : 0 < steps) : (guidedCube val m h v0 dt steps).dt = dt := by
  have : (steps : ℝ) ≠ 0 := by positivity
  simp [Config.dt, guidedCube]
  field_simp

end Example

/-- **C111 fails.**  For every elastic material and every size of the cube: a run whose time step does not exceed the reported
maximum stable time step - in particular one that uses it - but exceeds `√(k/(k + 4g/3))` times it, aborts for every initial
velocity different from zero, once it has enough steps. -/
theorem reported_step_unstable (val : ℝ) (m : Material ℝ) (h dmax : ℝ) (hh : 0 < h) (hrho : 0 < m.density) (hk : 0 < m.bulk)
    (hg : 0 < m.shear) (hmax : h ≤ dmax) (hmax2 : 3 * h ^ 2 ≤ dmax) (hmax3 : h / Real.sqrt (m.bulk / m.density) < dmax)
    (v0 : ℝ) (hv0 : v0 ≠ 0) (dt : ℝ) (hdt : 0 < dt)
    (hlow : Real.sqrt (m.bulk / (m.bulk + 4 / 3 * m.shear)) *
      criticalTimeStep Real.sqrt dmax (flat (guidedCube val m h v0 dt 1).X) (fun _ => 0) [cubeBlk m] < dt) :
    ∃ steps, 0 < steps ∧ (guidedCube val m h v0 dt steps).dt = dt ∧
      integrate (guidedCube val m h v0 dt steps)
        (meshPhysics val (guidedCube val m h v0 dt steps).X (serial [cubeBlk m])) () 0 = .abort := by
  rw [reported_step m _ h dmax hh (guidedCube_X val m h v0 dt 1) hmax hmax2 hmax3] at hlow
  have hP : 0 < m.bulk + 4 / 3 * m.shear := by positivity
  have hlim : m.density * h ^ 2 < dt ^ 2 * (m.bulk + 4 / 3 * m.shear) := by
    have h0 : 0 ≤ Real.sqrt (m.bulk / (m.bulk + 4 / 3 * m.shear)) * (h / Real.sqrt (m.bulk / m.density)) := by positivity
    have h1 := pow_lt_pow_left₀ hlow h0 two_ne_zero
    rw [mul_pow, div_pow, Real.sq_sqrt (by positivity), Real.sq_sqrt (by positivity)] at h1
    have h2 : m.bulk / (m.bulk + 4 / 3 * m.shear) * (h ^ 2 / (m.bulk / m.density))
        = m.density * h ^ 2 / (m.bulk + 4 / 3 * m.shear) := by field_simp
    rw [h2, div_lt_iff₀ hP] at h1
    exact h1
  have hpos : 0 < |dt * v0| := abs_pos.mpr (mul_ne_zero hdt.ne' hv0)
  obtain ⟨j, hj⟩ := exists_nat_ge (h / |dt * v0|)
  rw [div_le_iff₀ hpos] at hj
  have hd := guidedCube_dt val m h v0 dt (2 * j + 2) (by omega)
  refine ⟨2 * j + 2, by omega, hd, ?_⟩
  have hnone := guided_run_aborts val m (guidedCube val m h v0 dt (2 * j + 2)) (guidedCube_guided val m h v0 dt _) h hh
    (guidedCube_X val m h v0 dt _) (guidedCube_mass val m h v0 dt _ hh) hrho (by rw [hd]; exact hdt) v0
    (by rw [hd]; exact hlim) (guidedCube_start val m h v0 dt _ hh) j (by rw [hd]; exact hj)
  have hnum : (guidedCube val m h v0 dt (2 * j + 2)).numSteps = 2 * j + 2 := rfl
  unfold integrate
  rw [hnum, hnone, if_neg]
  rintro ⟨-, hlt⟩
  have : 0 ≤ dt * ((2 * j + 2 : ℕ) : ℝ) := by positivity
  simp only [guidedCube] at hlt
  linarith

/-- **C111 fails at the reported step itself.** -/
theorem reported_step_refuted :
    ¬ ∀ (val dmax : ℝ) (c : Config ℝ) (blocks : List (Blk ℝ)),
      c.manager.scheme = .explicit → computeLumpedMassField val (flat c.X) blocks (fun _ => 0) = some c.mass →
      0 < c.dt → c.dt ≤ criticalTimeStep Real.sqrt dmax (flat c.X) (fun _ => 0) blocks →
      (∀ n i, |(start c ()).velocity n i| ≤ 1 / 1000000) →
      ∃ s, integrate c (meshPhysics val c.X (serial blocks)) () 0 = .finished s := by
  intro H
  let m : Material ℝ := ⟨1, 1, 1⟩
  have hrep : ∀ c : Config ℝ, IsCube c.X 1 →
      criticalTimeStep Real.sqrt 3 (flat c.X) (fun _ => 0) [cubeBlk m] = 1 := by
    intro c hc
    rw [reported_step m _ 1 3 one_pos hc (by norm_num) (by norm_num) (by simp [m])]
    simp [m]
  obtain ⟨steps, hs, hd, hab⟩ := reported_step_unstable 0 m 1 3 one_pos (by simp [m]) (by simp [m]) (by simp [m]) (by norm_num)
    (by norm_num) (by simp [m]) (1 / 1000000) (by norm_num) 1 one_pos (by
      rw [hrep _ (guidedCube_X _ _ _ _ _ _), mul_one, Real.sqrt_lt' one_pos]
      simp only [m]; norm_num)
  obtain ⟨s, hfin⟩ := H 0 3 (guidedCube 0 m 1 (1 / 1000000) 1 steps) [cubeBlk m] rfl (guidedCube_mass _ _ _ _ _ _ one_pos)
    (by rw [hd]; exact one_pos) (by rw [hd, hrep _ (guidedCube_X _ _ _ _ _ _)]) (by
      exact guidedCube_start_le 0 m 1 (1 / 1000000) 1 steps one_pos (by norm_num))
  rw [hab] at hfin
  exact absurd hfin (by simp)

/-- Non-vacuity of `guided_run_stable_partial`: half the reported step, and a velocity of a tenth of the side per unit time. -/
example (k steps : ℕ) (hs : 0 < steps) :
    ∃ s, loop (guidedCube 0 ⟨1, 1, 1⟩ 1 (1 / 10) (1 / 2) steps)
      (meshPhysics 0 (guidedCube 0 ⟨1, 1, 1⟩ 1 (1 / 10) (1 / 2) steps).X (serial [cubeBlk ⟨1, 1, 1⟩])) k
      (start (guidedCube 0 ⟨1, 1, 1⟩ 1 (1 / 10) (1 / 2) steps) ()) = some s ∧
      ∀ n : Fin 8, |s.displacement n 0| < 1 / 2 := by
  have hd := guidedCube_dt 0 ⟨1, 1, 1⟩ 1 (1 / 10) (1 / 2) steps hs
  refine guided_run_stable_partial 0 ⟨1, 1, 1⟩ _ (guidedCube_guided _ _ _ _ _ _) 1 one_pos (guidedCube_X _ _ _ _ _ _)
    (guidedCube_mass _ _ _ _ _ _ one_pos) one_pos (by rw [hd]; norm_num) (1 / 10) ?_ (guidedCube_start _ _ _ _ _ _ one_pos) k
  rw [hd]
  norm_num

end NimbleSM.Integrate
