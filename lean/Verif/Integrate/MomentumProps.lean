import Verif.Integrate.ExplicitProps
import Verif.Assembly.TimeStepProps

/-!
# C43, C44, C68: conservation laws and reversibility of explicit integration
-/

open scoped BigOperators

namespace NimbleSM.Integrate

open NimbleSM.Bc NimbleSM.Assembly

variable {K S : Type*} [Field K] [LinearOrder K] [IsStrictOrderedRing K]

/-- Specification: no kinematic condition acts on any degree of freedom. -/
def Unconstrained (c : Config K) : Prop := ∀ n i, Free c.manager n i

/-- Specification: total linear momentum in direction `i` of the nodes below `N`. -/
def momentum (c : Config K) (N : ℕ) (v : Nodal K) (i : ℕ) : K := ∑ n ∈ Finset.range N, c.mass n * v n i

/-- Specification: every force evaluation has zero resultant on the nodes below `N` in direction `i`. -/
def Balanced (p : Physics K S) (N i : ℕ) : Prop :=
  (∀ s tp tc o, ∑ n ∈ Finset.range N, p.external s tp tc o n i = 0) ∧
  (∀ s tp tc o u F s', p.internal s tp tc o u = some (F, s') → ∑ n ∈ Finset.range N, F n i = 0) ∧
  (∀ f, p.contact = some f → ∀ s k u F s', f s k u = some (F, s') → ∑ n ∈ Finset.range N, F n i = 0)

theorem momentum_axpy (c : Config K) (N : ℕ) (v w : Nodal K) (a : K) (i : ℕ) :
    momentum c N (axpy v a w) i = momentum c N v i + a * momentum c N w i := by
  unfold momentum axpy
  rw [Finset.mul_sum, ← Finset.sum_add_distrib]
  apply Finset.sum_congr rfl; intro n _; ring

theorem momentum_accel (c : Config K) (p : Physics K S) (N i : ℕ) (hmass : ∀ n < N, c.mass n ≠ 0)
    (hb : Balanced p N i) (s st st' : S) (tp tc : K) (o : Bool) (k : ℕ) (u F : Nodal K) (C : Option (Nodal K))
    (hF : p.internal s tp tc o u = some (F, st)) (hC : contactForce p st k u = some (C, st')) :
    momentum c N (accel c F (p.external s tp tc o) C) i = 0 := by
  have hm : ∀ n ∈ Finset.range N, ∀ x, c.mass n * (1 / c.mass n * x) = x := by
    intro n hn x
    have := hmass n (Finset.mem_range.mp hn)
    field_simp
  unfold momentum accel
  obtain ⟨h1, h2, h3⟩ := hb
  cases C with
  | none =>
    simp only
    rw [Finset.sum_congr rfl fun n hn => hm n hn _, Finset.sum_add_distrib, h2 s tp tc o u F st hF, h1, add_zero]
  | some f =>
    unfold contactForce at hC
    cases hp : p.contact with
    | none => rw [hp] at hC; simp at hC
    | some g =>
      rw [hp] at hC
      simp only [Option.map_eq_some_iff, Prod.mk.injEq, Option.some.injEq] at hC
      obtain ⟨⟨f', s''⟩, hg, rfl, rfl⟩ := hC
      simp only
      rw [Finset.sum_congr rfl fun n hn => hm n hn _, Finset.sum_add_distrib, Finset.sum_add_distrib,
        h2 s tp tc o u F st hF, h1, h3 g hp st k u _ _ hg, add_zero, add_zero]

/-- **C43.**  Without kinematic conditions and with balanced forces, the total linear momentum after any
number of steps is the initial one, for any time step and any (non-zero) masses. -/
theorem momentum_conserved (c : Config K) (hm : c.manager.scheme ≠ .quasistatic) (p : Physics K S)
    (s0 : S) (N i : ℕ) (hmass : ∀ n < N, c.mass n ≠ 0) (hfree : Unconstrained c) (hb : Balanced p N i)
    (k : ℕ) (s : Sim K S) (h : loop c p k (start c s0) = some s) :
    momentum c N s.velocity i = momentum c N (start c s0).velocity i ∧
    momentum c N s.acceleration i = 0 := by
  induction k generalizing s with
  | zero =>
    rw [loop_zero] at h; cases h
    refine ⟨rfl, ?_⟩
    unfold momentum start
    simp
  | succ k ih =>
    rw [loop_succ, Option.bind_eq_some_iff] at h
    obtain ⟨s1, h1, h2⟩ := h
    obtain ⟨ihv, iha⟩ := ih s1 h1
    have hv : s.velocity = axpy (axpy s1.velocity (c.dt / 2) s1.acceleration) (c.dt / 2) s.acceleration := by
      funext n j
      rw [(free_dof_step c hm p k s1 s h2 n j (hfree n j)).2]
      unfold axpy; ring
    obtain ⟨vh, F, E, C, st, st', vm, -, -, -, hE, hF, hC, ha, -⟩ := step_spec c hm p k s1 s h2
    have hacc : momentum c N s.acceleration i = 0 := by
      rw [ha, hE]
      exact momentum_accel c p N i hmass hb _ _ _ _ _ _ _ _ _ _ hF hC
    refine ⟨?_, hacc⟩
    rw [hv, momentum_axpy, momentum_axpy, hacc, iha, ihv]
    ring

/-! ## The physics of a mesh -/

/-- The flat array of a nodal field (three components per node). -/
def flat (f : Nodal K) : ℕ → K := fun k => f (k / 3) (k % 3)

theorem flat_apply (f : Nodal K) (n : ℕ) (d : Fin 3) : flat f (3 * n + d) = f n d := by
  unfold flat
  have := d.isLt
  rw [show (3 * n + d.val) / 3 = n by omega, show (3 * n + d.val) % 3 = d.val by omega]

/-- The forces of a mesh of hexahedral blocks without contact: nimble_model_data.cc:610-668 (serial), zero
external force, assembled internal force. -/
def meshPhysics (val : K) (X : Nodal K) (blocks : List (Blk K × List ℕ)) : Physics K Unit where
  external := fun _ _ _ _ => fun _ _ => 0
  internal := fun _ _ _ _ u =>
    (computeInternalForce val (flat X) (flat u) blocks).map fun F => (fun n i => F (3 * n + i), ())
  contact := none
  updateStates := id

theorem meshPhysics_balanced (val : K) (X : Nodal K) (blocks : List (Blk K × List ℕ)) (N : ℕ)
    (hmesh : InMesh N blocks) (i : Fin 3) : Balanced (meshPhysics val X blocks) N i := by
  refine ⟨fun _ _ _ _ => by simp [meshPhysics], ?_, fun f hf => by simp [meshPhysics] at hf⟩
  intro s tp tc o u F s' h
  simp only [meshPhysics, Option.map_eq_some_iff, Prod.mk.injEq] at h
  obtain ⟨G, hG, rfl, -⟩ := h
  exact internal_force_resultant val _ _ G blocks N hmesh hG i

/-- **C43, for the code's own forces.**  A free body made of hexahedral blocks, of any materials and any
connectivity, keeps its total linear momentum at every step of an explicit run. -/
theorem mesh_momentum_conserved (c : Config K) (hm : c.manager.scheme ≠ .quasistatic) (val : K)
    (blocks : List (Blk K × List ℕ)) (N : ℕ) (hmesh : InMesh N blocks)
    (hmass : ∀ n < N, c.mass n ≠ 0) (hfree : Unconstrained c) (i : Fin 3) (k : ℕ) (s : Sim K Unit)
    (h : loop c (meshPhysics val c.X blocks) k (start c ()) = some s) :
    momentum c N s.velocity i = momentum c N (start c ()).velocity i :=
  (momentum_conserved c hm _ () N i hmass hfree (meshPhysics_balanced val c.X blocks N hmesh i) k s h).1

/-- Specification: current position of a node. -/
def position (c : Config K) (s : Sim K S) (n : ℕ) : Fin 3 → K := fun d => c.X n d + s.displacement n d

/-- Specification: total angular momentum about the origin, `∑ m x × v`. -/
def angularMomentum (c : Config K) (N : ℕ) (s : Sim K S) : Fin 3 → K :=
  ∑ n ∈ Finset.range N, c.mass n • crossProduct (position c s n) (fun d : Fin 3 => s.velocity n d)

/-- The moment of `m a` at the positions `x`. -/
def moment (c : Config K) (N : ℕ) (s : Sim K S) : Fin 3 → K :=
  ∑ n ∈ Finset.range N, c.mass n • crossProduct (position c s n) (fun d : Fin 3 => s.acceleration n d)

/-- One velocity Verlet step changes the angular momentum by half a step times the old and new moments. -/
theorem angularMomentum_step (c : Config K) (N : ℕ) (s s' : Sim K S)
    (hu : ∀ n (d : Fin 3), s'.displacement n d
      = s.displacement n d + c.dt * s.velocity n d + c.dt ^ 2 / 2 * s.acceleration n d)
    (hv : ∀ n (d : Fin 3), s'.velocity n d
      = s.velocity n d + c.dt / 2 * (s.acceleration n d + s'.acceleration n d)) :
    angularMomentum c N s' = angularMomentum c N s + (c.dt / 2) • (moment c N s + moment c N s') := by
  unfold angularMomentum moment
  rw [← Finset.sum_add_distrib, Finset.smul_sum, ← Finset.sum_add_distrib]
  apply Finset.sum_congr rfl
  intro n _
  have hp : position c s' n = fun d : Fin 3 => c.X n d + (s.displacement n d + c.dt * s.velocity n d
      + c.dt ^ 2 / 2 * s.acceleration n d) := by funext d; unfold position; rw [hu]
  have hv' : (fun d : Fin 3 => s'.velocity n d) = fun d : Fin 3 => s.velocity n d + c.dt / 2 *
      (s.acceleration n d + s'.acceleration n d) := by funext d; rw [hv]
  rw [hp, hv']
  unfold position
  have e0 : ((0 : Fin 3) : ℕ) = 0 := rfl
  have e1 : ((1 : Fin 3) : ℕ) = 1 := rfl
  have e2 : ((2 : Fin 3) : ℕ) = 2 := rfl
  funext d
  simp only [Pi.add_apply, Pi.smul_apply, smul_eq_mul, cross_apply]
  fin_cases d <;> simp [e0, e1, e2] <;> ring

/-- **C68.**  A free body made of hexahedral blocks keeps its total angular momentum exactly, at every
step of an explicit run and for any time step (velocity Verlet conserves it because the internal forces
have no moment in the current configuration). -/
theorem mesh_angular_momentum_conserved (c : Config K) (hm : c.manager.scheme ≠ .quasistatic) (val : K)
    (blocks : List (Blk K × List ℕ)) (N : ℕ) (hmesh : InMesh N blocks)
    (hmass : ∀ n < N, c.mass n ≠ 0) (hfree : Unconstrained c) (k : ℕ) (s : Sim K Unit)
    (h : loop c (meshPhysics val c.X blocks) k (start c ()) = some s) :
    angularMomentum c N s = angularMomentum c N (start c ()) ∧ moment c N s = 0 := by
  induction k generalizing s with
  | zero =>
    rw [loop_zero] at h; cases h
    refine ⟨rfl, ?_⟩
    unfold moment start
    simp only
    apply Finset.sum_eq_zero
    intro n _
    rw [show (fun _ : Fin 3 => (0 : K)) = 0 from rfl, map_zero, smul_zero]
  | succ k ih =>
    rw [loop_succ, Option.bind_eq_some_iff] at h
    obtain ⟨s1, h1, h2⟩ := h
    obtain ⟨ihL, ihM⟩ := ih s1 h1
    have hmom : moment c N s = 0 := by
      obtain ⟨F, st, hF, -, ha⟩ := step_acceleration c hm _ k s1 s h2 rfl
      simp only [meshPhysics, Option.map_eq_some_iff, Prod.mk.injEq] at hF
      obtain ⟨G, hG, hFG, -⟩ := hF
      have hmm := internal_force_moment val _ _ G blocks N hmesh hG 0
      unfold moment
      rw [← hmm]
      apply Finset.sum_congr rfl
      intro n hn
      have hne := hmass n (Finset.mem_range.mp hn)
      have ha' : (fun d : Fin 3 => s.acceleration n d)
          = (c.mass n)⁻¹ • fun d : Fin 3 => G (3 * n + d) := by
        funext d
        rw [ha, ← hFG]
        simp only [meshPhysics, add_zero, Pi.smul_apply, smul_eq_mul]
        rw [div_eq_inv_mul]
      have hp : position c s n = fun d : Fin 3 => flat c.X (3 * n + d) + flat s.displacement (3 * n + d)
          - (0 : Fin 3 → K) d := by
        funext d; unfold position; rw [flat_apply, flat_apply]; simp
      rw [ha', hp, map_smul, smul_smul, mul_inv_cancel₀ hne, one_smul]
    refine ⟨?_, hmom⟩
    have := angularMomentum_step c N s1 s
      (fun n d => (free_dof_step c hm _ k s1 s h2 n d (hfree n d)).1)
      (fun n d => (free_dof_step c hm _ k s1 s h2 n d (hfree n d)).2)
    rw [this, ihM, hmom, ihL]
    simp

end NimbleSM.Integrate
