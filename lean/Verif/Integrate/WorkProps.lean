import Verif.Integrate.CoastProps

/-!
# C123: the work of the forces becomes kinetic energy

Theorems about explicit runs: first for any force evaluation (external, internal, contact), in terms of the fields that are written to
the output, then for meshes without contact in terms of the internal force.
-/

open scoped BigOperators

namespace NimbleSM.Integrate

open Matrix NimbleSM.Bc NimbleSM.Assembly NimbleSM.Hex NimbleSM.Tensor NimbleSM.Constitutive

/-! ## Specification -/

section Spec

variable {K S : Type*} [Field K] [LinearOrder K]

/-- Kinetic energy of the degrees of freedom `dofs` (node, direction): the sum of `m v² / 2`. -/
def dofEnergy (c : Config K) (dofs : Finset (ℕ × ℕ)) (v : Nodal K) : K := ∑ p ∈ dofs, c.mass p.1 * v p.1 p.2 ^ 2 / 2

/-- Work of forces during a displacement from `u` to `u'` with the mean of the forces `f` before and `f'` after. -/
def work (dofs : Finset (ℕ × ℕ)) (f f' u u' : Nodal K) : K :=
  ∑ p ∈ dofs, (f p.1 p.2 + f' p.1 p.2) / 2 * (u' p.1 p.2 - u p.1 p.2)

/-- The states `s 0, …, s k` are the states of a run after `0, …, k` steps. -/
def Trajectory (c : Config K) (p : Physics K S) (s0 : S) (k : ℕ) (s : ℕ → Sim K S) : Prop :=
  ∀ j ≤ k, loop c p j (start c s0) = some (s j)

end Spec

section Energy

variable {K S : Type*} [Field K] [LinearOrder K] [IsStrictOrderedRing K]

/-- A run that reaches step `k` has a trajectory. -/
theorem trajectory_exists (c : Config K) (p : Physics K S) (s0 : S) (k : ℕ) (sk : Sim K S)
    (h : loop c p k (start c s0) = some sk) : ∃ s, Trajectory c p s0 k s ∧ s k = sk := by
  induction k generalizing sk with
  | zero => exact ⟨fun _ => sk, fun j hj => by obtain rfl := Nat.le_zero.mp hj; exact h, rfl⟩
  | succ k ih =>
    rw [loop_succ, Option.bind_eq_some_iff] at h
    obtain ⟨s1, h1, h2⟩ := h
    obtain ⟨s, hs, -⟩ := ih s1 h1
    refine ⟨fun j => if j = k + 1 then sk else s j, fun j hj => ?_, by simp⟩
    by_cases hj' : j = k + 1
    · simp only [hj', if_true]; rw [loop_succ, h1]; exact h2
    · simp only [hj', if_false]; exact hs j (by omega)

theorem trajectory_step {c : Config K} {p : Physics K S} {s0 : S} {k : ℕ} {s : ℕ → Sim K S} (h : Trajectory c p s0 k s) {j : ℕ}
    (hj : j < k) : step c p j (s j) = some (s (j + 1)) := by
  have h1 := h (j + 1) hj
  rw [loop_succ, h j hj.le] at h1
  exact h1

/-- **C123.**  In every explicit run, with any forces, external, internal or by contact, the kinetic energy of any set of degrees of
freedom without kinematic conditions after `k` steps is the initial one plus the work of the net force (mass times acceleration) over
all steps, up to a term that depends on the last step only: `dt²/8 m a²`.  Nothing accumulates, whatever the number of steps. -/
theorem kinetic_energy_balance (c : Config K) (hm : c.manager.scheme ≠ .quasistatic) (p : Physics K S) (s0 : S)
    (dofs : Finset (ℕ × ℕ)) (hfree : ∀ q ∈ dofs, Free c.manager q.1 q.2) (k : ℕ) (s : ℕ → Sim K S) (h : Trajectory c p s0 k s) :
    dofEnergy c dofs (s k).velocity = dofEnergy c dofs (s 0).velocity
      + ∑ j ∈ Finset.range k, work dofs (fun n d => c.mass n * (s j).acceleration n d)
          (fun n d => c.mass n * (s (j + 1)).acceleration n d) (s j).displacement (s (j + 1)).displacement
      + c.dt ^ 2 / 8 * ∑ q ∈ dofs, c.mass q.1 * (s k).acceleration q.1 q.2 ^ 2 := by
  induction k with
  | zero =>
    have h0 : (s 0).acceleration = fun _ _ => 0 := by
      have := h 0 le_rfl
      rw [loop_zero] at this
      rw [← Option.some.inj this]; rfl
    simp [h0]
  | succ k ih =>
    have ih' := ih fun j hj => h j (hj.trans k.le_succ)
    have hstep := trajectory_step h (Nat.lt_succ_self k)
    rw [Finset.sum_range_succ]
    have key : dofEnergy c dofs (s (k + 1)).velocity = dofEnergy c dofs (s k).velocity
        + work dofs (fun n d => c.mass n * (s k).acceleration n d)
          (fun n d => c.mass n * (s (k + 1)).acceleration n d) (s k).displacement (s (k + 1)).displacement
        + c.dt ^ 2 / 8 * (∑ q ∈ dofs, c.mass q.1 * (s (k + 1)).acceleration q.1 q.2 ^ 2
          - ∑ q ∈ dofs, c.mass q.1 * (s k).acceleration q.1 q.2 ^ 2) := by
      unfold dofEnergy work
      rw [← Finset.sum_sub_distrib, Finset.mul_sum, ← Finset.sum_add_distrib, ← Finset.sum_add_distrib]
      refine Finset.sum_congr rfl fun q hq => ?_
      obtain ⟨h1, h2⟩ := free_dof_step c hm p k _ _ hstep q.1 q.2 (hfree q hq)
      rw [h1, h2]
      ring
    rw [key, ih']
    ring

/-- With positive masses the kinetic energy gained is at least the work done. -/
theorem kinetic_energy_at_least (c : Config K) (hm : c.manager.scheme ≠ .quasistatic) (p : Physics K S) (s0 : S)
    (dofs : Finset (ℕ × ℕ)) (hfree : ∀ q ∈ dofs, Free c.manager q.1 q.2) (hmass : ∀ q ∈ dofs, 0 ≤ c.mass q.1) (k : ℕ)
    (s : ℕ → Sim K S) (h : Trajectory c p s0 k s) :
    dofEnergy c dofs (s 0).velocity
      + ∑ j ∈ Finset.range k, work dofs (fun n d => c.mass n * (s j).acceleration n d)
          (fun n d => c.mass n * (s (j + 1)).acceleration n d) (s j).displacement (s (j + 1)).displacement
      ≤ dofEnergy c dofs (s k).velocity := by
  rw [kinetic_energy_balance c hm p s0 dofs hfree k s h]
  have h1 : 0 ≤ ∑ q ∈ dofs, c.mass q.1 * (s k).acceleration q.1 q.2 ^ 2 :=
    Finset.sum_nonneg fun q hq => mul_nonneg (hmass q hq) (sq_nonneg _)
  have h2 : 0 ≤ c.dt ^ 2 / 8 := by positivity
  have := mul_nonneg h2 h1
  linarith

/-! ## Meshes -/

/-- Internal force of the mesh at the displacement `u`. -/
def IsInternalForce (val : K) (c : Config K) (blocks : List (Blk K)) (u F : Nodal K) : Prop :=
  ∃ G, computeInternalForce val (flat c.X) (flat u) (serial blocks) = some G ∧ ∀ n (d : Fin 3), F n d = G (3 * n + d)

/-- The acceleration of a mesh without contact is the internal force over the mass, after every step, including the start. -/
theorem mesh_acceleration (val : K) (c : Config K) (hm : c.manager.scheme ≠ .quasistatic) (blocks : List (Blk K))
    (hlaw : ∀ b ∈ blocks, StressFree b.law) (hM : computeLumpedMassField val (flat c.X) blocks (fun _ => 0) = some c.mass)
    (k : ℕ) (s : ℕ → Sim K Unit) (h : Trajectory c (meshPhysics val c.X (serial blocks)) () k s) (j : ℕ) (hj : j ≤ k)
    (F : Nodal K) (hF : IsInternalForce val c blocks (s j).displacement F) (n : ℕ) (d : Fin 3) :
    (s j).acceleration n d = F n d / c.mass n := by
  obtain ⟨G, hG, hFG⟩ := hF
  rw [hFG]
  cases j with
  | zero =>
    have h0 := h 0 hj
    rw [loop_zero] at h0
    have hs := Option.some.inj h0
    rw [← hs, start_displacement c hm] at hG
    have hJ := (lumped_mass_field_defined val (flat c.X) (fun _ => 0) blocks).mp ⟨_, hM⟩
    obtain ⟨G', hG', hz⟩ := translated_force val (serial blocks) (flat c.X) (flat fun _ _ => 0) 0
      (by
        intro b hb
        obtain ⟨b0, h0, rfl⟩ := List.mem_map.mp hb
        exact hlaw b0 h0)
      (by
        intro b hb e he
        obtain ⟨b0, h0, rfl⟩ := List.mem_map.mp hb
        exact hJ b0 h0 e (List.mem_range.mp he))
      (fun b hb e he n hn d => by rw [flat_apply]; rfl)
    rw [hG'] at hG
    rw [← Option.some.inj hG, hz, zero_div, ← hs]
    rfl
  | succ j =>
    obtain ⟨F', st, h1, -, h2⟩ := step_acceleration c hm _ j _ _ (trajectory_step h hj) rfl
    rw [h2]
    simp only [meshPhysics, Option.map_eq_some_iff, Prod.mk.injEq] at h1 ⊢
    obtain ⟨G', hG', h3, -⟩ := h1
    rw [hG'] at hG
    rw [← h3, Option.some.inj hG, add_zero]

/-- The internal force is defined at every state of a run. -/
theorem mesh_forces_exist (val : K) (c : Config K) (hm : c.manager.scheme ≠ .quasistatic) (blocks : List (Blk K))
    (hlaw : ∀ b ∈ blocks, StressFree b.law) (hM : computeLumpedMassField val (flat c.X) blocks (fun _ => 0) = some c.mass)
    (k : ℕ) (s : ℕ → Sim K Unit) (h : Trajectory c (meshPhysics val c.X (serial blocks)) () k s) :
    ∃ F : ℕ → Nodal K, ∀ j ≤ k, IsInternalForce val c blocks (s j).displacement (F j) := by
  have hex : ∀ j ≤ k, ∃ F, IsInternalForce val c blocks (s j).displacement F := by
    intro j hj
    cases j with
    | zero =>
      have h0 := h 0 hj
      rw [loop_zero] at h0
      have hs := Option.some.inj h0
      rw [← hs, start_displacement c hm]
      have hJ := (lumped_mass_field_defined val (flat c.X) (fun _ => 0) blocks).mp ⟨_, hM⟩
      obtain ⟨G', hG', hz⟩ := translated_force val (serial blocks) (flat c.X) (flat fun _ _ => 0) 0
        (by
          intro b hb
          obtain ⟨b0, h0, rfl⟩ := List.mem_map.mp hb
          exact hlaw b0 h0)
        (by
          intro b hb e he
          obtain ⟨b0, h0, rfl⟩ := List.mem_map.mp hb
          exact hJ b0 h0 e (List.mem_range.mp he))
        (fun b hb e he n hn d => by rw [flat_apply]; rfl)
      exact ⟨fun n d => G' (3 * n + d), G', hG', fun _ _ => rfl⟩
    | succ j =>
      obtain ⟨F', st, h1, -, h2⟩ := step_acceleration c hm _ j _ _ (trajectory_step h hj) rfl
      simp only [meshPhysics, Option.map_eq_some_iff, Prod.mk.injEq] at h1
      obtain ⟨G', hG', h3, -⟩ := h1
      exact ⟨F', G', hG', fun n d => by rw [← h3]⟩
  choose! F hF using hex
  exact ⟨F, hF⟩

/-- **C123, meshes.**  Without contact, for stress-free undeformed materials: the kinetic energy after `k` steps is the initial one
plus the work of the internal forces over all steps (each step with the mean of the forces at its ends), plus `dt²/8 F²/m` of the last
step.  `fixed` degrees of freedom, which never move, may be included: they do no work and have no part in the kinetic energy. -/
theorem mesh_energy_balance (val : K) (c : Config K) (hm : c.manager.scheme ≠ .quasistatic) (blocks : List (Blk K))
    (hlaw : ∀ b ∈ blocks, StressFree b.law) (hM : computeLumpedMassField val (flat c.X) blocks (fun _ => 0) = some c.mass)
    (free fixed : Finset (ℕ × ℕ)) (hfree : ∀ q ∈ free, q.2 < 3 ∧ c.mass q.1 ≠ 0 ∧ Free c.manager q.1 q.2) (hdisj : Disjoint free fixed)
    (k : ℕ) (s : ℕ → Sim K Unit) (h : Trajectory c (meshPhysics val c.X (serial blocks)) () k s)
    (hfix : ∀ q ∈ fixed, ∀ j ≤ k, (s j).displacement q.1 q.2 = 0)
    (F : ℕ → Nodal K) (hF : ∀ j ≤ k, IsInternalForce val c blocks (s j).displacement (F j)) :
    dofEnergy c free (s k).velocity = dofEnergy c free (s 0).velocity
      + ∑ j ∈ Finset.range k, work (free ∪ fixed) (F j) (F (j + 1)) (s j).displacement (s (j + 1)).displacement
      + c.dt ^ 2 / 8 * ∑ q ∈ free, F k q.1 q.2 ^ 2 / c.mass q.1 := by
  rw [kinetic_energy_balance c hm _ () free (fun q hq => (hfree q hq).2.2) k s h]
  have hacc : ∀ j ≤ k, ∀ q ∈ free, c.mass q.1 * (s j).acceleration q.1 q.2 = F j q.1 q.2 := by
    intro j hj q hq
    obtain ⟨h1, h2, -⟩ := hfree q hq
    have := mesh_acceleration val c hm blocks hlaw hM k s h j hj (F j) (hF j hj) q.1 ⟨q.2, h1⟩
    simp only at this
    rw [this, mul_div_cancel₀ _ h2]
  congr 1
  · congr 1
    refine Finset.sum_congr rfl fun j hj => ?_
    have hj := Finset.mem_range.mp hj
    unfold work
    rw [Finset.sum_union hdisj]
    have h0 : ∑ p ∈ fixed, (F j p.1 p.2 + F (j + 1) p.1 p.2) / 2
        * ((s (j + 1)).displacement p.1 p.2 - (s j).displacement p.1 p.2) = 0 :=
      Finset.sum_eq_zero fun q hq => by rw [hfix q hq j hj.le, hfix q hq (j + 1) hj, sub_self, mul_zero]
    rw [h0, add_zero]
    exact Finset.sum_congr rfl fun q hq => by beta_reduce; rw [hacc j hj.le q hq, hacc (j + 1) hj q hq]
  · congr 1
    refine Finset.sum_congr rfl fun q hq => ?_
    have h1 := hacc k le_rfl q hq
    have h2 := (hfree q hq).2.1
    rw [← h1]
    field_simp

end Energy

end NimbleSM.Integrate
