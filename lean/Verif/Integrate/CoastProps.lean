import Verif.Integrate.InvarianceProps

/-!
# C118: uniform motion; examples for C114-C117
-/

open scoped BigOperators

namespace NimbleSM.Integrate

open Matrix NimbleSM.Bc NimbleSM.Assembly NimbleSM.Hex NimbleSM.Tensor NimbleSM.Constitutive

section Force

variable {K : Type*} [Field K] [LinearOrder K] [IsStrictOrderedRing K]

/-- The undeformed state is free of stress. -/
def StressFree (law : (Fin 9 → K) → Option (Fin 6 → K)) : Prop := ∀ F, fullMat F = 1 → law F = some fun _ => 0

/-- A translated mesh has no internal forces. -/
theorem translated_force (val : K) (blocks : List (Blk K × List ℕ)) (X u : ℕ → K) (c : Fin 3 → K)
    (hlaw : ∀ b ∈ blocks, StressFree b.1.law)
    (hJ : ∀ b ∈ blocks, ∀ e ∈ b.2, ∀ p : Fin 8, 0 < (Jac val (gather b.1 e X) p).det)
    (hu : ∀ b ∈ blocks, ∀ e ∈ b.2, ∀ n < 8, ∀ d : Fin 3, u (3 * b.1.nodeId e n + d) = c d) :
    ∃ F, computeInternalForce val X u blocks = some F ∧ ∀ n (d : Fin 3), F (3 * n + d) = 0 := by
  have hel : ∀ b ∈ blocks, ∀ e ∈ b.2, ∃ f, elementForce val b.1 X u e = some f ∧ ∀ n < 8, ∀ d : Fin 3, f n d = 0 := by
    intro b hb e he
    have hmv : Moved b.1 b.1 e e X (fun k => X k + u k) 1 c := by
      intro n hn d
      simp only
      rw [hu b hb e he n hn d, Finset.sum_eq_single d]
      · rw [Matrix.one_apply_eq, one_mul]
      · intro k _ hk; rw [Matrix.one_apply_ne (Ne.symm hk), zero_mul]
      · intro h; exact absurd (Finset.mem_univ d) h
    have hjac : ∀ p, Jac val (gather b.1 e fun k => X k + u k) p = Jac val (gather b.1 e X) p := by
      intro p; rw [moved_jac val hmv p, Matrix.one_mul]
    obtain ⟨G, hG⟩ := (deformation_gradients_defined val (gather b.1 e X) (gather b.1 e fun k => X k + u k)).mpr (hJ b hb e he)
    have hG1 : ∀ p : Fin 8, fullMat (fun i : Fin 9 => G (9 * p + i)) = 1 := by
      intro p
      have h1 := computeDeformationGradients_val val _ _ G hG p
      rw [hjac] at h1
      have hunit : IsUnit (Jac val (gather b.1 e X) p) := by
        rw [Matrix.isUnit_iff_isUnit_det]; exact (hJ b hb e he p).ne'.isUnit
      exact hunit.mul_right_cancel (h1.trans (Matrix.one_mul _).symm)
    obtain ⟨σ, hσ⟩ : ∃ σ, pointLoop b.1.law 8 G (fun _ => 0) = some σ := by
      rw [← Option.isSome_iff_exists]
      unfold pointLoop
      rw [foldlM_isSome (fun pt => b.1.law fun i => G (9 * pt + i.val))
        (fun pt sig (out : ℕ → K) => (List.finRange 6).foldl (fun out c => put out (6 * pt + c.val) (sig c)) out)]
      intro pt hp
      rw [hlaw b hb _ (hG1 ⟨pt, List.mem_range.mp hp⟩)]
      rfl
    have hσ0 : ∀ (p : Fin 8), (fun c : Fin 6 => σ (6 * p + c)) = fun _ => 0 := by
      intro p
      obtain ⟨s, hs, hv⟩ := (pointLoop_val _ 8 G _ σ hσ).1 p p.isLt
      rw [hlaw b hb _ (hG1 p)] at hs
      funext c
      rw [hv, ← Option.some.inj hs]
    obtain ⟨f, hf⟩ := (nodal_forces_defined val (gather b.1 e fun k => X k + u k) σ).mpr (fun p => by
      rw [hjac]; exact hJ b hb e he p)
    refine ⟨f, by unfold elementForce; simp only [hG, Option.bind_eq_bind, Option.bind_some, hσ, hf], fun n hn d => ?_⟩
    have h0 : symMat (fun _ : Fin 6 => (0 : K)) = 0 := by
      ext i j; fin_cases i <;> fin_cases j <;> simp [symMat]
    have := nodal_forces_adjugate val _ σ f hf ⟨n, hn⟩ d
    rw [this]
    simp [hσ0, h0]
  obtain ⟨F, hF⟩ := (internal_force_defined val X u blocks).mpr (fun b hb e he => (hel b hb e he).imp fun f hf => hf.1)
  refine ⟨F, hF, fun n d => ?_⟩
  rw [internal_force_sum val X u F blocks hF n d]
  apply List.sum_eq_zero
  intro x hx
  obtain ⟨b, hb, rfl⟩ := List.mem_map.mp hx
  apply List.sum_eq_zero
  intro y hy
  obtain ⟨e, he, rfl⟩ := List.mem_map.mp hy
  obtain ⟨f, hf, hz⟩ := hel b hb e he
  rw [hf, Option.elim_some]
  apply Finset.sum_eq_zero
  intro c hc
  rw [hz c (Finset.mem_range.mp hc) d, ite_self]

theorem kinematic_free (c : Config K) (h : Unconstrained c) (tc tp : K) (u v : Nodal K) : kinematic c tc tp u v = (u, v) := by
  unfold kinematic
  simp only [Prod.mk.injEq]
  exact ⟨by funext n i; exact (free_dof_untouched c.manager tc tp c.X _ n i (h n i)).1,
    by funext n i; exact (free_dof_untouched c.manager tc tp c.X _ n i (h n i)).2.1⟩

/-- **C118.**  An unconstrained body whose nodes all start with the same velocity `w` moves uniformly: the run never fails, and
after every step the displacement of every node is `w` times the elapsed time, its velocity `w` and its acceleration zero. -/
theorem uniform_motion (val : K) (c : Config K) (hm : c.manager.scheme ≠ .quasistatic) (hfree : Unconstrained c)
    (blocks : List (Blk K)) (N : ℕ) (hN : InMesh N (serial blocks)) (hlaw : ∀ b ∈ blocks, StressFree b.law)
    (hM : ∃ m, computeLumpedMassField val (flat c.X) blocks (fun _ => 0) = some m) (w : Fin 3 → K)
    (hv : ∀ n < N, ∀ d : Fin 3, (start c ()).velocity n d = w d) (k : ℕ) :
    ∃ s, loop c (meshPhysics val c.X (serial blocks)) k (start c ()) = some s ∧ s.time = c.initialTime + k * c.dt ∧
      ∀ n < N, ∀ d : Fin 3, s.displacement n d = k * c.dt * w d ∧ s.velocity n d = w d ∧ s.acceleration n d = 0 := by
  have hJ := (lumped_mass_field_defined val (flat c.X) (fun _ => 0) blocks).mp hM
  induction k with
  | zero =>
    refine ⟨_, loop_zero _ _ _, by simp [start], fun n hn d => ⟨?_, hv n hn d, rfl⟩⟩
    rw [start_displacement c hm]; simp
  | succ k ih =>
    obtain ⟨s, hs, ht, hf⟩ := ih
    have hp : predict c s = (axpy s.displacement c.dt (axpy s.velocity (0.5 * c.dt) s.acceleration),
        axpy s.velocity (0.5 * c.dt) s.acceleration) := by
      unfold predict
      simp only [kinematic_free c hfree, add_sub_cancel_left]
    have hpu : ∀ n < N, ∀ d : Fin 3, (predict c s).1 n d = ((k + 1 : ℕ) : K) * c.dt * w d := by
      intro n hn d
      obtain ⟨h1, h2, h3⟩ := hf n hn d
      rw [hp]
      simp only [axpy, h1, h2, h3]
      push_cast; ring
    obtain ⟨F, hF, hz⟩ := translated_force val (serial blocks) (flat c.X) (flat (predict c s).1) (fun d => ((k + 1 : ℕ) : K) * c.dt * w d)
      (by
        intro b hb
        obtain ⟨b0, h0, rfl⟩ := List.mem_map.mp hb
        exact hlaw b0 h0)
      (by
        intro b hb e he
        obtain ⟨b0, h0, rfl⟩ := List.mem_map.mp hb
        exact hJ b0 h0 e (List.mem_range.mp he))
      (fun b hb e he n hn d => by rw [flat_apply, hpu _ (hN b hb e he n hn)])
    refine ⟨correct c k s F, by rw [loop_succ, hs, Option.bind_some, step_eq, hF]; rfl, ?_, fun n hn d => ?_⟩
    · unfold correct
      simp only [ht]
      push_cast; ring
    · have ha : (correct c k s F).acceleration n d = 0 := by
        unfold correct accel
        simp only [hz, add_zero, mul_zero]
      have hvel : (correct c k s F).velocity n d
          = (predict c s).2 n d + 0.5 * c.dt * (correct c k s F).acceleration n d := by
        unfold correct
        simp only [kinematic_free c hfree, ite_self, add_sub_cancel_left]
        rfl
      refine ⟨by rw [correct_displacement c hm, hpu n hn d], ?_, ha⟩
      rw [hvel, ha, hp]
      simp only [axpy, (hf n hn d).2.1, (hf n hn d).2.2]
      ring

end Force

end NimbleSM.Integrate
