import Verif.Integrate.WorkProps
import Verif.Integrate.InvarianceDemo

/-!
# C123: cases that meet the hypotheses
-/

open scoped BigOperators

namespace NimbleSM.Integrate

open Matrix NimbleSM.Bc NimbleSM.Assembly NimbleSM.Hex NimbleSM.Tensor NimbleSM.Constitutive

/-- Degrees of freedom of the eight nodes of a cube in the directions `ds`. -/
def cubeDofs (ds : Finset ℕ) : Finset (ℕ × ℕ) := Finset.range 8 ×ˢ ds

/-- **C123**, a case with kinematic conditions and forces: the guided cube, which oscillates for ever.  The initial kinetic energy is
`ρ h³ v0² / 2`. -/
theorem guided_cube_energy (val : ℝ) (m : Material ℝ) (h v0 dt : ℝ) (steps : ℕ) (hh : 0 < h) (hrho : 0 < m.density) (hs : 0 < steps)
    (hdt : 0 < dt)
    (hv0 : v0 ^ 2 * (m.density * h ^ 2) ^ 2 <
      (m.bulk + 4 / 3 * m.shear) * (m.density * h ^ 2 - dt ^ 2 * (m.bulk + 4 / 3 * m.shear)) * h ^ 2) (k : ℕ) :
    ∃ (s : ℕ → Sim ℝ Unit) (F : ℕ → Nodal ℝ), Trajectory (guidedCube val m h v0 dt steps)
        (meshPhysics val (guidedCube val m h v0 dt steps).X (serial [cubeBlk m])) () k s ∧
      (∀ j ≤ k, IsInternalForce val (guidedCube val m h v0 dt steps) [cubeBlk m] (s j).displacement (F j)) ∧
      dofEnergy (guidedCube val m h v0 dt steps) (cubeDofs {0}) (s k).velocity = m.density * h ^ 3 * v0 ^ 2 / 2
        + ∑ j ∈ Finset.range k, work (cubeDofs {0} ∪ cubeDofs {1, 2}) (F j) (F (j + 1)) (s j).displacement (s (j + 1)).displacement
        + dt ^ 2 / 8 * ∑ q ∈ cubeDofs {0}, F k q.1 q.2 ^ 2 / (guidedCube val m h v0 dt steps).mass q.1 := by
  have hd := guidedCube_dt val m h v0 dt steps hs
  have hg := guidedCube_guided val m h v0 dt steps
  have hX := guidedCube_X val m h v0 dt steps
  have hM := guidedCube_mass val m h v0 dt steps hh
  have hst := guidedCube_start val m h v0 dt steps hh
  obtain ⟨sk, h1, -⟩ := guided_run_stable_partial val m (guidedCube val m h v0 dt steps) hg h hh hX hM hrho (by rw [hd]; exact hdt) v0
    (by rw [hd]; exact hv0) hst k
  obtain ⟨s, h2, -⟩ := trajectory_exists _ _ _ k sk h1
  obtain ⟨F, h3⟩ := mesh_forces_exist val _ hg.scheme [cubeBlk m] (elastic_stressFree m) hM k s h2
  have hmass : ∀ n < 8, (guidedCube val m h v0 dt steps).mass n = m.density * h ^ 3 / 8 := by
    intro n hn
    have := cube_mass val m _ h hX _ hM ⟨n, hn⟩
    simpa using this
  have h0 : s 0 = start (guidedCube val m h v0 dt steps) () := by
    have := h2 0 (Nat.zero_le _)
    rw [loop_zero] at this
    exact (Option.some.inj this).symm
  refine ⟨s, F, h2, h3, ?_⟩
  rw [mesh_energy_balance val _ hg.scheme [cubeBlk m] (elastic_stressFree m) hM (cubeDofs {0}) (cubeDofs {1, 2}) ?_ ?_ k s h2 ?_ F h3, hd]
  · congr 2
    unfold dofEnergy cubeDofs
    rw [Finset.sum_product, Finset.sum_congr rfl (g := fun _ => m.density * h ^ 3 * v0 ^ 2 / 16)]
    · rw [Finset.sum_const, Finset.card_range]; simp; ring
    · intro n hn
      have hn := Finset.mem_range.mp hn
      rw [Finset.sum_singleton, h0]
      have := hst ⟨n, hn⟩
      simp only at this ⊢
      rw [this, hmass n hn]
      rcases corner_cases (K := ℝ) ⟨n, hn⟩ 0 with a | a <;> rw [a] <;> ring
  · intro q hq
    simp only [cubeDofs, Finset.mem_product, Finset.mem_range, Finset.mem_singleton] at hq
    refine ⟨by omega, ?_, ?_⟩
    · rw [hmass _ hq.1]; positivity
    · have := hg.free ⟨q.1, hq.1⟩
      rw [hq.2]; exact this
  · rw [Finset.disjoint_left]
    intro q hq hq'
    simp only [cubeDofs, Finset.mem_product, Finset.mem_insert, Finset.mem_singleton] at hq hq'
    omega
  · intro q hq j hj
    simp only [cubeDofs, Finset.mem_product, Finset.mem_range, Finset.mem_insert, Finset.mem_singleton] at hq
    have := (guided_state val m _ hg h hh hX hM hrho (by rw [hd]; exact hdt) v0 hst j (s j) (h2 j hj)).1.1 ⟨q.1, hq.1⟩
    rcases hq.2 with e | e <;> rw [e]
    · exact this.2.1
    · exact this.2.2

/-- A run that meets the conditions of the theorem: unit cube, initial velocities 1/10, steps of 1/2. -/
example (k : ℕ) : ∃ (s : ℕ → Sim ℝ Unit) (F : ℕ → Nodal ℝ), Trajectory (guidedCube 0 ⟨1, 1, 1⟩ 1 (1 / 10) (1 / 2) 7)
        (meshPhysics 0 (guidedCube 0 ⟨1, 1, 1⟩ 1 (1 / 10) (1 / 2) 7).X (serial [cubeBlk ⟨1, 1, 1⟩])) () k s ∧
      dofEnergy (guidedCube 0 ⟨1, 1, 1⟩ 1 (1 / 10) (1 / 2) 7) (cubeDofs {0}) (s k).velocity = 1 / 200
        + ∑ j ∈ Finset.range k, work (cubeDofs {0} ∪ cubeDofs {1, 2}) (F j) (F (j + 1)) (s j).displacement (s (j + 1)).displacement
        + 1 / 32 * ∑ q ∈ cubeDofs {0}, F k q.1 q.2 ^ 2 / (guidedCube 0 ⟨1, 1, 1⟩ 1 (1 / 10) (1 / 2) 7).mass q.1 := by
  obtain ⟨s, F, h1, -, h2⟩ := guided_cube_energy 0 ⟨1, 1, 1⟩ 1 (1 / 10) (1 / 2) 7 (by norm_num) (by norm_num) (by norm_num) (by norm_num)
    (by norm_num) k
  refine ⟨s, F, h1, ?_⟩
  rw [h2]
  norm_num

end NimbleSM.Integrate
