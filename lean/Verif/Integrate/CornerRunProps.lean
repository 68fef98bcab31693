import Verif.Assembly.CornerProps
import Verif.Integrate.InvarianceDemo

/-!
# C121, runs: the results do not depend on the corner from which the elements are listed
-/

open scoped BigOperators

namespace NimbleSM.Integrate

open NimbleSM.Bc NimbleSM.Assembly NimbleSM.Hex NimbleSM.Constitutive

variable {K : Type*} [Field K] [LinearOrder K] [IsStrictOrderedRing K]

/-- **C121.**  Two meshes that differ only in the corner and edge from which each element is listed: the masses the code computes are
the same, and so are all states of the run (times, displacements, velocities, accelerations and everything written to the output),
step by step, up to and including an abort.  Any material law, any boundary conditions; no contact. -/
theorem run_relisted (val : K) (c : Config K) (blocks blocks' : List (Blk K)) (h : RelistedBlocks blocks blocks') (k : ℕ) :
    computeLumpedMassField val (flat c.X) blocks' (fun _ => 0) = computeLumpedMassField val (flat c.X) blocks (fun _ => 0) ∧
    loop c (meshPhysics val c.X (serial blocks')) k (start c ()) = loop c (meshPhysics val c.X (serial blocks)) k (start c ()) := by
  refine ⟨lumped_mass_relisted val blocks blocks' h _ _, ?_⟩
  have : meshPhysics val c.X (serial blocks') = meshPhysics val c.X (serial blocks) := by
    unfold meshPhysics
    simp only [internal_force_relisted val _ _ h.serial]
  rw [this]

/-! ## The hypotheses are met -/

/-- The order 1 2 3 0 5 6 7 4: a quarter turn about the third natural axis. -/
def quarterOrder : Equiv.Perm (Fin 8) where
  toFun := ![1, 2, 3, 0, 5, 6, 7, 4]
  invFun := ![3, 0, 1, 2, 7, 4, 5, 6]
  left_inv := by decide
  right_inv := by decide

/-- The order 3 2 1 0 7 6 5 4: a mirror image. -/
def mirrorOrder : Equiv.Perm (Fin 8) where
  toFun := ![3, 2, 1, 0, 7, 6, 5, 4]
  invFun := ![3, 2, 1, 0, 7, 6, 5, 4]
  left_inv := by decide
  right_inv := by decide

theorem quarterOrder_rotation : CubeRotation quarterOrder :=
  ⟨Equiv.swap 0 1, ![-1, 1, 1], ⟨by decide +kernel⟩, by decide +kernel⟩

theorem mirrorOrder_reflection : CubeReflection mirrorOrder :=
  ⟨1, ![1, -1, 1], ⟨by decide +kernel⟩, by decide +kernel⟩

/-- The cube with its only element listed in the order `ρ`. -/
noncomputable def listedCube (m : Material ℝ) (ρ : Equiv.Perm (Fin 8)) : Blk ℝ :=
  { cubeBlk m with conn := fun k => if hk : k < 8 then (ρ⁻¹ ⟨k, hk⟩ : Fin 8) else k }

theorem listedCube_listed (m : Material ℝ) (ρ : Equiv.Perm (Fin 8)) : ListedAs (cubeBlk m) (listedCube m ρ) 0 ρ := by
  intro n
  simp [Blk.nodeId, listedCube, cubeBlk]

theorem listedCube_relisted (m : Material ℝ) (ρ : Equiv.Perm (Fin 8)) (hρ : CubeRotation ρ) :
    RelistedBlocks [cubeBlk m] [listedCube m ρ] := by
  refine List.Forall₂.cons ⟨rfl, rfl, rfl, rfl, fun e he => ?_⟩ List.Forall₂.nil
  have : e = 0 := by simpa [cubeBlk] using he
  subst this
  exact ⟨ρ, hρ, listedCube_listed m ρ⟩

/-- The two connectivities are different, and the masses of the cube are computed. -/
example (m : Material ℝ) : RelistedBlocks [cubeBlk m] [listedCube m quarterOrder] ∧
    (listedCube m quarterOrder).nodeId 0 0 ≠ (cubeBlk m).nodeId 0 0 ∧
    ∃ mass, computeLumpedMassField gaussVal (flat unitX) [listedCube m quarterOrder] (fun _ => 0) = some mass := by
  refine ⟨listedCube_relisted m _ quarterOrder_rotation, ?_, ?_⟩
  · simpa [Blk.nodeId, listedCube, cubeBlk] using (by decide : ¬ (Equiv.symm quarterOrder) 0 = 0)
  · rw [lumped_mass_relisted gaussVal _ _ (listedCube_relisted m _ quarterOrder_rotation), lumped_mass_field_defined]
    intro b hb e he p
    obtain rfl := List.mem_singleton.mp hb
    have : e = 0 := by simpa [cubeBlk] using he
    subst this
    rw [unitX_jac]
    simp

/-- The mirrored cube is refused. -/
example (m : Material ℝ) : computeLumpedMassField gaussVal (flat unitX) [listedCube m mirrorOrder] (fun _ => 0) = none := by
  refine (mirrored_refused gaussVal (cubeBlk m) _ 0 mirrorOrder mirrorOrder_reflection (listedCube_listed m _) (flat unitX) (fun _ => 0) 0
    ?_).1 _ _ (List.mem_singleton.mpr rfl) (by simp [listedCube, cubeBlk])
  rw [unitX_jac]
  simp

end NimbleSM.Integrate
