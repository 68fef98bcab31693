import Verif.Uq.TrajectoryProps
import Mathlib.Algebra.Order.Ring.Rat

/-!
# C77, C80: concrete runs

One node on a spring.  A run where every hypothesis of TrajectoryProps.lean holds, and two runs where the full C77 fails:
with a prescribed displacement and with contact.
-/

namespace NimbleSM.Uq

open NimbleSM.Bc NimbleSM.Integrate

/-- Node set 1 is node 0. -/
def oneNode : NodeSets := fun i => if i = 1 then some [0] else none

/-- One node of mass 2, two steps of length 1, output at every step. -/
def demo (bcs : List (BoundaryCondition ℚ)) : Config ℚ where
  manager := { sets := oneNode, bcs := bcs, dim := 3, scheme := .explicit }
  X := fun _ _ => 0
  mass := fun _ => 2
  initialTime := 0
  finalTime := 2
  numSteps := 2
  frequency := 1

/-- An initial velocity 3 in direction x. -/
def kick : BoundaryCondition ℚ := ⟨.initialVelocity, 1, 0, .inl 3⟩

/-- The displacement in direction x is 1. -/
def pull : BoundaryCondition ℚ := ⟨.prescribedDisplacement, 1, 0, .inl 1⟩

/-- One exact sample; one approximate sample that selects it. -/
def demoSetup : Setup ℚ := { nnodes := 1, nexact := 1, napprox := 1, coeff := fun _ b => if b = 1 then 1 else 0 }

/-- A spring of the given stiffness. -/
def springRun (k : ℚ) (contact : Option (Unit → ℕ → Nodal ℚ → Option (Nodal ℚ × Unit))) : Physics ℚ Unit where
  external := fun _ _ _ _ _ _ => 0
  internal := fun s _ _ _ w => some (fun n i => -k * w n i, s)
  contact := contact
  updateStates := id

/-- Nominal stiffness 2, stiffness 4 in the sample. -/
def springs (contact : Option (Unit → ℕ → Nodal ℚ → Option (Nodal ℚ × Unit))) : UPhysics ℚ Unit where
  base := springRun 2 contact
  exact := fun _ u => some fun j => -4 * u j

/-- A contact force 1 everywhere. -/
def push : Unit → ℕ → Nodal ℚ → Option (Nodal ℚ × Unit) := fun s _ _ => some (fun _ _ => 1, s)

theorem springs_same (contact contact') : SameForces demoSetup (springs contact) (springRun 4 contact') 0 where
  internal := by
    intro u f w s' tp tc o h hu
    cases h
    exact ⟨_, _, rfl, fun n hn i hi => by simp only [hu n hn i hi]⟩
  external := fun _ _ _ _ _ _ _ _ _ => rfl

/-- The hypotheses of `sample_standalone_partial`, `selecting_sample_follows` and `nominal_undisturbed` hold for a run of two
steps whose sample differs from the nominal solution. -/
example : (demo [kick]).manager.scheme ≠ .quasistatic ∧ NoPrescribedDisplacement (demo [kick]).manager ∧
    SameForces demoSetup (springs none) (springRun 4 none) 0 ∧
    (∀ b ≤ demoSetup.nexact, demoSetup.coeff 0 b = if b = 0 + 1 then 1 else 0) ∧
    ∃ U, uloop (demo [kick]) demoSetup (springs none) 2 (ustart (demo [kick]) demoSetup ()) = some U ∧
      (U.samples 0).u 0 = 0 ∧ (U.samples 1).u 0 = 0 ∧ U.sim.displacement 0 0 = 3 := by
  refine ⟨by decide, ?_, springs_same _ _, fun b _ => rfl, ?_⟩
  · intro bc hbc
    simp only [demo, List.mem_singleton] at hbc
    subst hbc
    decide
  · refine ⟨_, rfl, ?_, ?_, ?_⟩ <;> decide +kernel

/-- The full C77 for the displacements: a sample follows the separate run with its forces, and with the contact of the
run with samples. -/
def Standalone : Prop :=
  ∀ (c : Config ℚ) (g : Setup ℚ) (p : UPhysics ℚ Unit) (q : Physics ℚ Unit) (k : ℕ), c.manager.scheme ≠ .quasistatic →
    k < g.nexact → SameForces g p q k → q.contact = p.base.contact →
    ∀ (m : ℕ) (U : USim ℚ Unit), uloop c g p m (ustart c g ()) = some U →
      ∃ V, loop c q m (start c ()) = some V ∧ ∀ n < g.nnodes, ∀ i < 3, (U.samples k).u (3 * n + i) = V.displacement n i

/-- **C77** fails with a prescribed displacement: the sample ignores it (the separate run has displacement 1). -/
theorem sample_ignores_prescribed_displacement :
    (∃ U, uloop (demo [pull]) demoSetup (springs none) 1 (ustart (demo [pull]) demoSetup ()) = some U ∧
      (U.samples 0).u 0 = 0 ∧ U.sim.displacement 0 0 = 1) ∧
    (∃ V, loop (demo [pull]) (springRun 4 none) 1 (start (demo [pull]) ()) = some V ∧ V.displacement 0 0 = 1) ∧ ¬ Standalone := by
  have h1 : ∃ U, uloop (demo [pull]) demoSetup (springs none) 1 (ustart (demo [pull]) demoSetup ()) = some U ∧
      (U.samples 0).u 0 = 0 ∧ U.sim.displacement 0 0 = 1 := by
    refine ⟨_, rfl, ?_, ?_⟩ <;> decide +kernel
  have h2 : ∃ V, loop (demo [pull]) (springRun 4 none) 1 (start (demo [pull]) ()) = some V ∧ V.displacement 0 0 = 1 := by
    refine ⟨_, rfl, ?_⟩; decide +kernel
  refine ⟨h1, h2, fun h => ?_⟩
  obtain ⟨U, hU, hu, -⟩ := h1
  obtain ⟨V, hV, hv⟩ := h2
  obtain ⟨V', hV', he⟩ := h _ _ _ _ 0 (by decide) (by decide) (springs_same none none) rfl 1 U hU
  rw [hV] at hV'
  cases hV'
  have := he 0 (by decide) 0 (by decide)
  rw [hu, hv] at this
  exact absurd this (by decide)

/-- **C77** fails with contact: the contact forces do not act on a sample. -/
theorem sample_ignores_contact :
    (∃ U, uloop (demo []) demoSetup (springs (some push)) 2 (ustart (demo []) demoSetup ()) = some U ∧
      (U.samples 0).u 0 = 0) ∧
    (∃ V, loop (demo []) (springRun 4 (some push)) 2 (start (demo []) ()) = some V ∧ V.displacement 0 0 = 1 / 2) ∧ ¬ Standalone := by
  have h1 : ∃ U, uloop (demo []) demoSetup (springs (some push)) 2 (ustart (demo []) demoSetup ()) = some U ∧
      (U.samples 0).u 0 = 0 := by
    refine ⟨_, rfl, ?_⟩; decide +kernel
  have h2 : ∃ V, loop (demo []) (springRun 4 (some push)) 2 (start (demo []) ()) = some V ∧ V.displacement 0 0 = 1 / 2 := by
    refine ⟨_, rfl, ?_⟩; decide +kernel
  refine ⟨h1, h2, fun h => ?_⟩
  obtain ⟨U, hU, hu⟩ := h1
  obtain ⟨V, hV, hv⟩ := h2
  obtain ⟨V', hV', he⟩ := h _ _ _ _ 0 (by decide) (by decide) (springs_same (some push) (some push)) rfl 2 U hU
  rw [hV] at hV'
  cases hV'
  have := he 0 (by decide) 0 (by decide)
  rw [hu, hv] at this
  exact absurd this (by decide +kernel)

end NimbleSM.Uq
