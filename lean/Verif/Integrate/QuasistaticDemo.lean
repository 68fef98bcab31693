import Verif.Integrate.QuasistaticProps
import Mathlib.Analysis.Real.Sqrt

/-!
# Quasistatic integration: concrete runs and refutations
-/

namespace NimbleSM.Integrate

open NimbleSM.Bc NimbleSM.Solver

/-! ## C46 is false -/

/-- One free node in three dimensions. -/
noncomputable def blindConfig (relTol : ℝ) (maxIter : ℕ) : QConfig ℝ where
  manager := { sets := fun _ => none, bcs := [], dim := 3, scheme := .quasistatic }
  X := fun _ _ => 0
  mass := fun _ => 1
  initialTime := 0
  finalTime := 1
  numSteps := 1
  frequency := 1
  numRanks := 1
  ids := [0]
  relTol := relTol
  maxIter := maxIter + 1
  cgTol := 0
  cgMax := 1000
  sqrt := Real.sqrt

/-- A constant force in the second direction. -/
noncomputable def pull (R : ℝ) : QPhysics ℝ Unit where
  internal := fun _ _ _ _ _ => some (fun _ i => if i = 1 then R else 0, ())
  tangent := fun _ _ => none
  updateStates := id
  scratch := fun _ _ => CgScratch.fresh

theorem blind_consistent (relTol : ℝ) (maxIter : ℕ) : Consistent (blindConfig relTol maxIter) where
  ids := ⟨by simp [blindConfig], by simp [blindConfig]⟩
  posed := by intro bc hbc; exact absurd hbc (List.not_mem_nil)
  coord := by intro bc hbc; exact absurd hbc (List.not_mem_nil)

/-- **C46 is false of the code**: for every tolerance, every positive iteration limit and every `R`, there
is a run that ends with status 0 although the residual at an unconstrained degree of freedom is `R`: only
the first `num_nodes` of the `3 * num_nodes` unknowns are looked at. -/
theorem quasistatic_convergence_refuted (relTol R : ℝ) (maxIter : ℕ) :
    ∃ s r st, qIntegrate (blindConfig relTol maxIter) (pull R) () = .finished s ∧
      computeResidual (blindConfig relTol maxIter) (pull R) () 0 1 true s.displacement
        = some (r, residualNorm (blindConfig relTol maxIter) r, st) ∧
      ¬ Held (blindConfig relTol maxIter).manager 0 1 ∧ |r 1| = |R| := by
  set c := blindConfig relTol maxIter with hc
  have hcons : Consistent c := blind_consistent relTol maxIter
  have hheld : ∀ n i, ¬ Held c.manager n i := by
    rintro n i ⟨bc, hb, -⟩
    exact absurd hb (List.not_mem_nil)
  have hres : ∀ tp tc out u, ∃ r, computeResidual c (pull R) () tp tc out u = some (r, 0, ()) ∧
      residualNorm c r = 0 ∧ r 1 = -R := by
    intro tp tc out u
    obtain ⟨r, h1, h2⟩ := residual_vector_spec c hcons (pull R) () tp tc out u
      (fun _ i => if i = 1 then R else 0) () rfl
    have hr : ∀ i < 3, r i = -(if i = 1 then R else 0) := by
      intro i hi
      have := h2 0 (by simp [hc, blindConfig, QConfig.numNodes]) i hi
      rw [if_neg (hheld 0 i)] at this
      simpa [hc, blindConfig] using this
    have hz : residualNorm c r = 0 := by
      apply residualNorm_blind c (by simp [hc, blindConfig])
      intro i hi
      have : i = 0 := by simp [hc, blindConfig, QConfig.numNodes] at hi; omega
      rw [this, hr 0 (by omega)]; simp
    refine ⟨r, by rw [h1, hz], hz, ?_⟩
    rw [hr 1 (by omega)]; simp
  have hstep : ∃ s, loadStep c (pull R) 0 (qStart c ()) = .ok s := by
    unfold loadStep
    simp only
    obtain ⟨r, h1, -⟩ := hres (qStart c ()).time ((qStart c ()).time + c.dt) (c.isOutputStep 0)
      (kinematic c.toConfig ((qStart c ()).time + c.dt) (qStart c ()).time (qStart c ()).displacement
        (qStart c ()).velocity).1
    have hst : (qStart c ()).state = () := rfl
    rw [hst, h1]
    have hfuel : c.maxIter.toNat = maxIter + 1 := by simp [hc, blindConfig]
    have hne : ¬ (((0 : ℕ) : ℤ) = c.maxIter) := by simp [hc, blindConfig]; omega
    simp only [hfuel, newtonLoop, mul_zero, gt_iff_lt, lt_self_iff_false, if_false]
    rw [if_neg hne]
    exact ⟨_, rfl⟩
  obtain ⟨s, hs⟩ := hstep
  obtain ⟨r, h1, h2, h3⟩ := hres 0 1 true s.displacement
  refine ⟨s, r, (), ?_, by rw [h2]; exact h1, hheld 0 1, by rw [h3, abs_neg]⟩
  unfold qIntegrate
  rw [if_neg (by simp [hc, blindConfig]), if_neg (by simp [hc, blindConfig])]
  have : qLoop c (pull R) c.numSteps (qStart c ()) = .ok s := by
    show (List.range 1).foldlM _ _ = _
    simp only [List.range_succ, List.range_zero, List.nil_append, List.foldlM_cons, List.foldlM_nil]
    rw [hs]; rfl
  rw [this]

/-! ## Runs over the rationals -/

/-- A square root for rationals, exact on squares of rationals. -/
def ratSqrt (x : ℚ) : ℚ := (Nat.sqrt x.num.toNat : ℚ) / (Nat.sqrt x.den : ℚ)

/-- What can be compared: status, and the outputs at the first `n` nodes in the first direction. -/
def QResult.summary {S : Type*} (n : ℕ) (f : S → ℚ) : QResult ℚ S → Option (List (ℚ × List ℚ × ℚ))
  | .finished s => some (s.outputs.map fun o => (o.1, (List.range n).map fun k => o.2.1 k 0, f o.2.2))
  | _ => none

def QResult.failedB {S : Type*} : QResult ℚ S → Bool
  | .stopped .failed => true
  | _ => false

/-- Two nodes on a line joined by a spring; node 0 is moved by the prescribed displacement `3 t`. -/
def springConfig (maxIter : ℤ) : QConfig ℚ where
  manager :=
    { sets := fun i => if i = 7 then some [0] else none
      bcs := [⟨.prescribedDisplacement, 7, 0, .inr fun _ _ _ t => 3 * t⟩], dim := 1, scheme := .quasistatic }
  X := fun n _ => n
  mass := fun _ => 1
  initialTime := 0
  finalTime := 2
  numSteps := 2
  frequency := 1
  numRanks := 1
  ids := [0, 1]
  relTol := 1 / 1000
  maxIter := maxIter
  cgTol := 1 / 10000000000000000
  cgMax := 1000
  sqrt := ratSqrt

/-- The spring force; the state counts force evaluations. -/
def spring : QPhysics ℚ ℕ where
  internal := fun s _ _ _ u => some (fun n _ => if n = 0 then u 1 0 - u 0 0 else u 0 0 - u 1 0, s + 1)
  tangent := fun _ _ => some freeSpring
  updateStates := id
  scratch := fun _ _ => CgScratch.fresh

theorem spring_consistent (maxIter : ℤ) : Consistent (springConfig maxIter) where
  ids := by constructor <;> simp [springConfig]
  posed := by
    intro bc hbc
    rw [List.mem_singleton.mp hbc]
    exact ⟨[0], rfl, by simp [springConfig]⟩
  coord := by
    intro bc hbc
    rw [List.mem_singleton.mp hbc]
    show 0 < 1
    omega

theorem spring_regular (maxIter : ℤ) :
    Regular (springConfig maxIter) spring [(0, 0), (0, 1), (1, 0), (1, 1)] where
  tangent := by
    intro s u A h
    simp only [spring, Option.some.injEq] at h
    subst h
    have hpat : HasPattern freeSpring [(0, 0), (0, 1), (1, 0), (1, 1)] := ⟨Crs.empty, _, rfl, rfl⟩
    have hrows : freeSpring.numRows = 2 := by decide +kernel
    refine ⟨⟨?_, hpat, by rw [hrows]; decide, by rw [hrows]; decide, ?_⟩, by rw [hrows]; rfl⟩
    · constructor
      · simp [rowMajorLT]
      · intro p hp r hr
        refine ⟨0, ?_⟩
        simp only [List.mem_cons, List.not_mem_nil, or_false] at hp ⊢
        rcases hp with rfl | rfl | rfl | rfl <;> simp at hr ⊢ <;> omega
    · rw [hrows]; unfold entry; decide +kernel
  scratch := fun _ _ => scratch_fresh_ok

/-- Non-vacuity of C46/C69/C71: the run ends with status 0; both nodes follow the prescribed displacement. -/
theorem spring_run : (qIntegrate (springConfig 10) spring 0).summary 2 (fun s : ℕ => (s : ℚ))
    = some [(0, [0, 0], 0), (1, [3, 3], 3), (2, [6, 6], 6)] := by decide +kernel

/-- **C71 finding**: a step that meets the tolerance in the last allowed iteration is reported as a
failure: one iteration suffices here (`spring_run` needs no more), and yet the limit 1 gives status 1. -/
theorem converged_at_limit_fails : (qIntegrate (springConfig 1) spring 0).failedB = true ∧
    (qIntegrate (springConfig 2) spring 0).summary 2 (fun s : ℕ => (s : ℚ))
      = some [(0, [0, 0], 0), (1, [3, 3], 3), (2, [6, 6], 6)] := by decide +kernel

/-- **C71 finding**: with a negative iteration limit nothing is iterated and status 0 is returned: node 1
stays behind, the spring is stretched by 3 and then by 6. -/
theorem negative_limit_succeeds : (qIntegrate (springConfig (-1)) spring 0).summary 2 (fun s : ℕ => (s : ℚ))
    = some [(0, [0, 0], 0), (1, [3, 0], 1), (2, [6, 0], 2)] := by decide +kernel

/-! ## C72: element data of another displacement -/

/-- One node on a line, pulled by a nonlinear spring; the state is the displacement at the last force
evaluation, as for the deformation gradients and stresses stored with the elements. -/
def softening : QPhysics ℚ ℚ where
  internal := fun _ _ _ _ u =>
    some (fun _ _ => -(if u 0 0 = 0 then 1 else if u 0 0 = -1 then 1 / 2 else -1), u 0 0)
  tangent := fun _ _ => some { allocated (Crs.empty : Crs ℚ) [(0, 0)] with data := [1] }
  updateStates := id
  scratch := fun _ _ => CgScratch.fresh

def softConfig : QConfig ℚ where
  manager := { sets := fun _ => none, bcs := [], dim := 1, scheme := .quasistatic }
  X := fun n _ => n
  mass := fun _ => 1
  initialTime := 0
  finalTime := 1
  numSteps := 1
  frequency := 1
  numRanks := 1
  ids := [0]
  relTol := 6 / 10
  maxIter := 10
  cgTol := 1 / 10000000000000000
  cgMax := 1000
  sqrt := ratSqrt

/-- **C72 is false of the code**: when the full Newton step is better than the secant step, the displacement
written is that of the full step (here -1) while the element data are those of the secant step (here -2). -/
theorem stale_element_data : (qIntegrate softConfig softening 0).summary 1 id
    = some [(0, [0], 0), (1, [-1], -2)] := by decide +kernel

/-- **C72 (partial)**: the element data are always those of the secant step; that is the accepted
displacement unless the full Newton step has a strictly smaller residual. -/
theorem secant_state_partial {K S : Type*} [Field K] [LinearOrder K] (c : QConfig K) (p : QPhysics K S)
    (step it : ℕ) (tp tc : K) (out : Bool) (x x' : Newton K S)
    (h : newtonStep c p step it tp tc out x = .ok x') :
    ∃ s F u r ρ, p.internal s tp tc out u = some (F, x'.state) ∧
      computeResidual c p s tp tc out u = some (r, ρ, x'.state) ∧ x'.residual ≤ ρ ∧
      (x'.displacement = u ∨ x'.residual < ρ) := by
  unfold newtonStep at h
  split at h
  · simp at h
  · simp only at h
    split at h
    · simp at h
    · split_ifs at h with h0
      split at h
      · simp at h
      · rename_i rv rr s' hR
        have hR' := hR
        unfold computeResidual at hR
        simp only [Option.bind_eq_some_iff, Option.some.injEq, Prod.mk.injEq] at hR
        obtain ⟨⟨F, s1⟩, h1, _, _, _, _, _, _, rfl⟩ := hR
        split_ifs at h with hlt
        · simp only [Except.ok.injEq] at h; subst h
          exact ⟨_, F, _, _, _, h1, hR', hlt.le, Or.inr hlt⟩
        · simp only [Except.ok.injEq] at h; subst h
          exact ⟨_, F, _, _, _, h1, hR', le_rfl, Or.inl rfl⟩

end NimbleSM.Integrate
