import Verif.Solver.SupportedProps
import Verif.Integrate.QuasistaticLemmas

/-!
# C130 with the tolerance of the code

`CG_SolveSystem` is called with its default tolerance 1e-16 (quasistatic_time_integrator.cc:302-304).  The increment
then does not solve the system exactly; but the prescribed components are exactly zero, whatever the
tolerance, and the residual at the free components is bounded by the tolerance.
-/

set_option linter.unusedSectionVars false

open scoped BigOperators Classical

namespace NimbleSM.Solver

open NimbleSM.Bc NimbleSM.Hex NimbleSM.Constitutive

variable {K : Type*} [Field K] [LinearOrder K] [IsStrictOrderedRing K]
variable {val : K} {nodeIds : List ℕ} {X : ℕ → Fin 3 → K} {blocks : List Connectivity}
  {elems : List (List ℕ × (ℕ → ℕ → K))} {pairs : List (ℕ × ℕ)}

/-- Specification: entry `(i, j)` of the stiffness of the body, the sum of the element stiffnesses. -/
def stiffness (nodeIds : List ℕ) (elems : List (List ℕ × (ℕ → ℕ → K))) (i j : ℕ) : K :=
  (elems.map fun x => contribution nodeIds 3 x.1 x.2 i j).sum

/-- Specification: what is left of the load `load` at the unknowns that are not prescribed once the
displacement `u` is applied, each squared component divided by the diagonal entry. -/
noncomputable def imbalance (nodeIds : List ℕ) (elems : List (List ℕ × (ℕ → ℕ → K))) (C : ℕ → Prop)
    (load u : ℕ → K) : K :=
  ∑ i ∈ (Finset.range (nodeIds.length * 3)).filter (¬ C ·),
    (load i - ∑ j ∈ Finset.range (nodeIds.length * 3), stiffness nodeIds elems i j * u j) ^ 2 /
      stiffness nodeIds elems i i

/-- **C130** with any tolerance: the increment of the linear solve is exactly zero at every prescribed
component, and the imbalance it leaves is at most the tolerance times the one before. -/
theorem linear_step_tolerance (h : Body val nodeIds X blocks elems)
    (hc : Connected X (elems.map Prod.fst))
    (hs : nonzeroStructure nodeIds 3 blocks = some pairs) {S : Crs K} (hS : HasPattern S pairs)
    {sets : NodeSets} {bcs : List (BoundaryCondition K)} (hw : WellPosed sets nodeIds bcs)
    (hco : ∀ bc ∈ bcs, bc.coordinate < 3)
    (hnode : ∀ bc ∈ bcs, ∀ ns, sets bc.nodeSetId = some ns → ∀ n ∈ ns, ∃ e ∈ blocks.flatten, n ∈ e)
    (hsup : Supported X sets bcs)
    (hfree : ∃ d < nodeIds.length * 3, ¬ Constrained sets nodeIds 3 bcs d)
    (load : ℕ → K) {scratch : CgScratch K} (hsc : ScratchOk scratch) (cgTol : K) (htol : 0 ≤ cgTol)
    (limit : ℤ) (hl : (nodeIds.length * 3 : ℤ) < limit) :
    ∃ iters u, linearStep sets nodeIds bcs elems S load scratch cgTol limit = .returned true iters u ∧
      (∀ d, Constrained sets nodeIds 3 bcs d → u d = 0) ∧
      imbalance nodeIds elems (Constrained sets nodeIds 3 bcs) load u
        ≤ cgTol * imbalance nodeIds elems (Constrained sets nodeIds 3 bcs) load (fun _ => 0) := by
  obtain ⟨hadm, hdiag, hrows⟩ := nonzeroStructure_admissible (K := K) hs h.used h.nonempty (by norm_num)
  obtain ⟨h₀, hz⟩ := setAllValues_zero hadm hS
  obtain ⟨A, hA, _, _⟩ := assembleTangent_spec hs h.used h.nonempty (by norm_num) h.posed
    elems (fun x hx => (h.node hx).1) h₀
  obtain ⟨hpA, hent⟩ := h.entry_eq hs h₀ hz hA
  obtain ⟨dg, hdg, hdpos⟩ := diagonalEntry_pos h hc hs h₀ hz hA hnode hsup hfree
  have hCr : ∀ d, Constrained sets nodeIds 3 bcs d → d < nodeIds.length * 3 := by
    rintro d ⟨bc, hbc, _, ns, hns, n, hn, g, hg, rfl⟩
    obtain ⟨e, he, hne⟩ := hnode bc hbc ns hns n hn
    obtain ⟨b, hb, he'⟩ := List.mem_flatten.mp he
    obtain ⟨g', hg', hlt'⟩ := h.posed b hb e he' n hne
    rw [hg] at hg'
    cases hg'
    have := hco bc hbc
    omega
  obtain ⟨D, hD, hpD, hDv⟩ := modifyTangent_crs hadm hpA dg sets nodeIds 3 bcs hw
    (fun d hd => hdiag d (hCr d hd))
  obtain ⟨rhs, hr, hrv⟩ := modifyRhs_spec sets nodeIds 3 bcs load hw
  obtain ⟨hspd, hsol, hDr⟩ := supported_spd h hc hs h₀ hz hA hw hco hnode hsup hdpos hD
  have hstep : linearStep sets nodeIds bcs elems S load scratch cgTol limit
      = cgSolve D rhs scratch (fun _ => 0) cgTol limit := by
    unfold linearStep
    rw [hA]
    simp only [hdg, Option.bind_some, hD, hr]
  obtain ⟨ok, iters, u, h1, h2, h3⟩ := cg_spd hsol hspd hsc rhs (fun _ => 0) cgTol htol limit
  obtain ⟨rfl, h4⟩ := h3 (by rw [hDr]; push_cast; exact hl)
  set C := Constrained sets nodeIds 3 bcs with hC
  set N := nodeIds.length * 3 with hN
  have hDfree : ∀ i j, ¬ C i → ¬ C j → entry D i j = stiffness nodeIds elems i j := by
    intro i j hi hj
    unfold stiffness
    rw [← hent]
    unfold entry
    rw [hDv]
    cases A.at? i j <;> simp [imposed, hi, hj]
  have hDzero : ∀ i j, C i → j ≠ i → entry D i j = 0 := by
    intro i j hi hj
    unfold entry
    rw [hDv]
    cases A.at? i j
    · rfl
    · simp [imposed, hi, hj.symm]
  have hu : ∀ d, C d → u d = 0 := fun d hd =>
    cg_decoupled_zero hsol hsc rhs (fun _ => 0) cgTol limit d (by rw [hDr]; exact hCr d hd)
      (fun j _ hj => hDzero d j hd hj) (by rw [hrv, if_pos hd]) rfl h1
  refine ⟨iters, u, hstep.trans h1, hu, ?_⟩
  have key : ∀ x : ℕ → K, (∀ d, C d → x d = 0) → resNorm D rhs x = imbalance nodeIds elems C load x := by
    intro x hx
    unfold resNorm imbalance
    rw [hDr, Finset.sum_filter]
    apply Finset.sum_congr rfl
    intro i hi
    by_cases hci : C i
    · rw [if_neg (not_not.mpr hci)]
      have : residual D rhs x i = 0 := by
        unfold residual
        rw [hrv, if_pos hci, Finset.sum_eq_zero, sub_zero]
        intro j _
        by_cases hj : j = i
        · rw [hj, hx i hci, mul_zero]
        · rw [hDzero i j hci hj, zero_mul]
      rw [this]; simp
    · rw [if_pos hci, hDfree i i hci hci]
      have : residual D rhs x i = load i - ∑ j ∈ Finset.range N, stiffness nodeIds elems i j * x j := by
        unfold residual
        rw [hrv, if_neg hci, hDr]
        congr 1
        apply Finset.sum_congr rfl
        intro j _
        by_cases hj : C j
        · rw [hx j hj, mul_zero, mul_zero]
        · rw [hDfree i j hci hj]
      rw [this, sq]
  rw [← key u hu, ← key (fun _ => 0) (fun _ _ => rfl)]
  exact h4

/-- Two stacked bricks with the tolerance and the iteration limit of the code
(nimble_linear_solver.h:265-276), for every residual. -/
example (m : Material ℚ) (hk : 0 < m.bulk) (hg : 0 < m.shear) (load : ℕ → ℚ) :
    ∃ (t₁ t₂ : ℕ → ℕ → ℚ) (pairs : List (ℕ × ℕ)) (iters : ℕ) (u : ℕ → ℚ),
      linearStep stackSets stackIds stackBcs
        [([0, 1, 2, 3, 4, 5, 6, 7], t₁), ([4, 5, 6, 7, 8, 9, 10, 11], t₂)]
        (allocated Crs.empty pairs) load CgScratch.fresh (1 / 10 ^ 16) 1000 = .returned true iters u ∧
      ∀ d, Constrained stackSets stackIds 3 stackBcs d → u d = 0 := by
  obtain ⟨t₁, t₂, pairs, ht₁, ht₂, hs, hbody, hw, hco, hnode, hfree⟩ := stack_problem m hk hg fun _ => 0
  obtain ⟨iters, u, c1, c2, c3⟩ := linear_step_tolerance hbody
    (by rw [hbody.same]; exact stack_connected) hs (allocated_hasPattern (Crs.empty : Crs ℚ) pairs) hw hco
    hnode stack_supported hfree load scratch_fresh_ok (1 / 10 ^ 16) (by norm_num) 1000 (by decide)
  exact ⟨t₁, t₂, pairs, iters, u, c1, c2⟩

end NimbleSM.Solver
