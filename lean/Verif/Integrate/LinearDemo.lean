import Verif.Integrate.LinearProps

/-!
# C145: a concrete linear problem

Two nodes on a line joined by a spring, node 0 moved by the prescribed displacement `3 t`, over the reals.
-/

namespace NimbleSM.Integrate

open NimbleSM.Bc NimbleSM.Solver

/-- The matrix `[[1,-1],[-1,1]]`. -/
noncomputable def springMatrix : Crs ℝ :=
  { allocated (Crs.empty : Crs ℝ) [(0, 0), (0, 1), (1, 0), (1, 1)] with data := [1, -1, -1, 1] }

theorem springMatrix_entry : entry springMatrix 0 0 = 1 ∧ entry springMatrix 0 1 = -1 ∧
    entry springMatrix 1 0 = -1 ∧ entry springMatrix 1 1 = 1 := ⟨rfl, rfl, rfl, rfl⟩

noncomputable def springR : QConfig ℝ where
  manager :=
    { sets := fun i => if i = 7 then some [0] else none
      bcs := [⟨.prescribedDisplacement, 7, 0, .inr fun _ _ _ t => 3 * t⟩], dim := 1, scheme := .quasistatic }
  X := fun n _ => n
  mass := fun _ => 1
  initialTime := 0
  finalTime := 2
  numSteps := 2
  frequency := 1
  numRanks := 1
  ids := [0, 1]
  relTol := 1 / 1000
  maxIter := 10
  cgTol := 1 / 10000000000000000
  cgMax := 1000
  sqrt := Real.sqrt

/-- The force of the spring. -/
noncomputable def springForce (u : Nodal ℝ) : Nodal ℝ := fun n _ => if n = 0 then u 1 0 - u 0 0 else u 0 0 - u 1 0

/-- The state counts force evaluations. -/
noncomputable def springPhysics : QPhysics ℝ ℕ where
  internal := fun s _ _ _ u => some (springForce u, s + 1)
  tangent := fun _ _ => some springMatrix
  updateStates := id
  scratch := fun _ _ => CgScratch.fresh

theorem springR_consistent : Consistent springR where
  ids := by constructor <;> simp [springR]
  posed := by
    intro bc hbc
    rw [List.mem_singleton.mp hbc]
    exact ⟨[0], rfl, by simp [springR]⟩
  coord := by
    intro bc hbc
    rw [List.mem_singleton.mp hbc]
    show 0 < 1
    omega

theorem springR_unknowns : springR.unknowns = 2 := by decide

theorem springR_held : Held springR.manager 0 0 :=
  ⟨_, List.mem_singleton.mpr rfl, by decide, rfl, [0], rfl, by simp⟩

theorem springR_regular : Regular springR springPhysics [(0, 0), (0, 1), (1, 0), (1, 1)] where
  tangent := by
    intro s u A h
    simp only [springPhysics, Option.some.injEq] at h
    subst h
    have hpat : HasPattern springMatrix [(0, 0), (0, 1), (1, 0), (1, 1)] := ⟨Crs.empty, _, rfl, rfl⟩
    have hrows : springMatrix.numRows = 2 := rfl
    refine ⟨⟨?_, hpat, by rw [hrows]; decide, by rw [hrows]; decide, ?_⟩, by rw [hrows]; rfl⟩
    · constructor
      · simp [rowMajorLT]
      · intro p hp r hr
        refine ⟨0, ?_⟩
        simp only [List.mem_cons, List.not_mem_nil, or_false] at hp ⊢
        rcases hp with rfl | rfl | rfl | rfl <;> simp at hr ⊢ <;> omega
    · rw [hrows]
      obtain ⟨h1, h2, h3, h4⟩ := springMatrix_entry
      intro i hi
      obtain rfl | rfl : i = 0 ∨ i = 1 := by omega
      · rw [h1]; exact one_ne_zero
      · rw [h4]; exact one_ne_zero
  scratch := fun _ _ => scratch_fresh_ok

theorem springR_linear : LinearProblem springR springPhysics springMatrix springForce where
  tangent := fun _ _ => rfl
  internal := fun s _ _ _ _ => ⟨s + 1, rfl⟩
  affine := by
    intro u u' s h n hn i hi
    have hn' : n < 2 := hn
    have hi' : i < 1 := hi
    obtain rfl : i = 0 := by omega
    have h0 := h 0 (by decide) 0 (by decide)
    have h1 := h 1 (by decide) 0 (by decide)
    have p0 : place springR 0 0 = 0 := rfl
    have p1 : place springR 1 0 = 1 := rfl
    obtain ⟨e1, e2, e3, e4⟩ := springMatrix_entry
    rw [springR_unknowns, Finset.sum_range_succ, Finset.sum_range_one]
    rw [p0] at h0
    rw [p1] at h1
    obtain rfl | rfl : n = 0 ∨ n = 1 := by omega
    · rw [p0, e1, e2]; simp only [springForce, if_true]; rw [h0, h1]; ring
    · rw [p1, e3, e4]; simp only [springForce]; rw [h0, h1]; norm_num; ring

theorem springR_spd : FreeSPD springR springMatrix where
  symm := by
    rw [springR_unknowns]
    obtain ⟨e1, e2, e3, e4⟩ := springMatrix_entry
    intro a ha b hb
    obtain rfl | rfl : a = 0 ∨ a = 1 := by omega
    · obtain rfl | rfl : b = 0 ∨ b = 1 := by omega
      · rfl
      · rw [e2, e3]
    · obtain rfl | rfl : b = 0 ∨ b = 1 := by omega
      · rw [e2, e3]
      · rfl
  pos := by
    intro v hv hex
    have h0 : v 0 = 0 := hv 0 (by decide) 0 (by decide) springR_held
    rw [springR_unknowns] at hex ⊢
    have h1 : v 1 ≠ 0 := by
      obtain ⟨a, ha, hne⟩ := hex
      obtain rfl | rfl : a = 0 ∨ a = 1 := by omega
      · exact absurd h0 hne
      · exact hne
    obtain ⟨e1, e2, e3, e4⟩ := springMatrix_entry
    simp only [Finset.sum_range_succ, Finset.sum_range_zero, e1, e2, e3, e4, h0]
    have := mul_self_pos.mpr h1
    linarith

theorem springR_run : LinearRun springR springPhysics [(0, 0), (0, 1), (1, 0), (1, 1)] springMatrix springForce 1 1 where
  consistent := springR_consistent
  sqrt := fun x hx => ⟨Real.sqrt_nonneg x, Real.mul_self_sqrt hx⟩
  dim := by decide
  regular := springR_regular
  linear := springR_linear
  spd := springR_spd
  pos := one_pos
  diag := by
    rw [springR_unknowns]
    obtain ⟨e1, e2, e3, e4⟩ := springMatrix_entry
    intro a ha
    obtain rfl | rfl : a = 0 ∨ a = 1 := by omega
    · rw [e1]; exact ⟨le_rfl, le_rfl⟩
    · rw [e4]; exact ⟨le_rfl, le_rfl⟩
  cgTol := by constructor <;> norm_num [springR]
  cgMax := by rw [springR_unknowns]; norm_num [springR]
  relTol := by norm_num [springR]
  maxIter := by norm_num [springR]

/-- Non-vacuity of C145: with the default tolerances of the linear solver (1e-16) and a nonlinear tolerance of
1e-3 the run ends with status 0. -/
theorem springR_finishes : ∃ q, qIntegrate springR springPhysics 0 = .finished q := by
  apply linear_run springR springPhysics springR_run (by decide) (by norm_num [springR])
  intro r
  have hs : ∀ x : ℝ, 0 ≤ x → 0 ≤ springR.sqrt x ∧ springR.sqrt x * springR.sqrt x = x := springR_run.sqrt
  have hN : springR.numNodes = 2 := by decide
  have hlow : ∑ a ∈ Finset.range springR.unknowns, r a * r a ≤ residualNorm springR r * residualNorm springR r := by
    unfold residualNorm
    rw [innerProduct_eq, hN, springR_unknowns]
    set q := ∑ j ∈ Finset.range 2, r j * r j with hq
    obtain ⟨h0, h1⟩ := hs q (Finset.sum_nonneg fun j _ => mul_self_nonneg _)
    have h2 := (infinityNorm_ge 2 r).1
    nlinarith [mul_nonneg h0 h2, mul_nonneg h2 h2]
  have hnn := Finset.sum_nonneg (s := Finset.range springR.unknowns) fun a _ => mul_self_nonneg (r a)
  have e1 : springR.cgTol = 1 / 10000000000000000 := rfl
  have e2 : springR.relTol = 1 / 1000 := rfl
  rw [e1, e2]
  nlinarith

/-- The first step really iterates: node 0 is moved while node 1 stays, the residual is not zero. -/
theorem springR_moves : springForce (fun n _ => if n = 0 then 3 else 0) 1 0 = 3 := by
  simp [springForce]

end NimbleSM.Integrate
