import Verif.Integrate.NonFinite
import Mathlib.Tactic.Linarith

/-!
# C137: a quasistatic run that reports success has a solution
-/

namespace NimbleSM.NonFinite

open Fl

section basic

variable {K : Type*} [Field K] [LinearOrder K]

theorem add_nan (a : Fl K) : a.add .nan = .nan := by cases a <;> rfl
theorem nan_add (a : Fl K) : Fl.add .nan a = .nan := by cases a <;> rfl
theorem mul_nan (a : Fl K) : a.mul .nan = .nan := by cases a <;> rfl
theorem nan_mul (a : Fl K) : Fl.mul .nan a = .nan := by cases a <;> rfl
theorem lt_nan (a : Fl K) : a.lt .nan = false := by cases a <;> rfl
theorem nan_lt (a : Fl K) : Fl.lt .nan a = false := by cases a <;> rfl
theorem sub_nan (a : Fl K) : a.sub .nan = .nan := by cases a <;> rfl

theorem foldl_add_nan (l : List ℕ) (f : ℕ → Fl K) : l.foldl (fun (acc : Fl K) i => acc.add (f i)) (.nan : Fl K) = .nan := by
  induction l with
  | nil => rfl
  | cons i l ih => rw [List.foldl_cons, nan_add, ih]

theorem foldl_add_mem (l : List ℕ) (f : ℕ → Fl K) (a : Fl K) (i : ℕ) (hi : i ∈ l) (hf : f i = .nan) :
    l.foldl (fun (acc : Fl K) i => acc.add (f i)) a = .nan := by
  induction l generalizing a with
  | nil => simp at hi
  | cons j l ih =>
    rw [List.foldl_cons]
    rcases List.mem_cons.mp hi with rfl | hi
    · rw [hf, add_nan, foldl_add_nan]
    · exact ih _ hi

/-- A residual that is not a number in one of its first `numNodes` entries has a norm that is not one. -/
theorem norm_nan (s : K → K) (numNodes : ℕ) (r : Vec K) (i : ℕ) (hi : i < numNodes) (h : r i = .nan) :
    residualNorm s numNodes r = .nan := by
  have : innerProduct numNodes r r = .nan :=
    foldl_add_mem _ (fun i => (r i).mul (r i)) _ i (List.mem_range.mpr hi) (by rw [h]; rfl)
  unfold residualNorm
  simp only [this, Fl.sqrt, nan_add]

/-- ... but an entry beyond has no effect at all, whatever it is. -/
theorem norm_ignores (s : K → K) (numNodes : ℕ) (r r' : Vec K) (h : ∀ i < numNodes, r i = r' i) :
    residualNorm s numNodes r = residualNorm s numNodes r' := by
  have h1 : ∀ (l : List ℕ), (∀ i ∈ l, i < numNodes) → ∀ a : Fl K,
      l.foldl (fun (acc : Fl K) i => acc.add ((r i).mul (r i))) a = l.foldl (fun (acc : Fl K) i => acc.add ((r' i).mul (r' i))) a := by
    intro l
    induction l with
    | nil => intro _ a; rfl
    | cons j l ih =>
      intro hl a
      rw [List.foldl_cons, List.foldl_cons, h j (hl j (by simp)), ih fun i hi => hl i (by simp [hi])]
  have h2 : ∀ (l : List ℕ), (∀ i ∈ l, i < numNodes) → ∀ a : Fl K,
      l.foldl (fun (m : Fl K) i => m.max (r i).abs) a = l.foldl (fun (m : Fl K) i => m.max (r' i).abs) a := by
    intro l
    induction l with
    | nil => intro _ a; rfl
    | cons j l ih =>
      intro hl a
      rw [List.foldl_cons, List.foldl_cons, h j (hl j (by simp)), ih fun i hi => hl i (by simp [hi])]
  unfold residualNorm innerProduct
  rw [h1 _ (fun i hi => List.mem_range.mp hi), h2 _ (fun i hi => List.mem_range.mp hi)]

/-! ## What is accepted -/

/-- The loop ends, with whatever displacement, as soon as the residual is not a number. -/
theorem newtonLoop_nan (P : Problem K) (tol : Fl K) (fuel iteration : ℕ) (x : Iterate K) (h : x.residual = .nan) :
    newtonLoop P tol fuel iteration x = some (x, iteration) := by
  cases fuel with
  | zero => rfl
  | succ fuel => rw [newtonLoop, h, lt_nan]; rfl

theorem newtonLoop_spec (P : Problem K) (tol : Fl K) : ∀ (fuel iteration : ℕ) (x y : Iterate K) (m : ℕ),
    newtonLoop P tol fuel iteration x = some (y, m) → x.residual = P.norm x.u →
    y.residual = P.norm y.u ∧ (m = iteration + fuel ∨ tol.lt y.residual = false)
  | 0, it, x, y, m, h, hx => by
    rw [newtonLoop, Option.some.injEq, Prod.mk.injEq] at h
    obtain ⟨rfl, rfl⟩ := h
    exact ⟨hx, .inl rfl⟩
  | fuel + 1, it, x, y, m, h, hx => by
    rw [newtonLoop] at h
    by_cases hc : tol.lt x.residual = true
    · rw [if_pos hc] at h
      cases hs : P.solve x.u x.r with
      | none => rw [hs] at h; cases h
      | some s =>
        rw [hs] at h
        have := newtonLoop_spec P tol fuel (it + 1) _ y m h (by
          unfold lineSearch
          simp only
          split <;> rfl)
        exact ⟨this.1, this.2.imp (fun e => by omega) id⟩
    · rw [if_neg hc, Option.some.injEq, Prod.mk.injEq] at h
      obtain ⟨rfl, rfl⟩ := h
      exact ⟨hx, .inr (by simpa using hc)⟩

/-- **C137, proved part.**  When a load step is accepted under an iteration limit that is not negative, the
residual norm of the displacement accepted is *not greater* than the tolerance, in the sense of the machine's
comparison; so if it and the tolerance are finite, it is at most the tolerance. -/
theorem accepted_not_greater_partial (P : Problem K) (hmax : 0 ≤ P.maxIter) (step : ℕ) (u u' : Vec K)
    (tol res : Fl K) (h : loadStep P step u = some (u', tol, res)) :
    res = P.norm u' ∧ tol = (Fl.fin P.relTol).mul (P.norm (P.kinematic (step + 1) u)) ∧ tol.lt res = false ∧
    ∀ a b : K, tol = .fin a → P.norm u' = .fin b → b ≤ a := by
  unfold loadStep at h
  simp only at h
  cases hl : newtonLoop P ((Fl.fin P.relTol).mul (P.norm (P.kinematic (step + 1) u))) P.maxIter.toNat 0
      ⟨P.kinematic (step + 1) u, P.resid (P.kinematic (step + 1) u), P.norm (P.kinematic (step + 1) u)⟩ with
  | none => rw [hl] at h; cases h
  | some r =>
    obtain ⟨y, m⟩ := r
    rw [hl] at h
    simp only at h
    split at h
    · cases h
    · rename_i hne
      rw [Option.some.injEq, Prod.mk.injEq, Prod.mk.injEq] at h
      obtain ⟨rfl, rfl, rfl⟩ := h
      obtain ⟨h1, h2⟩ := newtonLoop_spec P _ _ _ _ _ _ hl rfl
      have h3 := h2.resolve_left (fun e => hne (by omega))
      refine ⟨h1, rfl, h3, ?_⟩
      intro a b ha hb
      rw [h1, ha, hb] at h3
      simpa [Fl.lt] using h3

/-- **C137.**  A load step whose residual is not a number from the start is accepted as it is, without a
single iteration. -/
theorem nan_step_accepted (P : Problem K) (hmax : P.maxIter ≠ 0) (step : ℕ) (u : Vec K)
    (h : P.norm (P.kinematic (step + 1) u) = .nan) :
    loadStep P step u = some (P.kinematic (step + 1) u, .nan, .nan) := by
  unfold loadStep
  simp only [h, mul_nan]
  rw [newtonLoop_nan P .nan _ _ _ rfl]
  simp only
  rw [if_neg (by simpa using fun e => hmax e.symm)]

/-- **C137.**  A load step in which the line search produces a residual that is not a number is accepted with
that displacement. -/
theorem nan_line_search_accepted (P : Problem K) (step : ℕ) (u s : Vec K) (a b : K)
    (hmax : 2 ≤ P.maxIter) (hn : P.norm (P.kinematic (step + 1) u) = .fin b)
    (ha : P.relTol * b = a) (hgt : a < b)
    (hs : P.solve (P.kinematic (step + 1) u) (P.resid (P.kinematic (step + 1) u)) = some s)
    (hls : (lineSearch P ⟨P.kinematic (step + 1) u, P.resid (P.kinematic (step + 1) u), .fin b⟩ s).residual = .nan) :
    loadStep P step u = some ((lineSearch P ⟨P.kinematic (step + 1) u,
      P.resid (P.kinematic (step + 1) u), .fin b⟩ s).u, .fin a, .nan) := by
  obtain ⟨k, hk⟩ : ∃ k, P.maxIter.toNat = k + 1 := ⟨P.maxIter.toNat - 1, by omega⟩
  unfold loadStep
  simp only [hn, Fl.mul, ha, hk]
  rw [newtonLoop]
  simp only
  rw [if_pos (by simp [Fl.lt, hgt]), hs]
  simp only
  rw [newtonLoop_nan P _ _ _ _ hls]
  simp only [hls]
  rw [if_neg (by
    intro e
    simp only [Nat.cast_add, Nat.cast_zero, Nat.cast_one] at e
    omega)]

/-- **C137, when the secant search breaks down.**  If the full step leaves the product of residual and search
direction unchanged, the step length is not finite and every degree of freedom that the search direction does
not move - all constrained ones among them - becomes not a number. -/
theorem secant_breakdown (P : Problem K) (x : Iterate K) (s : Vec K) (q : K)
    (h1 : innerProduct P.unknowns s x.r = .fin q)
    (h2 : innerProduct P.unknowns s (P.resid fun i => (x.u i).sub (s i)) = .fin q)
    (hprop : ∀ v : Vec K, (∃ i < P.unknowns, v i = .nan) → P.norm v = .nan)
    (i : ℕ) (hi : i < P.unknowns) (hs : s i = .fin 0) :
    (lineSearch P x s).residual = .nan ∧ ∀ j < P.unknowns, s j = .fin 0 → (lineSearch P x s).u j = .nan := by
  have key : ∀ (j : ℕ), s j = .fin 0 → (x.u j).sub
      ((((Fl.fin (-1)).mul (innerProduct P.unknowns s x.r)).div
        ((innerProduct P.unknowns s (P.resid fun i => (x.u i).sub (s i))).sub (innerProduct P.unknowns s x.r))).mul
        (s j)) = .nan := by
    intro j hj
    rw [h1, h2, hj]
    have e : (Fl.fin q).sub (.fin q) = .fin 0 := by
      simp [Fl.sub, Fl.neg, Fl.add]
    rw [e]
    have e2 : ∀ y : K, (infOf y).mul (.fin (0 : K)) = .nan := by
      intro y
      unfold infOf
      split
      · simp [Fl.mul, infOf]
      · split
        · simp [Fl.mul, infOf]
        · rfl
    have e3 : ((Fl.fin (-1)).mul (Fl.fin q)).div (.fin 0) = infOf (-1 * q) := by
      simp [Fl.mul, Fl.div]
    rw [e3, e2, sub_nan]
  have hn := hprop (fun j => (x.u j).sub
      ((((Fl.fin (-1)).mul (innerProduct P.unknowns s x.r)).div
        ((innerProduct P.unknowns s (P.resid fun i => (x.u i).sub (s i))).sub (innerProduct P.unknowns s x.r))).mul
        (s j))) ⟨i, hi, key i hs⟩
  unfold lineSearch
  simp only [hn, lt_nan, Bool.false_eq_true, if_false, true_and]
  intro j _ hj
  exact key j hj

/-- **C137.**  A run in which the prescribed displacements make the residual of every load step not a number
- for instance an expression with a square root of a negative number - ends with status 0 and writes every
output it was asked for. -/
theorem nan_run_succeeds (P : Problem K) (hmax : P.maxIter ≠ 0)
    (hbc : ∀ k v, P.norm (P.kinematic (k + 1) v) = .nan) :
    ∃ u out, integrate P = some (u, out) ∧
      out.length = 1 + ((List.range P.numSteps).filter P.isOutputStep).length ∧
      (0 < P.numSteps → P.norm u = .nan) ∧ ∀ v ∈ out.drop 1, P.norm v = .nan := by
  have key : ∀ (ks : List ℕ) (u : Vec K) (out : List (Vec K)), ∃ u' out', runSteps P ks u out = some (u', out ++ out') ∧
      out'.length = (ks.filter P.isOutputStep).length ∧ (ks ≠ [] → P.norm u' = .nan) ∧ ∀ v ∈ out', P.norm v = .nan := by
    intro ks
    induction ks with
    | nil => intro u out; exact ⟨u, [], by simp [runSteps], rfl, by simp, by simp⟩
    | cons k ks ih =>
      intro u out
      rw [runSteps, nan_step_accepted P hmax k u (hbc k u)]
      simp only
      by_cases hk : P.isOutputStep k = true
      · rw [if_pos hk, List.filter_cons_of_pos hk]
        obtain ⟨u', out', e1, e2, e3, e4⟩ := ih (P.kinematic (k + 1) u) (out ++ [P.kinematic (k + 1) u])
        refine ⟨u', P.kinematic (k + 1) u :: out', by rw [e1]; simp, by simp [e2], fun _ => ?_, ?_⟩
        · by_cases hks : ks = []
          · subst hks
            rw [runSteps, Option.some.injEq, Prod.mk.injEq] at e1
            rw [← e1.1]; exact hbc k u
          · exact e3 hks
        · intro v hv
          rcases List.mem_cons.mp hv with rfl | hv
          · exact hbc k u
          · exact e4 v hv
      · rw [if_neg hk, List.filter_cons_of_neg hk]
        obtain ⟨u', out', e1, e2, e3, e4⟩ := ih (P.kinematic (k + 1) u) out
        refine ⟨u', out', e1, e2, fun _ => ?_, e4⟩
        by_cases hks : ks = []
        · subst hks
          rw [runSteps, Option.some.injEq, Prod.mk.injEq] at e1
          rw [← e1.1]; exact hbc k u
        · exact e3 hks
  obtain ⟨u', out', e1, e2, e3, e4⟩ := key (List.range P.numSteps) (P.kinematic 0 fun _ => .fin 0)
    [P.kinematic 0 fun _ => .fin 0]
  refine ⟨u', _, e1, by simp [e2, Nat.add_comm], fun h => e3 (by simp; omega), ?_⟩
  simpa using e4

end basic

/-! ## The property and its refutation -/

/-- **C137, full statement**: when a load step is accepted, under a positive iteration limit and a relative
tolerance between 0 and 1, its residual norm is a finite number. -/
def SuccessMeansFinite : Prop :=
  ∀ (P : Problem ℚ), 0 < P.maxIter → 0 < P.relTol → P.relTol < 1 → ∀ (step : ℕ) (u u' : Vec ℚ) (tol res : Fl ℚ),
    loadStep P step u = some (u', tol, res) → ∃ b, P.norm u' = .fin b

/-- One node with a load of one in the first direction and a force that does not depend on the position (it
only passes on what is not a number); the other two directions are fixed.  Nothing prescribed is other than
finite, and nothing is at the start. -/
def deadLoad : Problem ℚ where
  numNodes := 1
  unknowns := 3
  sqrt := id
  resid := fun u i => if i = 0 then
      (Fl.fin 1).add ((Fl.fin 0).mul (((u 0).add (u 1)).add (u 2))) else .fin 0
  solve := fun _ _ => some fun i => if i = 0 then .fin 1 else .fin 0
  kinematic := fun _ u => fun i => if i = 0 then u 0 else .fin 0
  relTol := 1 / 1000
  maxIter := 200
  numSteps := 1
  isOutputStep := fun _ => true

theorem deadLoad_prop (v : Vec ℚ) (h : ∃ i < deadLoad.unknowns, v i = .nan) : deadLoad.norm v = .nan := by
  obtain ⟨i, hi, h⟩ := h
  refine norm_nan _ 1 _ 0 (by omega) ?_
  change (Fl.fin 1).add ((Fl.fin 0).mul (((v 0).add (v 1)).add (v 2))) = .nan
  have hi3 : i < 3 := hi
  have : i = 0 ∨ i = 1 ∨ i = 2 := by omega
  rcases this with rfl | rfl | rfl
  · rw [h, nan_add, nan_add, mul_nan, add_nan]
  · rw [h, add_nan, nan_add, mul_nan, add_nan]
  · rw [h, add_nan, mul_nan, add_nan]

/-- The accepted step of the dead load: the *fixed* directions of the node are not a number. -/
theorem deadLoad_accepted : ∃ u' : Vec ℚ, loadStep deadLoad 0 (fun _ => .fin 0) = some (u', .fin (21 / 1000), .nan) ∧
    u' 1 = .nan ∧ u' 2 = .nan := by
  have hn : deadLoad.norm (deadLoad.kinematic (0 + 1) fun _ => .fin 0) = .fin 21 := by decide +kernel
  obtain ⟨h1, h2⟩ := secant_breakdown deadLoad ⟨deadLoad.kinematic (0 + 1) fun _ => .fin 0,
    deadLoad.resid (deadLoad.kinematic (0 + 1) fun _ => .fin 0), .fin 21⟩
    (fun i => if i = 0 then .fin 1 else .fin 0) 1 (by decide +kernel) (by decide +kernel) deadLoad_prop 1
    (by decide) rfl
  refine ⟨_, nan_line_search_accepted deadLoad 0 (fun _ => .fin 0) (fun i => if i = 0 then .fin 1 else .fin 0)
    (21 / 1000) 21 (by decide) hn (by norm_num [deadLoad]) (by norm_num) rfl h1, ?_, ?_⟩
  · exact h2 1 (by decide) rfl
  · exact h2 2 (by decide) rfl

/-- **C137, refuted.** -/
theorem success_with_nan : ¬ SuccessMeansFinite := by
  intro h
  obtain ⟨u', hu, _, _⟩ := deadLoad_accepted
  obtain ⟨b, hb⟩ := h deadLoad (by decide) (by norm_num [deadLoad]) (by norm_num [deadLoad]) 0 _ u' _ _ hu
  have := (accepted_not_greater_partial deadLoad (by decide) 0 _ u' _ _ hu).1
  rw [hb] at this
  cases this

/-- A spring of stiffness two, for which the procedure works: the residual is `2 u - 1` in the first
direction and the linear solver is exact. -/
def spring : Problem ℚ :=
  { deadLoad with
    resid := fun u i => if i = 0 then ((Fl.fin 2).mul (u 0)).add (.fin (-1)) else .fin 0
    solve := fun _ r => some fun i => if i = 0 then (r 0).div (.fin 2) else .fin 0 }

/-- Non-vacuity: the spring's load step is accepted after one iteration with residual zero. -/
example : ∃ u' : Vec ℚ, loadStep spring 0 (fun _ => .fin 0) = some (u', .fin (21 / 1000), .fin 0) ∧ u' 0 = .fin (1 / 2) := by
  have h : (loadStep spring 0 (fun _ => .fin 0)).map (fun r => (r.1 0, r.2)) =
      some (.fin (1 / 2), .fin (21 / 1000), .fin 0) := by decide +kernel
  cases hl : loadStep spring 0 (fun _ => .fin 0) with
  | none => rw [hl] at h; cases h
  | some r =>
    rw [hl, Option.map_some, Option.some.injEq, Prod.mk.injEq] at h
    exact ⟨r.1, by rw [← h.2], h.1⟩

/-- Non-vacuity of `nan_run_succeeds`: the spring with the first direction prescribed as not a number. -/
example : ∃ P : Problem ℚ, P.maxIter ≠ 0 ∧ P.numSteps = 3 ∧ ∀ k v, P.norm (P.kinematic (k + 1) v) = .nan :=
  ⟨{ spring with kinematic := fun _ _ => fun _ => .nan, numSteps := 3 }, by decide, rfl, fun _ _ =>
    norm_nan _ 1 _ 0 (by omega) rfl⟩

end NimbleSM.NonFinite
