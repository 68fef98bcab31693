import Verif.Solver.Cg
import Verif.Solver.CgMath
import Verif.Solver.CrsProps

/-!
# C22: the conjugate gradient solver
-/

namespace NimbleSM.Solver

open CgMath Matrix

variable {K : Type*} [Field K] [LinearOrder K] [IsStrictOrderedRing K] {pairs : List (ℕ × ℕ)}

/-! ## Specification -/

/-- The value of entry `(i,j)`, unlisted entries being zero. -/
def entry (A : Crs K) (i j : ℕ) : K := (A.at? i j).getD 0

/-- The residual `b - A x`. -/
def residual (A : Crs K) (b x : ℕ → K) (i : ℕ) : K :=
  b i - ∑ j ∈ Finset.range A.numRows, entry A i j * x j

/-- The preconditioned size of the residual, `Σ_i (b - A x)_i² / A_ii`. -/
def resNorm (A : Crs K) (b x : ℕ → K) : K :=
  ∑ i ∈ Finset.range A.numRows, residual A b x i * residual A b x i / entry A i i

/-- A square matrix with all diagonal entries present and non-zero. -/
structure Solvable (A : Crs K) (pairs : List (ℕ × ℕ)) : Prop where
  adm : Admissible pairs
  pat : HasPattern A pairs
  cols : ∀ p ∈ pairs, p.2 < A.numRows
  diag : ∀ i < A.numRows, (i, i) ∈ pairs
  diagNe : ∀ i < A.numRows, entry A i i ≠ 0

/-- A scratch space that is fresh or has been used by earlier solves. -/
def ScratchOk (c : CgScratch K) : Prop := c.M.numRows = c.len ∧ c.M.data.length = c.len

theorem scratch_fresh_ok : ScratchOk (CgScratch.fresh : CgScratch K) := ⟨rfl, rfl⟩

/-- Symmetric and positive definite. -/
structure SPD (A : Crs K) : Prop where
  symm : ∀ i < A.numRows, ∀ j < A.numRows, entry A i j = entry A j i
  pos : ∀ v : ℕ → K, (∃ i < A.numRows, v i ≠ 0) →
    0 < ∑ i ∈ Finset.range A.numRows, v i * ∑ j ∈ Finset.range A.numRows, entry A i j * v j

/-! ## Lemmas -/

theorem resize_ok {c : CgScratch K} (h : ScratchOk c) (n : ℕ) :
    (c.resize n).M.numRows = n ∧ (c.resize n).M.data.length = n := by
  unfold CgScratch.resize
  split
  · rename_i hn
    have : c.M.numRows ≠ n := by rw [h.1]; exact Ne.symm hn
    obtain ⟨h1, h2⟩ := allocateDiagonal_spec c.M n this
    exact ⟨h1, by simp only; rw [h2]; simp⟩
  · rename_i hn
    simp only [ne_eq, not_not] at hn
    subst hn
    exact h

/-- The preconditioner in use: `1 / A_ii` on the diagonal. -/
def PrecondOk (A M : Crs K) : Prop :=
  M.numRows = A.numRows ∧ M.data.length = A.numRows ∧
    ∀ i < A.numRows, M.data[i]? = some (1 / entry A i i)

theorem precond_ok {A : Crs K} (hS : Solvable A pairs) {c : CgScratch K} (h : ScratchOk c) :
    ∃ M, populatePreconditioner A (c.resize A.numRows).M = some M ∧ PrecondOk A M := by
  obtain ⟨h1, h2⟩ := resize_ok h A.numRows
  obtain ⟨M, e, m1, m2, m3⟩ := populatePreconditioner_spec hS.adm hS.pat hS.diag (M := (c.resize A.numRows).M)
    (by rw [h1, h2]) h1
  refine ⟨M, e, m1, m2, fun i hi => ?_⟩
  rw [m3 i hi]
  obtain ⟨v, hv⟩ := Option.isSome_iff_exists.mp ((at_isSome_iff hS.adm hS.pat i i).mpr (hS.diag i hi))
  simp [entry, hv]

theorem diagMatVec_precond {A M : Crs K} (hM : PrecondOk A M) (r s : ℕ → K) :
    ∃ s', M.diagMatVec r s = some s' ∧ ∀ i < A.numRows, s' i = r i / entry A i i := by
  obtain ⟨h1, h2⟩ := diagMatVec_spec M r s
  obtain ⟨m1, m2, m3⟩ := hM
  cases hd : M.diagMatVec r s with
  | none => exact absurd (h1.mp hd) (by simp [m1, m2])
  | some s' =>
    refine ⟨s', rfl, fun i hi => ?_⟩
    have hi' : i < M.data.length := by omega
    rw [(h2 s' hd).1 i hi']
    have := m3 i hi
    rw [List.getElem?_eq_getElem hi'] at this
    rw [Option.some.inj this]
    ring

/-- What holds of the loop variables throughout the iteration: the stored residual is `b - A x` and the
tested quantity is its preconditioned size; entries of `x` past the last row are those of `x0`. -/
structure LoopInv (A : Crs K) (b x0 : ℕ → K) (st : CgState K) : Prop where
  res : ∀ i < A.numRows, st.r i = residual A b st.x i
  delta : st.deltaNew = resNorm A b st.x
  frame : ∀ i, A.numRows ≤ i → st.x i = x0 i

theorem matVec_rows {A : Crs K} (hS : Solvable A pairs) (v r : ℕ → K) {i : ℕ} (hi : i < A.numRows) :
    A.matVec v r i = ∑ j ∈ Finset.range A.numRows, entry A i j * v j :=
  (matVec_spec hS.adm hS.pat v r A.numRows hS.cols).1 i hi

theorem inner_precond {A : Crs K} {b x r s : ℕ → K} (hr : ∀ i < A.numRows, r i = residual A b x i)
    (hs : ∀ i < A.numRows, s i = r i / entry A i i) :
    innerProduct A.numRows r s = resNorm A b x := by
  rw [innerProduct_eq, resNorm]
  refine Finset.sum_congr rfl fun i hi => ?_
  have hi' := Finset.mem_range.mp hi
  rw [hs i hi', hr i hi']; ring

theorem init_inv {A M : Crs K} (hS : Solvable A pairs) (hM : PrecondOk A M) (b x : ℕ → K)
    (c : CgScratch K) :
    ∃ st, cgInit A M b x c = some st ∧ LoopInv A b x st ∧ st.x = x ∧
      ∀ i < A.numRows, st.d i = st.r i / entry A i i := by
  have hr : ∀ i < A.numRows,
      onRows A.numRows (fun i => b i - A.matVec x c.q i) c.r i = residual A b x i := by
    intro i hi
    simp only [onRows, hi, if_true, residual, matVec_rows hS _ _ hi]
  obtain ⟨d, hd, hdv⟩ := diagMatVec_precond hM
    (onRows A.numRows (fun i => b i - A.matVec x c.q i) c.r) c.d
  refine ⟨_, by simp only [cgInit, hd, Option.map_some]; rfl, ?_, rfl, hdv⟩
  exact ⟨hr, inner_precond hr hdv, fun _ _ => rfl⟩

theorem residual_update {A : Crs K} (b x d : ℕ → K) (α : K) (i : ℕ) :
    residual A b (onRows A.numRows (fun i => x i + α * d i) x) i
      = residual A b x i - α * ∑ j ∈ Finset.range A.numRows, entry A i j * d j := by
  unfold residual
  have : ∑ j ∈ Finset.range A.numRows, entry A i j * onRows A.numRows (fun i => x i + α * d i) x j
      = ∑ j ∈ Finset.range A.numRows, (entry A i j * x j + α * (entry A i j * d j)) := by
    refine Finset.sum_congr rfl fun j hj => ?_
    simp only [onRows, Finset.mem_range.mp hj, if_true]; ring
  rw [this, Finset.sum_add_distrib, ← Finset.mul_sum]; ring

/-- The body of the loop, unfolded: what a step that does not divide by zero computes. -/
theorem step_spec {A M : Crs K} (hS : Solvable A pairs) (hM : PrecondOk A M) (b x0 : ℕ → K) (it : ℕ)
    {st : CgState K} (h : LoopInv A b x0 st) :
    let Ad := fun i => ∑ j ∈ Finset.range A.numRows, entry A i j * st.d j
    let dAd := ∑ i ∈ Finset.range A.numRows, st.d i * Ad i
    (cgStep A M b it st = some none ↔ dAd = 0 ∨ st.deltaNew = 0) ∧
    cgStep A M b it st ≠ none ∧
    ∀ st', cgStep A M b it st = some (some st') →
      LoopInv A b x0 st' ∧
      (∀ i < A.numRows, st'.r i = st.r i - st.deltaNew / dAd * Ad i) ∧
      (∀ i < A.numRows, st'.d i = st'.r i / entry A i i + st'.deltaNew / st.deltaNew * st.d i) := by
  intro Ad dAd
  have hq : ∀ i < A.numRows, A.matVec st.d st.q i = Ad i := fun i hi => matVec_rows hS _ _ hi
  have hdq : innerProduct A.numRows st.d (A.matVec st.d st.q) = dAd := by
    rw [innerProduct_eq]
    exact Finset.sum_congr rfl fun i hi => by rw [hq i (Finset.mem_range.mp hi)]
  unfold cgStep
  simp only [hdq]
  by_cases h0 : dAd = 0
  · simp [h0]
  · simp only [h0, if_false, false_or]
    set α := st.deltaNew / dAd with hα
    set x' := onRows A.numRows (fun i => st.x i + α * st.d i) st.x with hx'
    set q2 := (if it % 50 = 0 then A.matVec x' (A.matVec st.d st.q) else A.matVec st.d st.q) with hq2
    set r' := (if it % 50 = 0 then onRows A.numRows (fun i => b i - q2 i) st.r
      else onRows A.numRows (fun i => st.r i - α * A.matVec st.d st.q i) st.r) with hr'
    have hres : ∀ i < A.numRows, r' i = residual A b x' i := by
      intro i hi
      simp only [hr']
      by_cases h50 : it % 50 = 0
      · simp only [h50, if_true, onRows, hi, hq2, residual, matVec_rows hS _ _ hi]
      · simp only [h50, if_false, onRows, hi, if_true]
        rw [hx', residual_update, h.res i hi, hq i hi]
    have hrup : ∀ i < A.numRows, r' i = st.r i - α * Ad i := by
      intro i hi
      rw [hres i hi, hx', residual_update, h.res i hi]
    obtain ⟨s', hs', hsv⟩ := diagMatVec_precond hM r' st.s
    rw [hs']
    simp only [Option.map_some]
    by_cases hδ : st.deltaNew = 0
    · simp [hδ]
    · simp only [hδ, if_false, Option.some.injEq, reduceCtorEq, false_iff, not_false_eq_true, ne_eq,
        true_and, or_false, h0]
      rintro st' rfl
      refine ⟨⟨hres, inner_precond hres hsv, ?_⟩, hrup, ?_⟩
      · intro i hi
        simp only [hx', onRows]
        rw [if_neg (by omega)]
        exact h.frame i hi
      · intro i hi
        simp only [onRows, hi, if_true]
        rw [hsv i hi]

theorem loop_spec {A M : Crs K} (hS : Solvable A pairs) (hM : PrecondOk A M) (b x0 : ℕ → K) (tol : K)
    (mx : ℤ) (fuel it : ℕ) (st : CgState K) (h : LoopInv A b x0 st)
    (hfuel : (fuel : ℤ) + it = mx ∨ (fuel = 0 ∧ it = 0 ∧ mx ≤ 0))
    {success : Bool} {iters : ℕ} {x : ℕ → K}
    (hl : cgLoop A M b tol mx fuel it st = .returned success iters x) :
    ((iters : ℤ) ≤ mx ∨ (iters = 0 ∧ mx ≤ 0)) ∧ success = decide ((iters : ℤ) ≠ mx) ∧
      (∀ i, A.numRows ≤ i → x i = x0 i) ∧
      (success = true → 0 ≤ mx → resNorm A b x ≤ tol) := by
  induction fuel generalizing it st with
  | zero =>
    unfold cgLoop at hl
    split at hl
    · simp only [CgResult.returned.injEq] at hl
      obtain ⟨rfl, rfl, rfl⟩ := hl
      refine ⟨by omega, rfl, h.frame, ?_⟩
      intro hs h0
      simp only [decide_eq_true_eq] at hs
      omega
    · rename_i hgt
      simp only [CgResult.returned.injEq] at hl
      obtain ⟨rfl, rfl, rfl⟩ := hl
      refine ⟨by omega, rfl, h.frame, fun _ _ => ?_⟩
      rw [← h.delta]; exact not_lt.mp hgt
  | succ fuel ih =>
    unfold cgLoop at hl
    split at hl
    · simp only at hl
      obtain ⟨h1, h2, h3⟩ := step_spec hS hM b x0 it h
      split at hl
      · simp at hl
      · simp at hl
      · rename_i st' hst
        exact ih (it + 1) st' (h3 st' hst).1 (by push_cast; omega) hl
    · rename_i hgt
      simp only [CgResult.returned.injEq] at hl
      obtain ⟨rfl, rfl, rfl⟩ := hl
      refine ⟨by omega, rfl, h.frame, fun _ _ => ?_⟩
      rw [← h.delta]; exact not_lt.mp hgt

theorem cgSolve_unfold {A : Crs K} (hS : Solvable A pairs) {c : CgScratch K} (hc : ScratchOk c)
    (b x : ℕ → K) (cgTol : K) (mx : ℤ) :
    ∃ M st, PrecondOk A M ∧ LoopInv A b x st ∧ st.x = x ∧
      (∀ i < A.numRows, st.d i = st.r i / entry A i i) ∧
      cgSolve A b c x cgTol mx = cgLoop A M b (cgTol * resNorm A b x) mx mx.toNat 0 st := by
  obtain ⟨M, hM, hMok⟩ := precond_ok hS hc
  obtain ⟨st, h1, h2, h3, h4⟩ := init_inv hS hMok b x (c.resize A.numRows)
  refine ⟨M, st, hMok, h2, h3, h4, ?_⟩
  unfold cgSolve
  simp only [hM, h1]
  rw [h2.delta, h3]

/-! ## C22 -/

/-- **C22 (a)** for any scratch space, right-hand side, starting vector, tolerance and non-negative
iteration limit: when `CG_SolveSystem` reports success, the residual `b - A x` of the vector it returns is
within the tolerance relative to the first one, in the preconditioned measure; it has used fewer than
`max_iterations` iterations and has not touched `x` past the last row. -/
theorem cg_success {A : Crs K} (hS : Solvable A pairs) {c : CgScratch K} (hc : ScratchOk c)
    (b x : ℕ → K) (cgTol : K) (mx : ℤ) (hmx : 0 ≤ mx) {iters : ℕ} {x' : ℕ → K}
    (h : cgSolve A b c x cgTol mx = .returned true iters x') :
    resNorm A b x' ≤ cgTol * resNorm A b x ∧ (iters : ℤ) < mx ∧ ∀ i, A.numRows ≤ i → x' i = x i := by
  obtain ⟨M, st, hM, hinv, _, _, e⟩ := cgSolve_unfold hS hc b x cgTol mx
  rw [e] at h
  obtain ⟨h1, h2, h3, h4⟩ := loop_spec hS hM b x _ mx mx.toNat 0 st hinv
    (Or.inl (by push_cast; omega)) h
  have hne : (iters : ℤ) ≠ mx := by simpa using h2.symm
  refine ⟨h4 rfl hmx, by omega, h3⟩

/-- **C65 (partial)**: for an arbitrary matrix with non-zero diagonal, if the iteration limit is not negative
and no division by zero occurs (`returned`), reported success means that the preconditioned residual is
within the tolerance.  Missing (and false, see `cg_negative_limit`, `cg_indefinite_false_success`,
`cg_singular_divides_by_zero`): negative limits, division by zero, and that the preconditioned residual
bounds the residual when the diagonal is not positive. -/
theorem cg_success_partial {A : Crs K} (hS : Solvable A pairs) {c : CgScratch K} (hc : ScratchOk c)
    (b x : ℕ → K) (cgTol : K) (mx : ℤ) (hmx : 0 ≤ mx) {iters : ℕ} {x' : ℕ → K}
    (h : cgSolve A b c x cgTol mx = .returned true iters x') :
    resNorm A b x' ≤ cgTol * resNorm A b x := (cg_success hS hc b x cgTol mx hmx h).1

/-- **C22 (b)** failure is reported exactly when the iteration limit was used up; never more iterations
than the limit are done. -/
theorem cg_iterations {A : Crs K} (hS : Solvable A pairs) {c : CgScratch K} (hc : ScratchOk c)
    (b x : ℕ → K) (cgTol : K) (mx : ℤ) (hmx : 0 ≤ mx) {success : Bool} {iters : ℕ} {x' : ℕ → K}
    (h : cgSolve A b c x cgTol mx = .returned success iters x') :
    (iters : ℤ) ≤ mx ∧ (success = false ↔ (iters : ℤ) = mx) := by
  obtain ⟨M, st, hM, hinv, _, _, e⟩ := cgSolve_unfold hS hc b x cgTol mx
  rw [e] at h
  obtain ⟨h1, h2, _, _⟩ := loop_spec hS hM b x _ mx mx.toNat 0 st hinv
    (Or.inl (by push_cast; omega)) h
  refine ⟨by omega, ?_⟩
  rw [h2]
  simp

/-- **C22 (c)** during the whole iteration the stored residual equals `b - A x`: it does so before the
loop, and every execution of the loop body (with or without the recomputation of every 50th iteration)
preserves it. -/
theorem cg_residual_invariant {A : Crs K} (hS : Solvable A pairs) {c : CgScratch K} (hc : ScratchOk c)
    (b x : ℕ → K) :
    ∃ M, populatePreconditioner A (c.resize A.numRows).M = some M ∧
      (∃ st, cgInit A M b x (c.resize A.numRows) = some st ∧
        (∀ i < A.numRows, st.r i = residual A b st.x i) ∧ st.deltaNew = resNorm A b st.x) ∧
      ∀ it st st', (∀ i < A.numRows, st.r i = residual A b st.x i) →
        cgStep A M b it st = some (some st') →
        (∀ i < A.numRows, st'.r i = residual A b st'.x i) ∧ st'.deltaNew = resNorm A b st'.x := by
  obtain ⟨M, hM, hMok⟩ := precond_ok hS hc
  obtain ⟨st, h1, h2, _, _⟩ := init_inv hS hMok b x (c.resize A.numRows)
  refine ⟨M, hM, ⟨st, h1, h2.res, h2.delta⟩, ?_⟩
  intro it st st' hr hst
  -- the residual part does not depend on the stored `deltaNew`
  unfold cgStep at hst
  simp only at hst
  split at hst
  · simp at hst
  · obtain ⟨s', hs', hv⟩ := Option.map_eq_some_iff.mp hst
    split at hv
    · simp at hv
    · simp only [Option.some.injEq] at hv
      subst hv
      obtain ⟨s2, hs2, hsv⟩ := diagMatVec_precond hMok (if it % 50 = 0 then
        onRows A.numRows (fun i => b i - (if it % 50 = 0 then A.matVec (onRows A.numRows
          (fun i => st.x i + st.deltaNew / innerProduct A.numRows st.d (A.matVec st.d st.q) * st.d i) st.x)
          (A.matVec st.d st.q) else A.matVec st.d st.q) i) st.r
        else onRows A.numRows (fun i => st.r i - st.deltaNew /
          innerProduct A.numRows st.d (A.matVec st.d st.q) * A.matVec st.d st.q i) st.r) st.s
      rw [hs'] at hs2
      obtain rfl := Option.some.inj hs2
      have hres : ∀ i < A.numRows, (if it % 50 = 0 then
        onRows A.numRows (fun i => b i - (if it % 50 = 0 then A.matVec (onRows A.numRows
          (fun i => st.x i + st.deltaNew / innerProduct A.numRows st.d (A.matVec st.d st.q) * st.d i) st.x)
          (A.matVec st.d st.q) else A.matVec st.d st.q) i) st.r
        else onRows A.numRows (fun i => st.r i - st.deltaNew /
          innerProduct A.numRows st.d (A.matVec st.d st.q) * A.matVec st.d st.q i) st.r) i
          = residual A b (onRows A.numRows (fun i => st.x i + st.deltaNew /
            innerProduct A.numRows st.d (A.matVec st.d st.q) * st.d i) st.x) i := by
        intro i hi
        by_cases h50 : it % 50 = 0
        · simp only [h50, if_true, onRows, hi, residual, matVec_rows hS _ _ hi]
        · simp only [h50, if_false]
          rw [residual_update]
          simp only [onRows, hi, if_true]
          rw [hr i hi, matVec_rows hS _ _ hi]
      exact ⟨hres, inner_precond hres hsv⟩

/-! ### Symmetric positive definite matrices -/

/-- The first `n` entries of a vector. -/
def restrict (n : ℕ) (v : ℕ → K) : Fin n → K := fun i => v i

/-- The matrix of a container. -/
def toMatrix (A : Crs K) : Matrix (Fin A.numRows) (Fin A.numRows) K := fun i j => entry A i j

/-- The diagonal preconditioner of a container. -/
def weights (A : Crs K) : Fin A.numRows → K := fun i => 1 / entry A i i

theorem toMatrix_mulVec (A : Crs K) (v : ℕ → K) (i : Fin A.numRows) :
    (toMatrix A *ᵥ restrict A.numRows v) i = ∑ j ∈ Finset.range A.numRows, entry A i j * v j := by
  rw [Finset.sum_range]; rfl

theorem restrict_dot (n : ℕ) (u v : ℕ → K) :
    restrict n u ⬝ᵥ restrict n v = ∑ i ∈ Finset.range n, u i * v i := by
  rw [Finset.sum_range]; rfl

theorem SPD.transpose {A : Crs K} (h : SPD A) : (toMatrix A)ᵀ = toMatrix A := by
  ext i j
  exact h.symm j j.2 i i.2

theorem SPD.matrix_pos {A : Crs K} (h : SPD A) (v : Fin A.numRows → K) (hv : v ≠ 0) :
    0 < v ⬝ᵥ (toMatrix A *ᵥ v) := by
  set u : ℕ → K := fun i => if hi : i < A.numRows then v ⟨i, hi⟩ else 0 with hu
  have huv : restrict A.numRows u = v := by
    funext i; simp [restrict, hu]
  have hex : ∃ i < A.numRows, u i ≠ 0 := by
    by_contra hcon
    push Not at hcon
    apply hv
    funext i
    have := hcon i i.2
    simpa [hu] using this
  have := h.pos u hex
  rw [← huv]
  have e : toMatrix A *ᵥ restrict A.numRows u
      = restrict A.numRows (fun i => ∑ j ∈ Finset.range A.numRows, entry A i j * u j) := by
    funext i; rw [toMatrix_mulVec]; rfl
  rw [e, restrict_dot]
  exact this

theorem SPD.diag_pos {A : Crs K} (h : SPD A) {i : ℕ} (hi : i < A.numRows) : 0 < entry A i i := by
  have := h.pos (fun j => if j = i then 1 else 0) ⟨i, hi, by simp⟩
  rw [Finset.sum_eq_single_of_mem i (Finset.mem_range.mpr hi)] at this
  · rw [Finset.sum_eq_single_of_mem i (Finset.mem_range.mpr hi)] at this
    · simpa using this
    · intro j _ hj; simp [hj]
  · intro j _ hj; simp [hj]

/-- The loop variables follow the mathematical recursion. -/
def Follows (A : Crs K) (r0 : Fin A.numRows → K) (k : ℕ) (st : CgState K) : Prop :=
  restrict A.numRows st.r = (seq (toMatrix A) (weights A) r0 k).1 ∧
    restrict A.numRows st.d = (seq (toMatrix A) (weights A) r0 k).2 ∧
    st.deltaNew = delta (weights A) (seq (toMatrix A) (weights A) r0 k).1

theorem delta_eq_resNorm {A : Crs K} {b x0 : ℕ → K} {st : CgState K} (h : LoopInv A b x0 st) :
    st.deltaNew = delta (weights A) (restrict A.numRows st.r) := by
  rw [h.delta, resNorm, Finset.sum_range]
  unfold delta dotProduct
  refine Finset.sum_congr rfl fun i _ => ?_
  simp only [Pi.mul_apply, restrict, weights]
  rw [h.res i i.2]; ring

theorem step_follows {A M : Crs K} (hS : Solvable A pairs) (hM : PrecondOk A M) (hP : SPD A)
    (b x0 : ℕ → K) (it : ℕ) {st : CgState K} (h : LoopInv A b x0 st) (r0 : Fin A.numRows → K)
    (hf : Follows A r0 it st) (hδ : ∀ i ≤ it, delta (weights A) (seq (toMatrix A) (weights A) r0 i).1 ≠ 0) :
    ∃ st', cgStep A M b it st = some (some st') ∧ LoopInv A b x0 st' ∧ Follows A r0 (it + 1) st' := by
  obtain ⟨f1, f2, f3⟩ := hf
  obtain ⟨s1, s2, s3⟩ := step_spec hS hM b x0 it h
  have hinv := inv_all hP.transpose (fun v hv => hP.matrix_pos v hv) it
    (fun i hi => hδ i (by omega)) it le_rfl
  have hden := denom_pos (fun v hv => hP.matrix_pos v hv) hinv (hδ it le_rfl)
  have eAd : toMatrix A *ᵥ restrict A.numRows st.d
      = restrict A.numRows (fun i => ∑ j ∈ Finset.range A.numRows, entry A i j * st.d j) := by
    funext i; rw [toMatrix_mulVec]; rfl
  have edAd : ∑ i ∈ Finset.range A.numRows, st.d i * ∑ j ∈ Finset.range A.numRows, entry A i j * st.d j
      = (seq (toMatrix A) (weights A) r0 it).2 ⬝ᵥ
        (toMatrix A *ᵥ (seq (toMatrix A) (weights A) r0 it).2) := by
    rw [← f2, eAd, restrict_dot]
  cases hst : cgStep A M b it st with
  | none => exact absurd hst s2
  | some o =>
    cases o with
    | none =>
      rcases s1.mp hst with h0 | h0
      · rw [edAd] at h0; exact absurd h0 hden.ne'
      · rw [f3] at h0; exact absurd h0 (hδ it le_rfl)
    | some st' =>
      obtain ⟨l1, l2, l3⟩ := s3 st' hst
      have hr : restrict A.numRows st'.r = (seq (toMatrix A) (weights A) r0 (it + 1)).1 := by
        show _ = (seq (toMatrix A) (weights A) r0 it).1 -
          (((seq (toMatrix A) (weights A) r0 it).1 ⬝ᵥ (weights A * (seq (toMatrix A) (weights A) r0 it).1))
            / ((seq (toMatrix A) (weights A) r0 it).2 ⬝ᵥ
              (toMatrix A *ᵥ (seq (toMatrix A) (weights A) r0 it).2)))
            • (toMatrix A *ᵥ (seq (toMatrix A) (weights A) r0 it).2)
        rw [← edAd, ← f2, ← f1]
        funext i
        have : delta (weights A) (restrict A.numRows st.r) = st.deltaNew := (delta_eq_resNorm h).symm
        simp only [delta] at this
        rw [this]
        simp only [Pi.sub_apply, Pi.smul_apply, smul_eq_mul, toMatrix_mulVec]
        exact l2 i i.2
      refine ⟨st', rfl, l1, hr, ?_, ?_⟩
      · show _ = weights A * (seq (toMatrix A) (weights A) r0 (it + 1)).1 +
          (((seq (toMatrix A) (weights A) r0 (it + 1)).1 ⬝ᵥ
            (weights A * (seq (toMatrix A) (weights A) r0 (it + 1)).1)) /
            ((seq (toMatrix A) (weights A) r0 it).1 ⬝ᵥ
              (weights A * (seq (toMatrix A) (weights A) r0 it).1))) •
            (seq (toMatrix A) (weights A) r0 it).2
        rw [← hr, ← f1, ← f2]
        have e1 : delta (weights A) (restrict A.numRows st.r) = st.deltaNew := (delta_eq_resNorm h).symm
        have e2 : delta (weights A) (restrict A.numRows st'.r) = st'.deltaNew :=
          (delta_eq_resNorm l1).symm
        simp only [delta] at e1 e2
        rw [e1, e2]
        funext i
        simp only [Pi.add_apply, Pi.mul_apply, Pi.smul_apply, smul_eq_mul, restrict, weights]
        rw [l3 i i.2]; ring
      · rw [← hr]; exact delta_eq_resNorm l1

theorem loop_spd {A M : Crs K} (hS : Solvable A pairs) (hM : PrecondOk A M) (hP : SPD A)
    (b x0 : ℕ → K) (tol : K) (htol : 0 ≤ tol) (mx : ℤ) (r0 : Fin A.numRows → K) (fuel it : ℕ)
    (st : CgState K) (h : LoopInv A b x0 st) (hf : Follows A r0 it st)
    (hδ : ∀ i < it, delta (weights A) (seq (toMatrix A) (weights A) r0 i).1 ≠ 0) :
    ∃ (iters : ℕ) (x : ℕ → K), cgLoop A M b tol mx fuel it st = .returned (decide ((iters : ℤ) ≠ mx)) iters x ∧
      iters ≤ A.numRows := by
  have hbound : it ≤ A.numRows := by
    by_contra hcon
    obtain ⟨k, hk, h0⟩ := exists_delta_zero (w := weights A) (r0 := r0) hP.transpose
      (fun v hv => hP.matrix_pos v hv)
    exact hδ k (by omega) h0
  induction fuel generalizing it st with
  | zero =>
    refine ⟨it, st.x, ?_, hbound⟩
    unfold cgLoop
    split <;> rfl
  | succ fuel ih =>
    unfold cgLoop
    split
    · rename_i hgt
      have hδ' : ∀ i ≤ it, delta (weights A) (seq (toMatrix A) (weights A) r0 i).1 ≠ 0 := by
        intro i hi
        rcases Nat.lt_or_eq_of_le hi with hlt | rfl
        · exact hδ i hlt
        · rw [← hf.2.2]; exact (lt_of_le_of_lt htol hgt).ne'
      obtain ⟨st', e, h', hf'⟩ := step_follows hS hM hP b x0 it h r0 hf hδ'
      rw [e]
      simp only
      have hδ2 : ∀ i < it + 1, delta (weights A) (seq (toMatrix A) (weights A) r0 i).1 ≠ 0 :=
        fun i hi => hδ' i (by omega)
      refine ih (it + 1) st' h' hf' hδ2 ?_
      by_contra hcon
      obtain ⟨k, hk, h0⟩ := exists_delta_zero (w := weights A) (r0 := r0) hP.transpose
        (fun v hv => hP.matrix_pos v hv)
      exact hδ2 k (by omega) h0
    · exact ⟨it, st.x, rfl, hbound⟩

/-- **C22 (d)** for a symmetric positive definite matrix and a non-negative tolerance the solver always
returns (no division by zero), after at most as many iterations as there are rows; so an iteration limit
above the number of rows guarantees success. -/
theorem cg_spd {A : Crs K} (hS : Solvable A pairs) (hP : SPD A) {c : CgScratch K} (hc : ScratchOk c)
    (b x : ℕ → K) (cgTol : K) (htol : 0 ≤ cgTol) (mx : ℤ) :
    ∃ success iters x', cgSolve A b c x cgTol mx = .returned success iters x' ∧ iters ≤ A.numRows ∧
      ((A.numRows : ℤ) < mx → success = true ∧ resNorm A b x' ≤ cgTol * resNorm A b x) := by
  obtain ⟨M, st, hM, hinv, _, hd, e⟩ := cgSolve_unfold hS hc b x cgTol mx
  have hf : Follows A (restrict A.numRows st.r) 0 st := by
    refine ⟨rfl, ?_, delta_eq_resNorm hinv⟩
    show _ = weights A * restrict A.numRows st.r
    funext i
    simp only [Pi.mul_apply, restrict, weights]
    rw [hd i i.2]; ring
  have hnn : 0 ≤ resNorm A b x := by
    unfold resNorm
    refine Finset.sum_nonneg fun i hi => ?_
    exact div_nonneg (mul_self_nonneg _) (hP.diag_pos (Finset.mem_range.mp hi)).le
  obtain ⟨iters, x', h1, h2⟩ := loop_spd hS hM hP b x (cgTol * resNorm A b x) (mul_nonneg htol hnn) mx
    (restrict A.numRows st.r) mx.toNat 0 st hinv hf (by intro i hi; omega)
  refine ⟨decide ((iters : ℤ) ≠ mx), iters, x', by rw [e]; exact h1, h2, ?_⟩
  intro hlt
  have hs : decide ((iters : ℤ) ≠ mx) = true := by simp; omega
  refine ⟨hs, ?_⟩
  have hret : cgSolve A b c x cgTol mx = .returned true iters x' := by rw [e, h1, hs]
  exact (cg_success hS hc b x cgTol mx (by omega) hret).1

/-- **C22 (e)** with tolerance zero and a limit above the number of rows, the vector returned for a
symmetric positive definite matrix solves the system exactly (in exact arithmetic). -/
theorem cg_spd_exact {A : Crs K} (hS : Solvable A pairs) (hP : SPD A) {c : CgScratch K} (hc : ScratchOk c)
    (b x : ℕ → K) (mx : ℤ) (hmx : (A.numRows : ℤ) < mx) :
    ∃ iters x', cgSolve A b c x 0 mx = .returned true iters x' ∧
      ∀ i < A.numRows, ∑ j ∈ Finset.range A.numRows, entry A i j * x' j = b i := by
  obtain ⟨s, iters, x', h1, _, h3⟩ := cg_spd hS hP hc b x 0 le_rfl mx
  obtain ⟨rfl, hle⟩ := h3 hmx
  refine ⟨iters, x', h1, ?_⟩
  rw [zero_mul] at hle
  have hterm : ∀ i ∈ Finset.range A.numRows, 0 ≤ residual A b x' i * residual A b x' i / entry A i i :=
    fun i hi => div_nonneg (mul_self_nonneg _) (hP.diag_pos (Finset.mem_range.mp hi)).le
  have hzero : resNorm A b x' = 0 := le_antisymm hle (Finset.sum_nonneg hterm)
  unfold resNorm at hzero
  rw [Finset.sum_eq_zero_iff_of_nonneg hterm] at hzero
  intro i hi
  have := hzero i (Finset.mem_range.mpr hi)
  rcases div_eq_zero_iff.mp this with h | h
  · have : residual A b x' i = 0 := mul_self_eq_zero.mp h
    unfold residual at this
    exact (sub_eq_zero.mp this).symm
  · exact absurd h (hP.diag_pos hi).ne'

/-! ### Concrete cases -/

/-- The chain of three springs. -/
def chain3 : Crs ℚ := { allocated (Crs.empty : Crs ℚ) tri3 with data := [2, -1, -1, 2, -1, -1, 2] }

theorem chain3_solvable : Solvable chain3 tri3 where
  adm := tri3_admissible
  pat := ⟨Crs.empty, [2, -1, -1, 2, -1, -1, 2], rfl, rfl⟩
  cols := by decide
  diag := by decide
  diagNe := by
    intro i hi
    have hi' : i < 3 := hi
    have : i = 0 ∨ i = 1 ∨ i = 2 := by omega
    rcases this with rfl | rfl | rfl <;> decide +kernel

theorem chain3_spd : SPD chain3 where
  symm := by
    intro i hi j hj
    have hi' : i < 3 := hi
    have hj' : j < 3 := hj
    have h1 : i = 0 ∨ i = 1 ∨ i = 2 := by omega
    have h2 : j = 0 ∨ j = 1 ∨ j = 2 := by omega
    rcases h1 with rfl | rfl | rfl <;> rcases h2 with rfl | rfl | rfl <;> decide +kernel
  pos := by
    intro v hv
    have e : ∀ i j, i < 3 → j < 3 → entry chain3 i j = if i = j then 2 else if i + 1 = j ∨ j + 1 = i then -1 else 0 := by
      intro i j hi hj
      have h1 : i = 0 ∨ i = 1 ∨ i = 2 := by omega
      have h2 : j = 0 ∨ j = 1 ∨ j = 2 := by omega
      rcases h1 with rfl | rfl | rfl <;> rcases h2 with rfl | rfl | rfl <;> decide +kernel
    have hsum : ∑ i ∈ Finset.range chain3.numRows, v i * ∑ j ∈ Finset.range chain3.numRows, entry chain3 i j * v j
        = v 0 * v 0 + (v 0 - v 1) * (v 0 - v 1) + (v 1 - v 2) * (v 1 - v 2) + v 2 * v 2 := by
      have hn : chain3.numRows = 3 := rfl
      rw [hn]
      simp only [Finset.sum_range_succ, Finset.sum_range_zero]
      rw [e 0 0, e 0 1, e 0 2, e 1 0, e 1 1, e 1 2, e 2 0, e 2 1, e 2 2] <;> norm_num
      ring
    rw [hsum]
    obtain ⟨i, hi, hne⟩ := hv
    have hi' : i < 3 := hi
    by_contra hcon
    have s0 := mul_self_nonneg (v 0)
    have s1 := mul_self_nonneg (v 0 - v 1)
    have s2 := mul_self_nonneg (v 1 - v 2)
    have s3 := mul_self_nonneg (v 2)
    have z0 : v 0 * v 0 = 0 := by linarith
    have z1 : (v 0 - v 1) * (v 0 - v 1) = 0 := by linarith
    have z3 : v 2 * v 2 = 0 := by linarith
    have v0 : v 0 = 0 := mul_self_eq_zero.mp z0
    have v1 : v 0 - v 1 = 0 := mul_self_eq_zero.mp z1
    have v2 : v 2 = 0 := mul_self_eq_zero.mp z3
    have h1 : i = 0 ∨ i = 1 ∨ i = 2 := by omega
    rcases h1 with rfl | rfl | rfl
    · exact hne v0
    · exact hne (by linarith)
    · exact hne v2

/-- The solver on the chain of springs: success for any right-hand side, any first guess. -/
example (b x : ℕ → ℚ) : ∃ iters x', cgSolve chain3 b CgScratch.fresh x 0 4 = .returned true iters x' ∧
    ∀ i < 3, ∑ j ∈ Finset.range 3, entry chain3 i j * x' j = b i :=
  cg_spd_exact chain3_solvable chain3_spd scratch_fresh_ok b x 4 (by decide)

/-- Observable summary of a result: success flag, iterations, first `n` entries of `x`. -/
def CgResult.summary (n : ℕ) : CgResult ℚ → Option (Bool × ℕ × List ℚ)
  | .returned s it x => some (s, it, (List.range n).map x)
  | _ => none

/-- Finding: with a negative iteration limit success is reported although nothing has been solved
(hence the hypothesis `0 ≤ mx` of `cg_success`). -/
theorem cg_negative_limit :
    (cgSolve chain3 (fun _ => 1) CgScratch.fresh (fun _ => 0) (1 / 10) (-1)).summary 3
      = some (true, 0, [0, 0, 0]) := by decide +kernel

/-- A 1×1 system `2 x = 6`. -/
def one1 : Crs ℚ := { allocated (Crs.empty : Crs ℚ) [(0, 0)] with data := [2] }

/-- Finding: a system solved exactly in the last allowed iteration is reported as a failure. -/
theorem cg_converged_reported_as_failure :
    (cgSolve one1 (fun _ => 6) CgScratch.fresh (fun _ => 0) (1 / 10) 1).summary 1
      = some (false, 1, [3]) := by decide +kernel

/-- The matrix `[[1,-1],[-1,1]]` of a free body: one spring, no support. -/
def freeSpring : Crs ℚ :=
  { allocated (Crs.empty : Crs ℚ) [(0, 0), (0, 1), (1, 0), (1, 1)] with data := [1, -1, -1, 1] }

/-- Finding: for a singular (unsupported) system the iteration divides by zero; the C++ program then
carries on with infinities and NaNs, for which `delta_new > tolerance` is false, so that it leaves the loop
and reports success. -/
theorem cg_singular_divides_by_zero :
    cgSolve freeSpring (fun _ => 1) CgScratch.fresh (fun _ => 0) (1 / 10) 100 = .nonFinite := by
  have h : ∀ r : CgResult ℚ, (match r with | .nonFinite => true | _ => false) = true → r = .nonFinite := by
    intro r; cases r <;> simp
  apply h
  decide +kernel

/-- The indefinite matrix `diag(1,-1)`. -/
def indefinite2 : Crs ℚ := { allocated (Crs.empty : Crs ℚ) [(0, 0), (1, 1)] with data := [1, -1] }

/-- Finding: for an indefinite matrix the tested quantity is not a norm: success may be reported at once
although the residual is not zero (here `x = 0` is returned for `b = (1,1)` with tolerance 0). -/
theorem cg_indefinite_false_success :
    (cgSolve indefinite2 (fun _ => 1) CgScratch.fresh (fun _ => 0) 0 100).summary 2
      = some (true, 0, [0, 0]) ∧ residual indefinite2 (fun _ => 1) (fun _ => 0) 0 = 1 := by
  decide +kernel

end NimbleSM.Solver
