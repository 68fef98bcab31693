import Verif.Integrate.Quasistatic
import Verif.Integrate.ExplicitProps
import Verif.Solver.CgProps
import Verif.Solver.SparsityProps

/-!
# Lemmas on the quasistatic integrator: index maps, residual vector, linear solve at constrained dofs
-/

namespace NimbleSM.Solver

variable {K : Type*} [Field K] [LinearOrder K] [IsStrictOrderedRing K] {pairs : List (ℕ × ℕ)}

theorem cgLoop_decoupled {A M : Crs K} (hS : Solvable A pairs) (hM : PrecondOk A M) (b x0 : ℕ → K) (tol : K)
    (mx : ℤ) (i : ℕ) (hi : i < A.numRows) (hrow : ∀ j < A.numRows, j ≠ i → entry A i j = 0)
    (fuel it : ℕ) (st : CgState K) (h : LoopInv A b x0 st)
    (hx : st.x i = 0) (hr : st.r i = 0) (hd : st.d i = 0)
    {success : Bool} {iters : ℕ} {x : ℕ → K}
    (hl : cgLoop A M b tol mx fuel it st = .returned success iters x) : x i = 0 := by
  induction fuel generalizing it st with
  | zero =>
    unfold cgLoop at hl
    split at hl <;>
    · simp only [CgResult.returned.injEq] at hl
      obtain ⟨rfl, rfl, rfl⟩ := hl
      exact hx
  | succ fuel ih =>
    unfold cgLoop at hl
    split at hl
    · simp only at hl
      obtain ⟨h1, h2, h3⟩ := step_spec hS hM b x0 it h
      split at hl
      · simp at hl
      · simp at hl
      · rename_i st' hst
        obtain ⟨hinv, hr', hd'⟩ := h3 st' hst
        have hAd : ∑ j ∈ Finset.range A.numRows, entry A i j * st.d j = 0 := by
          apply Finset.sum_eq_zero
          intro j hj
          by_cases hji : j = i
          · rw [hji, hd, mul_zero]
          · rw [hrow j (Finset.mem_range.mp hj) hji, zero_mul]
        have hr0 : st'.r i = 0 := by rw [hr' i hi, hr]; simp only [hAd]; ring
        have hd0 : st'.d i = 0 := by rw [hd' i hi, hr0, hd]; ring
        have hx0 : st'.x i = 0 := by
          unfold cgStep at hst
          simp only at hst
          by_cases hq : innerProduct A.numRows st.d (A.matVec st.d st.q) = 0
          · rw [if_pos hq] at hst; simp at hst
          · rw [if_neg hq, Option.map_eq_some_iff] at hst
            obtain ⟨s, hs, he⟩ := hst
            by_cases hδ : st.deltaNew = 0
            · rw [if_pos hδ] at he; simp at he
            · rw [if_neg hδ] at he
              simp only [Option.some.injEq] at he
              subst he
              simp only [onRows, hi, if_true, hx, hd]
              ring
        exact ih (it + 1) st' hinv hx0 hr0 hd0 hl
    · simp only [CgResult.returned.injEq] at hl
      obtain ⟨rfl, rfl, rfl⟩ := hl
      exact hx

/-- An unknown that the matrix does not couple to the others, with zero right-hand side and zero starting
value, is exactly zero in whatever CG returns. -/
theorem cg_decoupled_zero {A : Crs K} (hS : Solvable A pairs) {c : CgScratch K} (hc : ScratchOk c)
    (b x : ℕ → K) (cgTol : K) (mx : ℤ) (i : ℕ) (hi : i < A.numRows)
    (hrow : ∀ j < A.numRows, j ≠ i → entry A i j = 0) (hb : b i = 0) (hx : x i = 0)
    {success : Bool} {iters : ℕ} {x' : ℕ → K}
    (h : cgSolve A b c x cgTol mx = .returned success iters x') : x' i = 0 := by
  obtain ⟨M, st, hM, hinv, hst, hd, e⟩ := cgSolve_unfold hS hc b x cgTol mx
  rw [e] at h
  have hr : st.r i = 0 := by
    rw [hinv.res i hi, residual, hb, hst, Finset.sum_eq_zero, sub_zero]
    intro j hj
    by_cases hji : j = i
    · rw [hji, hx, mul_zero]
    · rw [hrow j (Finset.mem_range.mp hj) hji, zero_mul]
  exact cgLoop_decoupled hS hM b x _ mx i hi hrow _ 0 st hinv (by rw [hst, hx]) hr
    (by rw [hd i hi, hr, zero_div]) h

end NimbleSM.Solver

namespace NimbleSM.Integrate

open NimbleSM.Bc NimbleSM.Solver

variable {K S : Type*} [Field K] [LinearOrder K]

/-- Specification: the node ids of the mesh are a renumbering of `0 .. N-1`. -/
def Contiguous (ids : List ℕ) : Prop := ids.Nodup ∧ ∀ g ∈ ids, g < ids.length

omit [Field K] [LinearOrder K] in
theorem getD_lt (ids : List ℕ) {n : ℕ} (h : n < ids.length) : ids.getD n 0 = ids[n] := by
  simp [List.getD, List.getElem?_eq_getElem h]

omit [Field K] [LinearOrder K] in
theorem lsNodes_eq (c : QConfig K) (h : c.ids.Nodup) : c.lsNodes = c.numNodes := by
  unfold QConfig.lsNodes QConfig.numNodes; rw [h.dedup]

omit [Field K] [LinearOrder K] in
theorem fromLinearSystem_aux (ids : List ℕ) (hn : ids.Nodup) (k : ℕ) (hk : k ≤ ids.length) (g : ℕ) :
    ((List.range k).foldl (linkNode ids) fun _ => []) g
      = if ids.idxOf g < k then [ids.idxOf g] else [] := by
  induction k with
  | zero => simp
  | succ k ih =>
    rw [List.range_succ, List.foldl_append]
    simp only [List.foldl_cons, List.foldl_nil]
    have hlt : k < ids.length := by omega
    unfold linkNode
    rw [List.getElem?_eq_getElem hlt]
    simp only [upd]
    by_cases hg : g = ids[k]
    · rw [if_pos hg, hg, hn.idxOf_getElem k hlt]; simp
    · rw [if_neg hg]
      refine (ih (by omega)).trans ?_
      have : ids.idxOf g ≠ k := by
        intro he
        apply hg
        have h2 : ids.idxOf g < ids.length := by omega
        have := List.getElem_idxOf h2
        simp only [he] at this
        exact this.symm
      by_cases h1 : ids.idxOf g < k
      · rw [if_pos h1, if_pos (by omega)]
      · rw [if_neg h1, if_neg (by omega)]

omit [Field K] [LinearOrder K] in
theorem fromLinearSystem_eq (ids : List ℕ) (hn : ids.Nodup) (g : ℕ) :
    fromLinearSystem ids g = if g ∈ ids then [ids.idxOf g] else [] := by
  unfold fromLinearSystem
  rw [fromLinearSystem_aux ids hn ids.length le_rfl]
  simp [List.idxOf_lt_length_iff]

omit [Field K] [LinearOrder K] in
theorem foldl_setAt_dof (a : ℕ) (f : ℕ → K) (dim : ℕ) (t : Nodal K) (n i : ℕ) :
    ((List.range dim).foldl (fun (t : Nodal K) dof => setAt t a dof (f dof)) t) n i
      = if n = a ∧ i < dim then f i else t n i := by
  induction dim with
  | zero => simp
  | succ d ih =>
    rw [List.range_succ, List.foldl_append]
    simp only [List.foldl_cons, List.foldl_nil]
    simp only [setAt]
    by_cases h : n = a ∧ i = d
    · rw [if_pos h, if_pos ⟨h.1, by omega⟩, h.2]
    · rw [if_neg h, ih]
      by_cases h1 : n = a ∧ i < d
      · rw [if_pos h1, if_pos ⟨h1.1, by omega⟩]
      · rw [if_neg h1, if_neg (by omega)]

/-- Every node whose id is below the number of nodes is updated, in every direction; nothing else is. -/
theorem updateNodes_spec (c : QConfig K) (hn : c.ids.Nodup) (f : ℕ → ℕ → ℕ → K) (t : Nodal K) (n i : ℕ) :
    updateNodes c f t n i
      = if n < c.numNodes ∧ c.ids.getD n 0 < c.numNodes ∧ i < c.dim then f n i (c.ids.getD n 0 * c.dim + i)
        else t n i := by
  unfold updateNodes
  rw [lsNodes_eq c hn]
  have key : ∀ k, ((List.range k).foldl (fun (t : Nodal K) n =>
      (fromLinearSystem c.ids n).foldl (fun (t : Nodal K) node_id =>
      (List.range c.dim).foldl (fun (t : Nodal K) dof =>
        setAt t node_id dof (f node_id dof (n * c.dim + dof))) t) t) t) n i
      = if n < c.numNodes ∧ c.ids.getD n 0 < k ∧ i < c.dim then f n i (c.ids.getD n 0 * c.dim + i)
        else t n i := by
    intro k
    induction k with
    | zero => simp
    | succ k ih =>
      rw [List.range_succ, List.foldl_append]
      simp only [List.foldl_cons, List.foldl_nil]
      rw [fromLinearSystem_eq c.ids hn]
      by_cases hk : k ∈ c.ids
      · rw [if_pos hk]
        simp only [List.foldl_cons, List.foldl_nil]
        rw [foldl_setAt_dof (c.ids.idxOf k) (fun dof => f (c.ids.idxOf k) dof (k * c.dim + dof)), ih]
        have hlt := List.idxOf_lt_length_iff.mpr hk
        have hget : c.ids.getD (c.ids.idxOf k) 0 = k := by
          rw [getD_lt _ hlt, List.getElem_idxOf]
        have hiff : n = c.ids.idxOf k ↔ n < c.numNodes ∧ c.ids.getD n 0 = k := by
          constructor
          · rintro rfl; exact ⟨hlt, hget⟩
          · rintro ⟨h1, h2⟩
            have h1' : n < c.ids.length := h1
            rw [getD_lt _ h1'] at h2
            rw [← h2, hn.idxOf_getElem n h1']
        by_cases h : n = c.ids.idxOf k ∧ i < c.dim
        · obtain ⟨h1, h2⟩ := hiff.mp h.1
          rw [if_pos h, if_pos ⟨h1, by omega, h.2⟩, h2, ← h.1]
        · rw [if_neg h]
          by_cases h1 : n < c.numNodes ∧ c.ids.getD n 0 < k ∧ i < c.dim
          · rw [if_pos h1, if_pos ⟨h1.1, by omega, h1.2.2⟩]
          · rw [if_neg h1, if_neg]
            rintro ⟨a, b, d⟩
            rcases Nat.lt_succ_iff_lt_or_eq.mp b with hb | hb
            · exact h1 ⟨a, hb, d⟩
            · exact h ⟨hiff.mpr ⟨a, hb⟩, d⟩
      · rw [if_neg hk]
        simp only [List.foldl_nil]
        rw [ih]
        by_cases h1 : n < c.numNodes ∧ c.ids.getD n 0 < k ∧ i < c.dim
        · rw [if_pos h1, if_pos ⟨h1.1, by omega, h1.2.2⟩]
        · rw [if_neg h1, if_neg]
          rintro ⟨a, b, d⟩
          rcases Nat.lt_succ_iff_lt_or_eq.mp b with hb | hb
          · exact h1 ⟨a, hb, d⟩
          · apply hk
            have a' : n < c.ids.length := a
            rw [← hb, getD_lt _ a']
            exact List.getElem_mem a'
  exact key c.numNodes

/-! ## The residual vector -/

theorem foldlM_dof (U g dim d : ℕ) (f : ℕ → K) (hU : ∀ dof < dim, g * dim + dof < U) (k : ℕ) (hk : k ≤ dim)
    (r : ℕ → K) :
    ∃ r', (List.range k).foldlM (fun (r : ℕ → K) dof =>
        if g * dim + dof < U then some (upd r (g * dim + dof) (r (g * dim + dof) + -1 * f dof)) else none) r
        = some r' ∧
      r' d = r d + ∑ dof ∈ Finset.range k, if d = g * dim + dof then -f dof else 0 := by
  induction k with
  | zero => exact ⟨r, rfl, by simp⟩
  | succ k ih =>
    obtain ⟨r1, h1, h2⟩ := ih (by omega)
    refine ⟨upd r1 (g * dim + k) (r1 (g * dim + k) + -1 * f k), ?_, ?_⟩
    · rw [List.range_succ, List.foldlM_append, h1]
      simp [hU k (by omega)]
    · rw [Finset.sum_range_succ, ← add_assoc, ← h2]
      simp only [upd]
      by_cases hd : d = g * dim + k
      · rw [if_pos hd, if_pos hd, hd]; ring
      · rw [if_neg hd, if_neg hd, add_zero]

theorem foldlM_dof_oob (U g dim : ℕ) (f : ℕ → K) (k dof : ℕ) (hdof : dof < k) (hU : ¬ g * dim + dof < U)
    (r : ℕ → K) :
    (List.range k).foldlM (fun (r : ℕ → K) dof =>
        if g * dim + dof < U then some (upd r (g * dim + dof) (r (g * dim + dof) + -1 * f dof)) else none) r
        = none := by
  induction k with
  | zero => omega
  | succ k ih =>
    rw [List.range_succ, List.foldlM_append]
    by_cases hk : dof < k
    · rw [ih hk]; rfl
    · have : dof = k := by omega
      subst this
      cases (List.range dof).foldlM (fun (r : ℕ → K) dof =>
        if g * dim + dof < U then some (upd r (g * dim + dof) (r (g * dim + dof) + -1 * f dof)) else none) r with
      | none => rfl
      | some r => simp [hU]

/-- The residual vector before constraints: the negated nodal forces, added up at their places. -/
theorem negatedForce_sum (c : QConfig K) (hb : ∀ g ∈ c.ids, g < c.lsNodes) (force : Nodal K) :
    ∃ r, negatedForce c force = some r ∧ ∀ d, r d = ∑ n ∈ Finset.range c.numNodes,
      ∑ dof ∈ Finset.range c.dim, if d = c.ids.getD n 0 * c.dim + dof then -force n dof else 0 := by
  have key : ∀ k ≤ c.numNodes, ∃ r, (List.range k).foldlM (fun (r : ℕ → K) n =>
      c.ids[n]?.bind fun ls_id =>
        (List.range c.dim).foldlM (fun (r : ℕ → K) dof =>
          let ls_index := ls_id * c.dim + dof
          if ls_index < c.unknowns then some (upd r ls_index (r ls_index + -1 * force n dof)) else none) r)
      (fun _ => 0) = some r ∧ ∀ d, r d = ∑ n ∈ Finset.range k,
      ∑ dof ∈ Finset.range c.dim, if d = c.ids.getD n 0 * c.dim + dof then -force n dof else 0 := by
    intro k hk
    induction k with
    | zero => exact ⟨_, rfl, by simp⟩
    | succ k ih =>
      obtain ⟨r1, h1, h2⟩ := ih (by omega)
      have hlt : k < c.ids.length := hk
      have hU : ∀ dof < c.dim, c.ids[k] * c.dim + dof < c.unknowns := by
        intro dof hd
        unfold QConfig.unknowns
        have := Nat.mul_le_mul_right c.dim (Nat.succ_le_of_lt (hb c.ids[k] (List.getElem_mem hlt)))
        rw [Nat.succ_mul] at this
        omega
      obtain ⟨r2, h3, -⟩ := foldlM_dof c.unknowns c.ids[k] c.dim 0 (force k) hU c.dim le_rfl r1
      refine ⟨r2, ?_, fun d => ?_⟩
      · rw [List.range_succ, List.foldlM_append, h1]
        simp only [Option.bind_eq_bind, Option.bind_some, List.foldlM_cons, List.foldlM_nil,
          List.getElem?_eq_getElem hlt]
        rw [h3]; rfl
      · obtain ⟨r2', h3', h4⟩ := foldlM_dof c.unknowns c.ids[k] c.dim d (force k) hU c.dim le_rfl r1
        rw [h3] at h3'
        cases h3'
        rw [h4, h2, Finset.sum_range_succ, getD_lt _ hlt]
  exact key c.numNodes le_rfl

/-- With contiguous ids every nodal force appears, negated, at its own place. -/
theorem negatedForce_spec (c : QConfig K) (hc : Contiguous c.ids) (force : Nodal K) :
    ∃ r, negatedForce c force = some r ∧
      ∀ n < c.numNodes, ∀ dof < c.dim, r (c.ids.getD n 0 * c.dim + dof) = -force n dof := by
  have hls := lsNodes_eq c hc.1
  obtain ⟨r, h1, h2⟩ := negatedForce_sum c (by rw [hls]; exact hc.2) force
  refine ⟨r, h1, ?_⟩
  intro n hn dof hdof
  rw [h2, Finset.sum_eq_single n]
  · rw [Finset.sum_eq_single dof]
    · simp
    · intro b _ hb
      rw [if_neg]; omega
    · intro h; exact absurd (Finset.mem_range.mpr hdof) h
  · intro m hm hne
    apply Finset.sum_eq_zero
    intro d hd
    rw [if_neg]
    intro he
    have hmlt : m < c.ids.length := Finset.mem_range.mp hm
    have hnlt : n < c.ids.length := hn
    rw [getD_lt _ hmlt, getD_lt _ hnlt] at he
    have hd' := Finset.mem_range.mp hd
    have h5 : c.ids[n] = c.ids[m] := by
      have e1 : (c.ids[n] * c.dim + dof) / c.dim = c.ids[n] := by
        rw [Nat.add_comm, Nat.add_mul_div_right _ _ (by omega), Nat.div_eq_of_lt hdof, Nat.zero_add]
      have e2 : (c.ids[m] * c.dim + d) / c.dim = c.ids[m] := by
        rw [Nat.add_comm, Nat.add_mul_div_right _ _ (by omega), Nat.div_eq_of_lt hd', Nat.zero_add]
      rw [← e1, he, e2]
    exact hne ((hc.1.getElem_inj_iff.mp h5).symm)
  · intro h; exact absurd (Finset.mem_range.mpr hn) h

end NimbleSM.Integrate
