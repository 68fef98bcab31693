import Verif.Integrate.QuasistaticDemo

/-!
# C145: a linear problem is solved in one iteration of the nonlinear solver

`QuasistaticTimeIntegrator::Integrate` (src/integrators/quasistatic_time_integrator.cc:233-416) applied to a
problem whose internal force is an affine function of the displacement and whose assembled tangent is the
(constant) matrix of that function.
-/

namespace NimbleSM.Integrate

open NimbleSM.Bc NimbleSM.Solver

variable {K S : Type*} [Field K] [LinearOrder K] [IsStrictOrderedRing K]

/-! ## Specification -/

/-- The place of a node and direction in the linear system. -/
def place (c : QConfig K) (n i : ℕ) : ℕ := c.ids.getD n 0 * c.dim + i

/-- A linear problem: the tangent is always `A`, the force depends on the displacement only, and moving the
nodes by `-s` adds `A s` to the force. -/
structure LinearProblem (c : QConfig K) (p : QPhysics K S) (A : Crs K) (force : Nodal K → Nodal K) : Prop where
  tangent : ∀ s u, p.tangent s u = some A
  internal : ∀ s tp tc out u, ∃ s', p.internal s tp tc out u = some (force u, s')
  affine : ∀ (u u' : Nodal K) (s : ℕ → K),
    (∀ n < c.numNodes, ∀ i < c.dim, u' n i = u n i - s (place c n i)) →
    ∀ n < c.numNodes, ∀ i < c.dim, force u' n i
      = force u n i + ∑ b ∈ Finset.range c.unknowns, entry A (place c n i) b * s b

/-- The preconditioned size of a residual, `Σ_a r_a² / A_aa` over all unknowns. -/
def size (c : QConfig K) (A : Crs K) (r : ℕ → K) : K :=
  ∑ a ∈ Finset.range c.unknowns, r a * r a / entry A a a

/-- Symmetric, and positive definite on the vectors that vanish at the held degrees of freedom. -/
structure FreeSPD (c : QConfig K) (A : Crs K) : Prop where
  symm : ∀ a < c.unknowns, ∀ b < c.unknowns, entry A a b = entry A b a
  pos : ∀ v : ℕ → K, (∀ n < c.numNodes, ∀ i < c.dim, Held c.manager n i → v (place c n i) = 0) →
    (∃ a < c.unknowns, v a ≠ 0) →
    0 < ∑ a ∈ Finset.range c.unknowns, v a * ∑ b ∈ Finset.range c.unknowns, entry A a b * v b

/-! ## The numbering of the unknowns -/

omit [IsStrictOrderedRing K] in
theorem place_surj (c : QConfig K) (hc : Contiguous c.ids) {a : ℕ} (ha : a < c.unknowns) :
    ∃ n < c.numNodes, ∃ i < c.dim, a = place c n i := by
  unfold QConfig.unknowns at ha
  rw [lsNodes_eq c hc.1] at ha
  have hd : 0 < c.dim := by
    rcases Nat.eq_zero_or_pos c.dim with h | h
    · rw [h] at ha; omega
    · exact h
  have hg : a / c.dim < c.ids.length := Nat.div_lt_of_lt_mul (by rw [Nat.mul_comm]; exact ha)
  have hsub : c.ids.toFinset ⊆ Finset.range c.ids.length := fun g hg =>
    Finset.mem_range.mpr (hc.2 g (List.mem_toFinset.mp hg))
  have heq := Finset.eq_of_subset_of_card_le hsub (by rw [Finset.card_range, List.toFinset_card_of_nodup hc.1])
  have hmem : a / c.dim ∈ c.ids := by
    rw [← List.mem_toFinset, heq]; exact Finset.mem_range.mpr hg
  obtain ⟨n, hn, he⟩ := List.getElem_of_mem hmem
  refine ⟨n, hn, a % c.dim, Nat.mod_lt _ hd, ?_⟩
  unfold place
  rw [getD_lt _ hn, he, Nat.mul_comm]
  exact (Nat.div_add_mod a c.dim).symm

/-! ## The linear solve -/

open Classical in
/-- The linear solve in terms of the constrained system. -/
theorem linearSolve_eq (c : QConfig K) (hc : Consistent c) (p : QPhysics K S) {pairs : List (ℕ × ℕ)}
    (hp : Regular c p pairs) (hU : c.unknowns ≠ 0) (step it : ℕ) (x : Newton K S) (A : Crs K)
    (hA : p.tangent x.state x.displacement = some A) :
    ∃ (B : Crs K) (d : K) (rhs : ℕ → K), 0 < d ∧ Solvable B pairs ∧ B.numRows = c.unknowns ∧
      (∀ a b, B.at? a b = (A.at? a b).map
        (imposed (Constrained c.manager.sets c.ids c.dim c.manager.bcs) d a b)) ∧
      (∀ a, rhs a = if Constrained c.manager.sets c.ids c.dim c.manager.bcs a then 0
        else x.residualVector a) ∧
      linearSolve c p step it x =
        match cgSolve B rhs (p.scratch step it) (fun _ => 0) c.cgTol c.cgMax with
        | .rejected => .error .abort
        | .nonFinite => .error .nonFinite
        | .returned false _ _ => .error .failed
        | .returned true _ sol => .ok (sol, rhs) := by
  obtain ⟨hS, hrows⟩ := hp.tangent _ _ A hA
  have hsome : ∀ i < c.unknowns, ∃ v, A.at? i i = some v := by
    intro i hi
    exact Option.isSome_iff_exists.mp ((at_isSome_iff hS.adm hS.pat i i).mpr (hS.diag i (by rw [hrows]; exact hi)))
  have hmap : ∀ l : List ℕ, (∀ i ∈ l, i < c.unknowns) →
      l.mapM (fun i => A.at? i i) = some (l.map fun i => entry A i i) := by
    intro l
    induction l with
    | nil => intro _; rfl
    | cons i l ih =>
      intro h
      obtain ⟨v, hv⟩ := hsome i (h i List.mem_cons_self)
      rw [List.mapM_cons, hv]
      simp only [Option.bind_eq_bind, Option.bind_some]
      rw [ih fun j hj => h j (List.mem_cons_of_mem _ hj)]
      simp [entry, hv]
  have hdiag := hmap (List.range c.unknowns) fun i hi => List.mem_range.mp hi
  set d := (((List.range c.unknowns).map fun i => entry A i i).map fun a => |a|).sum / (c.unknowns : K) with hdef
  have hd : 0 < d := by
    rw [hdef]
    apply div_pos
    · rw [List.map_map]
      apply List.sum_pos
      · intro y hy
        rw [List.mem_map] at hy
        obtain ⟨j, hj, rfl⟩ := hy
        simp only [Function.comp]
        rw [abs_pos]
        exact hS.diagNe j (by rw [hrows]; exact List.mem_range.mp hj)
      · simp [hU]
    · exact Nat.cast_pos.mpr (Nat.pos_of_ne_zero hU)
  obtain ⟨B, hB, pB, vB⟩ := modifyTangent_crs hS.adm hS.pat d c.manager.sets c.ids c.dim c.manager.bcs hc.posed (by
    intro e he
    obtain ⟨bc, hbc, -, ns, hns, m, hm, g, hg, rfl⟩ := he
    apply hS.diag
    rw [hrows]
    have hmlt : m < c.ids.length := by
      obtain ⟨h, -⟩ := List.getElem?_eq_some_iff.mp hg; exact h
    have := index_lt c hc.ids (n := m) (i := bc.coordinate) hmlt (hc.coord bc hbc)
    rw [getD_lt _ hmlt] at this
    rw [List.getElem?_eq_getElem hmlt] at hg
    cases hg
    exact this)
  obtain ⟨rhs, hr, hrv⟩ := modifyRhs_spec c.manager.sets c.ids c.dim c.manager.bcs x.residualVector hc.posed
  obtain ⟨hSB, hrB, -⟩ := solvable_imposed hS pB hd.ne' vB
  refine ⟨B, d, rhs, hd, hSB, by rw [hrB, hrows], vB, hrv, ?_⟩
  unfold linearSolve
  rw [hA]
  simp only
  rw [hdiag]
  simp only
  rw [if_neg hU, ← hdef, hB, hr]
  rfl


omit [LinearOrder K] [IsStrictOrderedRing K] in
theorem entry_imposed_free {A B : Crs K} {C : ℕ → Prop} {d : K}
    (hat : ∀ a b, B.at? a b = (A.at? a b).map (imposed C d a b)) (a b : ℕ) (ha : ¬ C a) (hb : ¬ C b) :
    entry B a b = entry A a b := by
  unfold entry
  rw [hat]
  cases A.at? a b with
  | none => rfl
  | some v => simp [imposed, ha, hb]

open Classical in
/-- What a successful linear solve returns: the corrections vanish at the constrained unknowns, and the
linearised residual left at the other unknowns is within the tolerance of the linear solver. -/
theorem linearSolve_result (c : QConfig K) (hc : Consistent c) (p : QPhysics K S) {pairs : List (ℕ × ℕ)}
    (hp : Regular c p pairs) (hmx : 0 ≤ c.cgMax) (step it : ℕ) (x : Newton K S) (A : Crs K)
    (hA : p.tangent x.state x.displacement = some A) (sol rhs : ℕ → K)
    (h : linearSolve c p step it x = .ok (sol, rhs))
    (hheld : ∀ a < c.unknowns, Constrained c.manager.sets c.ids c.dim c.manager.bcs a → x.residualVector a = 0)
    (ρ : ℕ → K)
    (hρ : ∀ a < c.unknowns, ρ a = if Constrained c.manager.sets c.ids c.dim c.manager.bcs a then 0
      else x.residualVector a - ∑ b ∈ Finset.range c.unknowns, entry A a b * sol b) :
    c.unknowns ≠ 0 ∧
    (∀ a < c.unknowns, Constrained c.manager.sets c.ids c.dim c.manager.bcs a → sol a = 0) ∧
    (∀ a < c.unknowns, rhs a = x.residualVector a) ∧
    size c A ρ ≤ c.cgTol * size c A x.residualVector := by
  have hU : c.unknowns ≠ 0 := by
    intro hU
    unfold linearSolve at h
    rw [hA] at h
    simp only at h
    split at h
    · simp at h
    · rw [if_pos hU] at h; simp at h
  obtain ⟨B, d, rhs', hd, hSB, hrB, vB, hrv, heq⟩ := linearSolve_eq c hc p hp hU step it x A hA
  rw [heq] at h
  split at h
  · simp at h
  · simp at h
  · simp at h
  · rename_i iters sol' hcg
    simp only [Except.ok.injEq, Prod.mk.injEq] at h
    obtain ⟨rfl, rfl⟩ := h
    set C := Constrained c.manager.sets c.ids c.dim c.manager.bcs with hC
    have hoff : ∀ i, C i → ∀ j, j ≠ i → entry B i j = 0 := by
      intro i hi j hj
      unfold entry
      rw [vB]
      cases A.at? i j with
      | none => rfl
      | some v => simp [imposed, hi, Ne.symm hj]
    have hzero : ∀ a < c.unknowns, C a → sol' a = 0 := by
      intro a ha hCa
      exact cg_decoupled_zero hSB (hp.scratch _ _) rhs' (fun _ => 0) _ _ a (by rw [hrB]; exact ha)
        (fun j _ hj => hoff a hCa j hj) (by rw [hrv, if_pos hCa]) rfl hcg
    have hrhs : ∀ a < c.unknowns, rhs' a = x.residualVector a := by
      intro a ha
      rw [hrv]
      split_ifs with hCa
      · exact (hheld a ha hCa).symm
      · rfl
    refine ⟨hU, hzero, hrhs, ?_⟩
    have hcond := (cg_success hSB (hp.scratch _ _) rhs' (fun _ => 0) _ _ hmx hcg).1
    have hres : ∀ a < c.unknowns, Solver.residual B rhs' sol' a = ρ a := by
      intro a ha
      rw [hρ a ha]
      unfold Solver.residual
      rw [hrB]
      by_cases hCa : C a
      · rw [if_pos hCa, hrv, if_pos hCa, Finset.sum_eq_zero, sub_zero]
        intro b hb
        by_cases hba : b = a
        · rw [hba, hzero a ha hCa, mul_zero]
        · rw [hoff a hCa b hba, zero_mul]
      · rw [if_neg hCa, hrhs a ha]
        congr 1
        apply Finset.sum_congr rfl
        intro b hb
        by_cases hCb : C b
        · rw [hzero b (Finset.mem_range.mp hb) hCb, mul_zero, mul_zero]
        · rw [entry_imposed_free vB a b hCa hCb]
    have hterm : ∀ (v w : ℕ → K), (∀ a < c.unknowns, v a = w a) → (∀ a < c.unknowns, C a → w a = 0) →
        ∑ i ∈ Finset.range B.numRows, v i * v i / entry B i i = size c A w := by
      intro v w hvw hw
      unfold size
      rw [hrB]
      apply Finset.sum_congr rfl
      intro a ha
      have ha' := Finset.mem_range.mp ha
      rw [hvw a ha']
      by_cases hCa : C a
      · rw [hw a ha' hCa]; simp
      · rw [entry_imposed_free vB a a hCa hCa]
    unfold resNorm at hcond
    rw [hterm _ ρ hres (fun a ha hCa => by rw [hρ a ha, if_pos hCa]),
      hterm (Solver.residual B rhs' fun _ => 0) x.residualVector (fun a ha => by
        unfold Solver.residual; simp only [mul_zero, Finset.sum_const_zero, sub_zero]; exact hrhs a ha) hheld] at hcond
    exact hcond

/-! ## One iteration -/

open Classical in
/-- On a linear problem the residual vector of displacements corrected by `s` at the free degrees of freedom. -/
theorem corrected_residual (c : QConfig K) (hc : Consistent c) (p : QPhysics K S) {A : Crs K}
    {force : Nodal K → Nodal K} (hl : LinearProblem c p A force) (tp tc : K) (out : Bool) (s0 : S)
    (u u' : Nodal K) (σ : ℕ → K)
    (hu : ∀ n < c.numNodes, ∀ i < c.dim, u' n i = u n i - σ (place c n i))
    {s1 s2 : S} {r : ℕ → K} {e : K} (hr : computeResidual c p s1 tp tc out u = some (r, e, s2)) :
    (∀ a < c.unknowns, Constrained c.manager.sets c.ids c.dim c.manager.bcs a → r a = 0) ∧
    ∃ r' s', computeResidual c p s0 tp tc out u' = some (r', residualNorm c r', s') ∧
      ∀ a < c.unknowns, r' a = if Constrained c.manager.sets c.ids c.dim c.manager.bcs a then 0
        else r a - ∑ b ∈ Finset.range c.unknowns, entry A a b * σ b := by
  obtain ⟨s3, h3⟩ := hl.internal s1 tp tc out u
  obtain ⟨ra, hra, hrav⟩ := residual_vector_spec c hc p s1 tp tc out u (force u) s3 h3
  rw [hr] at hra
  simp only [Option.some.injEq, Prod.mk.injEq] at hra
  obtain ⟨rfl, -, -⟩ := hra
  obtain ⟨s4, h4⟩ := hl.internal s0 tp tc out u'
  obtain ⟨rb, hrb, hrbv⟩ := residual_vector_spec c hc p s0 tp tc out u' (force u') s4 h4
  refine ⟨?_, rb, s4, hrb, ?_⟩
  · intro a ha hCa
    obtain ⟨n, hn, i, hi, rfl⟩ := place_surj c hc.ids ha
    have := hrav n hn i hi
    rw [if_pos ((held_iff c hc hn hi).mp hCa)] at this
    exact this
  · intro a ha
    obtain ⟨n, hn, i, hi, rfl⟩ := place_surj c hc.ids ha
    have h1 := hrav n hn i hi
    have h2 := hrbv n hn i hi
    by_cases hh : Held c.manager n i
    · rw [if_pos hh] at h2
      have hcon : Constrained c.manager.sets c.ids c.dim c.manager.bcs (place c n i) :=
        (held_iff c hc hn hi).mpr hh
      rw [if_pos hcon]
      exact h2
    · rw [if_neg hh] at h1 h2
      have hcon : ¬ Constrained c.manager.sets c.ids c.dim c.manager.bcs (place c n i) :=
        fun h => hh ((held_iff c hc hn hi).mp h)
      rw [if_neg hcon]
      change rb (c.ids.getD n 0 * c.dim + i) = r (c.ids.getD n 0 * c.dim + i) - _
      rw [h1, h2, hl.affine u u' σ hu n hn i hi]
      ring

/-- **C145 (a)**.  On a linear problem, after one iteration of the nonlinear solver the accepted residual is
no larger than that of a vector whose preconditioned size, over all unknowns, is at most the tolerance of the
linear solver times the size of the residual before. -/
theorem linear_newton_step (c : QConfig K) (hc : Consistent c) (p : QPhysics K S) {pairs : List (ℕ × ℕ)}
    (hp : Regular c p pairs) (hmx : 0 ≤ c.cgMax) {A : Crs K} {force : Nodal K → Nodal K}
    (hl : LinearProblem c p A force) (step it : ℕ) (tp tc : K) (out : Bool) (x x' : Newton K S)
    (hx : NewtonInv c p tp tc out x) (h : newtonStep c p step it tp tc out x = .ok x') :
    ∃ ρ : ℕ → K, size c A ρ ≤ c.cgTol * size c A x.residualVector ∧
      x'.residual ≤ residualNorm c ρ ∧
      ∃ u s s', computeResidual c p s tp tc out u = some (ρ, residualNorm c ρ, s') := by
  obtain ⟨s1, s2, hinv⟩ := hx
  unfold newtonStep at h
  split at h
  · simp at h
  · rename_i sol rhs hsol
    simp only at h
    set trial := updateNodes c (fun n dof i => x.displacement n dof - sol i) x.trial with htrial
    have hu : ∀ n < c.numNodes, ∀ i < c.dim, trial n i = x.displacement n i - sol (place c n i) := by
      intro n hn i hi
      rw [htrial, updateNodes_spec c hc.ids.1, if_pos ⟨hn, id_lt c hc.ids hn, hi⟩]
      rfl
    obtain ⟨hheld, ρ, s3, hρ, hρv⟩ :=
      corrected_residual c hc p hl tp tc out x.state x.displacement trial sol hu hinv
    obtain ⟨-, -, -, hsize⟩ :=
      linearSolve_result c hc p hp hmx step it x A (hl.tangent _ _) sol rhs hsol hheld ρ hρv
    rw [hρ] at h
    simp only at h
    split_ifs at h with hz
    split at h
    · simp at h
    · rename_i rv rr s' hR
      refine ⟨ρ, hsize, ?_, trial, x.state, s3, hρ⟩
      split_ifs at h with hlt
      · simp only [Except.ok.injEq] at h; subst h; exact le_rfl
      · simp only [Except.ok.injEq] at h; subst h; exact not_lt.mp hlt

theorem infinityNorm_sq_le (n : ℕ) (r : ℕ → K) :
    infinityNorm n r * infinityNorm n r ≤ ∑ i ∈ Finset.range n, r i * r i := by
  rcases infinityNorm_attained n r with h | ⟨i, hi, h⟩
  · rw [h, mul_zero]; exact Finset.sum_nonneg fun i _ => mul_self_nonneg _
  · rw [h, abs_mul_abs_self]
    exact Finset.single_le_sum (f := fun j => r j * r j) (fun j _ => mul_self_nonneg _) (Finset.mem_range.mpr hi)

theorem residualNorm_nonneg (c : QConfig K) (hsqrt : ∀ x, 0 ≤ x → 0 ≤ c.sqrt x ∧ c.sqrt x * c.sqrt x = x)
    (r : ℕ → K) : 0 ≤ residualNorm c r := by
  unfold residualNorm
  rw [innerProduct_eq]
  have h1 := (hsqrt _ (Finset.sum_nonneg (s := Finset.range c.numNodes) fun j _ => mul_self_nonneg (r j))).1
  have h2 := (infinityNorm_ge c.numNodes r).1
  linarith

/-- The number tested by the nonlinear solver is at most 21 times the Euclidean norm. -/
theorem residualNorm_sq_le (c : QConfig K) (hsqrt : ∀ x, 0 ≤ x → 0 ≤ c.sqrt x ∧ c.sqrt x * c.sqrt x = x)
    (r : ℕ → K) :
    residualNorm c r * residualNorm c r ≤ 441 * ∑ i ∈ Finset.range c.numNodes, r i * r i := by
  unfold residualNorm
  rw [innerProduct_eq]
  set q := ∑ j ∈ Finset.range c.numNodes, r j * r j with hq
  have hq0 : 0 ≤ q := Finset.sum_nonneg fun j _ => mul_self_nonneg _
  obtain ⟨h0, h1⟩ := hsqrt q hq0
  have h2 := (infinityNorm_ge c.numNodes r).1
  have h3 := infinityNorm_sq_le c.numNodes r
  rw [← hq, ← h1] at h3
  have h4 : infinityNorm c.numNodes r ≤ c.sqrt q := by nlinarith
  nlinarith [mul_le_mul h4 h4 h2 h0, mul_le_mul_of_nonneg_right h4 h0]

/-- The Euclidean norm at the nodes tested, bounded by the preconditioned size. -/
theorem sum_sq_le_size (c : QConfig K) (hc : Contiguous c.ids) (hd : 0 < c.dim) (A : Crs K) (hi lo : K)
    (hlo : 0 < lo) (hdiag : ∀ a < c.unknowns, lo ≤ entry A a a ∧ entry A a a ≤ hi) (r : ℕ → K) :
    ∑ i ∈ Finset.range c.numNodes, r i * r i ≤ hi * size c A r ∧
      lo * size c A r ≤ ∑ a ∈ Finset.range c.unknowns, r a * r a := by
  have hle : c.numNodes ≤ c.unknowns := by
    unfold QConfig.unknowns; rw [lsNodes_eq c hc.1]; exact Nat.le_mul_of_pos_right _ hd
  constructor
  · calc ∑ i ∈ Finset.range c.numNodes, r i * r i ≤ ∑ i ∈ Finset.range c.unknowns, r i * r i :=
          Finset.sum_le_sum_of_subset_of_nonneg (Finset.range_mono hle) fun i _ _ => mul_self_nonneg _
      _ ≤ hi * size c A r := by
          unfold size
          rw [Finset.mul_sum]
          apply Finset.sum_le_sum
          intro a ha
          obtain ⟨h1, h2⟩ := hdiag a (Finset.mem_range.mp ha)
          have hp : 0 < entry A a a := lt_of_lt_of_le hlo h1
          rw [← mul_div_assoc, le_div_iff₀ hp, mul_comm hi]
          exact mul_le_mul_of_nonneg_left h2 (mul_self_nonneg _)
  · unfold size
    rw [Finset.mul_sum]
    apply Finset.sum_le_sum
    intro a ha
    obtain ⟨h1, h2⟩ := hdiag a (Finset.mem_range.mp ha)
    have hp : 0 < entry A a a := lt_of_lt_of_le hlo h1
    rw [← mul_div_assoc, div_le_iff₀ hp, mul_comm lo]
    exact mul_le_mul_of_nonneg_left h1 (mul_self_nonneg _)

/-! ## The linear solve succeeds -/

open Classical in
theorem constrained_spd (c : QConfig K) (hc : Consistent c) {A B : Crs K} {pairs : List (ℕ × ℕ)}
    (hSA : Solvable A pairs) (hrA : A.numRows = c.unknowns) (hP : FreeSPD c A) {d : K} (hd : 0 < d)
    (hrB : B.numRows = c.unknowns)
    (vB : ∀ a b, B.at? a b = (A.at? a b).map
      (imposed (Constrained c.manager.sets c.ids c.dim c.manager.bcs) d a b)) : SPD B := by
  set C := Constrained c.manager.sets c.ids c.dim c.manager.bcs with hC
  have hoff : ∀ a b, C a ∨ C b → a ≠ b → entry B a b = 0 := by
    intro a b hab hne
    unfold entry
    rw [vB]
    cases A.at? a b with
    | none => rfl
    | some v => simp [imposed, hab, hne]
  have hdiag : ∀ a < c.unknowns, C a → entry B a a = d := by
    intro a ha hCa
    obtain ⟨v, hv⟩ := Option.isSome_iff_exists.mp
      ((at_isSome_iff hSA.adm hSA.pat a a).mpr (hSA.diag a (by rw [hrA]; exact ha)))
    unfold entry
    rw [vB, hv]
    simp [imposed, hCa]
  constructor
  · rw [hrB]
    intro a ha b hb
    by_cases hab : a = b
    · rw [hab]
    · by_cases h : C a ∨ C b
      · rw [hoff a b h hab, hoff b a h.symm (Ne.symm hab)]
      · push Not at h
        rw [entry_imposed_free vB a b h.1 h.2, entry_imposed_free vB b a h.2 h.1]
        exact hP.symm a ha b hb
  · rw [hrB]
    rintro v ⟨a0, ha0, hv0⟩
    set w : ℕ → K := fun a => if C a then 0 else v a with hw
    have hterm : ∀ a ∈ Finset.range c.unknowns,
        v a * ∑ b ∈ Finset.range c.unknowns, entry B a b * v b
          = w a * (∑ b ∈ Finset.range c.unknowns, entry A a b * w b) + if C a then d * (v a * v a) else 0 := by
      intro a ha
      have ha' := Finset.mem_range.mp ha
      by_cases hCa : C a
      · have hwa : w a = 0 := by rw [hw]; simp [hCa]
        rw [hwa, zero_mul, zero_add, if_pos hCa, Finset.sum_eq_single a]
        · rw [hdiag a ha' hCa]; ring
        · intro b _ hb; rw [hoff a b (Or.inl hCa) (Ne.symm hb), zero_mul]
        · intro h; exact absurd ha h
      · have hwa : w a = v a := by rw [hw]; simp [hCa]
        rw [hwa, if_neg hCa, add_zero]
        congr 1
        apply Finset.sum_congr rfl
        intro b _
        by_cases hCb : C b
        · have hwb : w b = 0 := by rw [hw]; simp [hCb]
          rw [hwb, mul_zero, hoff a b (Or.inr hCb) (by rintro rfl; exact hCa hCb), zero_mul]
        · have hwb : w b = v b := by rw [hw]; simp [hCb]
          rw [hwb, entry_imposed_free vB a b hCa hCb]
    rw [Finset.sum_congr rfl hterm, Finset.sum_add_distrib]
    have hwheld : ∀ n < c.numNodes, ∀ i < c.dim, Held c.manager n i → w (place c n i) = 0 := by
      intro n hn i hi hh
      rw [hw]; simp only
      rw [if_pos]
      exact (held_iff c hc hn hi).mpr hh
    have hnn2 : ∀ a ∈ Finset.range c.unknowns, (0 : K) ≤ if C a then d * (v a * v a) else 0 := by
      intro a _
      split_ifs
      · exact mul_nonneg hd.le (mul_self_nonneg _)
      · exact le_rfl
    by_cases hex : ∃ a < c.unknowns, w a ≠ 0
    · exact add_pos_of_pos_of_nonneg (hP.pos w hwheld hex) (Finset.sum_nonneg hnn2)
    · push Not at hex
      have h1 : ∑ a ∈ Finset.range c.unknowns, w a * ∑ b ∈ Finset.range c.unknowns, entry A a b * w b = 0 :=
        Finset.sum_eq_zero fun a ha => by rw [hex a (Finset.mem_range.mp ha), zero_mul]
      rw [h1, zero_add]
      have hCa0 : C a0 := by
        by_contra hn
        apply hv0
        have := hex a0 ha0
        rw [hw] at this
        simpa [hn] using this
      refine lt_of_lt_of_le ?_ (Finset.single_le_sum hnn2 (Finset.mem_range.mpr ha0))
      rw [if_pos hCa0]
      exact mul_pos hd (mul_self_pos.mpr hv0)

theorem FreeSPD.diag_pos {c : QConfig K} (hc : Consistent c) {A : Crs K} (hP : FreeSPD c A) {a : ℕ}
    (ha : a < c.unknowns) (hfree : ¬ Constrained c.manager.sets c.ids c.dim c.manager.bcs a) : 0 < entry A a a := by
  have h := hP.pos (fun b => if b = a then 1 else 0) (by
    intro n hn i hi hh
    rw [if_neg]
    intro he
    apply hfree
    rw [← he]
    exact (held_iff c hc hn hi).mpr hh) ⟨a, ha, by simp⟩
  rw [Finset.sum_eq_single a (by intro b _ hb; simp [hb]) (fun h => absurd (Finset.mem_range.mpr ha) h)] at h
  rw [Finset.sum_eq_single a (by intro b _ hb; simp [hb]) (fun h => absurd (Finset.mem_range.mpr ha) h)] at h
  simpa using h

/-- **C145 (b)**.  On a linear problem whose matrix is symmetric and, at the free degrees of freedom, positive
definite, an iteration of the nonlinear solver from a non-zero residual never stops the run: the linear solver
succeeds and the line search does not divide by zero. -/
theorem linear_newton_step_succeeds (c : QConfig K) (hc : Consistent c) (p : QPhysics K S)
    {pairs : List (ℕ × ℕ)} (hp : Regular c p pairs) {A : Crs K} {force : Nodal K → Nodal K}
    (hl : LinearProblem c p A force) (hP : FreeSPD c A) (htol : 0 ≤ c.cgTol) (htol1 : c.cgTol < 1)
    (hmx : (c.unknowns : ℤ) < c.cgMax) (step it : ℕ) (tp tc : K) (out : Bool) (x : Newton K S)
    (hx : NewtonInv c p tp tc out x) (hne : ∃ a < c.unknowns, x.residualVector a ≠ 0) :
    ∃ x', newtonStep c p step it tp tc out x = .ok x' := by
  classical
  obtain ⟨s1, s2, hinv⟩ := hx
  have hA := hl.tangent x.state x.displacement
  obtain ⟨a0, ha0, hr0⟩ := hne
  have hU : c.unknowns ≠ 0 := by omega
  obtain ⟨hSA, hrA⟩ := hp.tangent _ _ A hA
  obtain ⟨B, d, rhs, hd, hSB, hrB, vB, hrv, heq⟩ := linearSolve_eq c hc p hp hU step it x A hA
  have hSPD := constrained_spd c hc hSA hrA hP hd hrB vB
  obtain ⟨success, iters, sol, hcg, -, hyes⟩ :=
    cg_spd hSB hSPD (hp.scratch step it) rhs (fun _ => 0) c.cgTol htol c.cgMax
  obtain ⟨rfl, -⟩ := hyes (by rw [hrB]; exact hmx)
  rw [hcg] at heq
  simp only at heq
  set trial := updateNodes c (fun n dof i => x.displacement n dof - sol i) x.trial with htrial
  have hu : ∀ n < c.numNodes, ∀ i < c.dim, trial n i = x.displacement n i - sol (place c n i) := by
    intro n hn i hi
    rw [htrial, updateNodes_spec c hc.ids.1, if_pos ⟨hn, id_lt c hc.ids hn, hi⟩]
    rfl
  obtain ⟨hheld, ρ, s3, hρ, hρv⟩ :=
    corrected_residual c hc p hl tp tc out x.state x.displacement trial sol hu hinv
  obtain ⟨-, hzero, hrhs, hsize⟩ :=
    linearSolve_result c hc p hp (by omega) step it x A hA sol rhs heq hheld ρ hρv
  have hsol : ∃ a < c.unknowns, sol a ≠ 0 := by
    by_contra hno
    push Not at hno
    have hsame : size c A ρ = size c A x.residualVector := by
      unfold size
      apply Finset.sum_congr rfl
      intro a ha
      have ha' := Finset.mem_range.mp ha
      have : ρ a = x.residualVector a := by
        rw [hρv a ha']
        split_ifs with hCa
        · exact (hheld a ha' hCa).symm
        · rw [Finset.sum_eq_zero fun b hb => by rw [hno b (Finset.mem_range.mp hb), mul_zero], sub_zero]
      rw [this]
    have hnn : ∀ a ∈ Finset.range c.unknowns,
        0 ≤ x.residualVector a * x.residualVector a / entry A a a := by
      intro a ha
      have ha' := Finset.mem_range.mp ha
      by_cases hCa : Constrained c.manager.sets c.ids c.dim c.manager.bcs a
      · rw [hheld a ha' hCa]; simp
      · exact div_nonneg (mul_self_nonneg _) (hP.diag_pos hc ha' hCa).le
    have hpos : 0 < size c A x.residualVector := by
      refine lt_of_lt_of_le ?_ (Finset.single_le_sum hnn (Finset.mem_range.mpr ha0))
      have hfree : ¬ Constrained c.manager.sets c.ids c.dim c.manager.bcs a0 := fun h => hr0 (hheld a0 ha0 h)
      exact div_pos (mul_self_pos.mpr hr0) (hP.diag_pos hc ha0 hfree)
    rw [hsame] at hsize
    nlinarith
  have hsolheld : ∀ n < c.numNodes, ∀ i < c.dim, Held c.manager n i → sol (place c n i) = 0 := by
    intro n hn i hi hh
    exact hzero _ (index_lt c hc.ids hn hi) ((held_iff c hc hn hi).mpr hh)
  have hquad := hP.pos sol hsolheld hsol
  have hden : innerProduct c.unknowns sol ρ - innerProduct c.unknowns sol rhs
      = -∑ a ∈ Finset.range c.unknowns, sol a * ∑ b ∈ Finset.range c.unknowns, entry A a b * sol b := by
    rw [innerProduct_eq, innerProduct_eq, ← Finset.sum_sub_distrib, ← Finset.sum_neg_distrib]
    apply Finset.sum_congr rfl
    intro a ha
    have ha' := Finset.mem_range.mp ha
    rw [hrhs a ha', hρv a ha']
    split_ifs with hCa
    · rw [hzero a ha' hCa]; ring
    · ring
  set α := -1 * innerProduct c.unknowns sol rhs / (innerProduct c.unknowns sol ρ - innerProduct c.unknowns sol rhs)
    with hα
  set disp := updateNodes c (fun n dof i => x.displacement n dof - α * sol i) x.displacement with hdisp
  have hu2 : ∀ n < c.numNodes, ∀ i < c.dim, disp n i = x.displacement n i - α * sol (place c n i) := by
    intro n hn i hi
    rw [hdisp, updateNodes_spec c hc.ids.1, if_pos ⟨hn, id_lt c hc.ids hn, hi⟩]
    rfl
  obtain ⟨-, ρ2, s4, hρ2, -⟩ :=
    corrected_residual c hc p hl tp tc out s3 x.displacement disp (fun b => α * sol b) hu2 hinv
  unfold newtonStep
  rw [heq]
  simp only
  rw [← htrial, hρ]
  simp only
  rw [if_neg (by rw [hden]; exact neg_ne_zero.mpr hquad.ne'), ← hα, ← hdisp, hρ2]
  simp only
  split_ifs
  · exact ⟨_, rfl⟩
  · exact ⟨_, rfl⟩

/-! ## Load steps and runs -/

/-- **C145 (c)**.  On a linear problem the residual number accepted after one iteration, squared, is at most
`441 (hi / lo) cgTol` times the squared Euclidean norm of the residual before, if the diagonal entries of the
matrix lie between `lo` and `hi`. -/
theorem linear_step_residual (c : QConfig K) (hc : Consistent c)
    (hsqrt : ∀ x, 0 ≤ x → 0 ≤ c.sqrt x ∧ c.sqrt x * c.sqrt x = x) (hdim : 0 < c.dim) (p : QPhysics K S)
    {pairs : List (ℕ × ℕ)} (hp : Regular c p pairs) (hmx : 0 ≤ c.cgMax) (htol : 0 ≤ c.cgTol) {A : Crs K}
    {force : Nodal K → Nodal K} (hl : LinearProblem c p A force) (lo hi : K) (hlo : 0 < lo)
    (hdiag : ∀ a < c.unknowns, lo ≤ entry A a a ∧ entry A a a ≤ hi)
    (step it : ℕ) (tp tc : K) (out : Bool) (x x' : Newton K S)
    (hx : NewtonInv c p tp tc out x) (h : newtonStep c p step it tp tc out x = .ok x') :
    0 ≤ x'.residual ∧ lo * (x'.residual * x'.residual)
      ≤ 441 * hi * c.cgTol * ∑ a ∈ Finset.range c.unknowns, x.residualVector a * x.residualVector a := by
  obtain ⟨ρ, h1, h2, -⟩ := linear_newton_step c hc p hp hmx hl step it tp tc out x x' hx h
  obtain ⟨s1, s2, hinv'⟩ := newtonStep_inv c p step it tp tc out x x' h
  have hnn : 0 ≤ x'.residual := by
    have hnorm : x'.residual = residualNorm c x'.residualVector := by
      unfold computeResidual at hinv'
      simp only [Option.bind_eq_some_iff, Option.some.injEq, Prod.mk.injEq] at hinv'
      obtain ⟨_, _, _, _, _, _, rfl, h4, _⟩ := hinv'
      exact h4.symm
    rw [hnorm]
    exact residualNorm_nonneg c hsqrt _
  refine ⟨hnn, ?_⟩
  have h3 := residualNorm_sq_le c hsqrt ρ
  obtain ⟨h4, -⟩ := sum_sq_le_size c hc.ids hdim A hi lo hlo hdiag ρ
  obtain ⟨-, h5⟩ := sum_sq_le_size c hc.ids hdim A hi lo hlo hdiag x.residualVector
  have h6 : x'.residual * x'.residual ≤ residualNorm c ρ * residualNorm c ρ :=
    mul_le_mul h2 h2 hnn (hnn.trans h2)
  have hN : 0 ≤ c.unknowns := Nat.zero_le _
  have hhi : 0 ≤ hi := by
    rcases Nat.eq_zero_or_pos c.unknowns with h0 | h0
    · by_contra hneg
      have hU0 : size c A ρ = 0 := by unfold size; rw [h0]; simp
      unfold newtonStep at h
      split at h
      · simp at h
      · rename_i sol rhs hsol
        unfold linearSolve at hsol
        rw [hl.tangent] at hsol
        simp only at hsol
        split at hsol
        · simp at hsol
        · rw [if_pos h0] at hsol; simp at hsol
    · obtain ⟨ha, hb⟩ := hdiag 0 h0
      exact (hlo.le.trans ha).trans hb
  calc lo * (x'.residual * x'.residual) ≤ lo * (441 * (hi * size c A ρ)) := by
        apply mul_le_mul_of_nonneg_left _ hlo.le
        linarith
    _ ≤ lo * (441 * (hi * (c.cgTol * size c A x.residualVector))) := by
        apply mul_le_mul_of_nonneg_left _ hlo.le
        apply mul_le_mul_of_nonneg_left _ (by norm_num)
        exact mul_le_mul_of_nonneg_left h1 hhi
    _ = 441 * hi * c.cgTol * (lo * size c A x.residualVector) := by ring
    _ ≤ _ := by
        apply mul_le_mul_of_nonneg_left h5
        exact mul_nonneg (mul_nonneg (by norm_num) hhi) htol

/-- What makes a linear problem one that the solver handles: symmetric positive definite, diagonal between
`lo` and `hi`, the linear solver's iteration limit above the number of unknowns, a linear tolerance in
`[0, 1)`, and a limit of at least two on the nonlinear iterations. -/
structure LinearRun (c : QConfig K) (p : QPhysics K S) (pairs : List (ℕ × ℕ)) (A : Crs K)
    (force : Nodal K → Nodal K) (lo hi : K) : Prop where
  consistent : Consistent c
  sqrt : ∀ x, 0 ≤ x → 0 ≤ c.sqrt x ∧ c.sqrt x * c.sqrt x = x
  dim : 0 < c.dim
  regular : Regular c p pairs
  linear : LinearProblem c p A force
  spd : FreeSPD c A
  pos : 0 < lo
  diag : ∀ a < c.unknowns, lo ≤ entry A a a ∧ entry A a a ≤ hi
  cgTol : 0 ≤ c.cgTol ∧ c.cgTol < 1
  cgMax : (c.unknowns : ℤ) < c.cgMax
  relTol : 0 ≤ c.relTol
  maxIter : 2 ≤ c.maxIter

/-- **C145 (d)**.  A load step of such a problem succeeds, with at most one iteration of the nonlinear solver
(two evaluations of the internal force besides the initial one), if the linear solver's tolerance is small
against the nonlinear one: `441 (hi / lo) cgTol |r0|² ≤ tol²`, where `r0` is the initial residual vector and
`tol = relTol ρ0` the tolerance. -/
theorem linear_load_step (c : QConfig K) (p : QPhysics K S) {pairs : List (ℕ × ℕ)} {A : Crs K}
    {force : Nodal K → Nodal K} {lo hi : K} (hr : LinearRun c p pairs A force lo hi) (k : ℕ) (s : QSim K S)
    (hsmall : ∀ r0 ρ0 st0,
      computeResidual c p s.state s.time (s.time + c.dt) (c.isOutputStep k)
        (kinematic c.toConfig (s.time + c.dt) s.time s.displacement s.velocity).1 = some (r0, ρ0, st0) →
      441 * hi * c.cgTol * ∑ a ∈ Finset.range c.unknowns, r0 a * r0 a
        ≤ lo * ((c.relTol * ρ0) * (c.relTol * ρ0))) :
    ∃ s', loadStep c p k s = .ok s' ∧
      ∃ r0 ρ0 st0, computeResidual c p s.state s.time (s.time + c.dt) (c.isOutputStep k)
        (kinematic c.toConfig (s.time + c.dt) s.time s.displacement s.velocity).1 = some (r0, ρ0, st0) ∧
      ∃ x it, it ≤ 1 ∧ newtonLoop c p k s.time (s.time + c.dt) (c.isOutputStep k) (c.relTol * ρ0)
        c.maxIter.toNat 0
        ⟨(kinematic c.toConfig (s.time + c.dt) s.time s.displacement s.velocity).1, s.trial, r0, ρ0, st0⟩
          = .ok (x, it) ∧ x.residual ≤ c.relTol * ρ0 ∧ s'.displacement = x.displacement := by
  set u := (kinematic c.toConfig (s.time + c.dt) s.time s.displacement s.velocity).1 with hu
  obtain ⟨s1, h1⟩ := hr.linear.internal s.state s.time (s.time + c.dt) (c.isOutputStep k) u
  obtain ⟨r0, hr0, -⟩ := residual_vector_spec c hr.consistent p s.state s.time (s.time + c.dt)
    (c.isOutputStep k) u (force u) s1 h1
  have hsm := hsmall r0 _ s1 hr0
  set ρ0 := residualNorm c r0 with hρ0
  have hρnn : 0 ≤ ρ0 := residualNorm_nonneg c hr.sqrt r0
  have htolnn : 0 ≤ c.relTol * ρ0 := mul_nonneg hr.relTol hρnn
  have hloop : ∃ x it, it ≤ 1 ∧ newtonLoop c p k s.time (s.time + c.dt) (c.isOutputStep k) (c.relTol * ρ0)
        c.maxIter.toNat 0 ⟨u, s.trial, r0, ρ0, s1⟩ = .ok (x, it) ∧ x.residual ≤ c.relTol * ρ0 := by
    obtain ⟨fuel, hfuel⟩ : ∃ fuel, c.maxIter.toNat = fuel + 2 := ⟨c.maxIter.toNat - 2, by
      have := hr.maxIter; omega⟩
    rw [hfuel]
    by_cases hgt : ρ0 > c.relTol * ρ0
    · have hinv : NewtonInv c p s.time (s.time + c.dt) (c.isOutputStep k) ⟨u, s.trial, r0, ρ0, s1⟩ :=
        ⟨s.state, s1, hr0⟩
      have hne : ∃ a < c.unknowns, r0 a ≠ 0 := by
        by_contra hno
        push Not at hno
        have hle : c.numNodes ≤ c.unknowns := by
          unfold QConfig.unknowns
          rw [lsNodes_eq c hr.consistent.ids.1]; exact Nat.le_mul_of_pos_right _ hr.dim
        have h0 : c.sqrt 0 = 0 := mul_self_eq_zero.mp (hr.sqrt 0 le_rfl).2
        have hz := residualNorm_blind c h0 r0 (fun i hi => hno i (by omega))
        rw [← hρ0] at hz
        rw [hz, mul_zero] at hgt
        exact lt_irrefl _ hgt
      obtain ⟨x', hx'⟩ := linear_newton_step_succeeds c hr.consistent p hr.regular hr.linear hr.spd
        hr.cgTol.1 hr.cgTol.2 hr.cgMax k 0 s.time (s.time + c.dt) (c.isOutputStep k) _ hinv hne
      have hres := linear_step_residual c hr.consistent hr.sqrt hr.dim p hr.regular
        (by have := hr.cgMax; omega) hr.cgTol.1 hr.linear lo hi hr.pos hr.diag k 0 s.time (s.time + c.dt)
        (c.isOutputStep k) _ x' hinv hx'
      have hle : x'.residual ≤ c.relTol * ρ0 := by
        have h2 := hres.2.trans hsm
        have h3 : x'.residual * x'.residual ≤ c.relTol * ρ0 * (c.relTol * ρ0) :=
          le_of_mul_le_mul_left h2 hr.pos
        by_contra hn
        push Not at hn
        nlinarith
      refine ⟨x', 1, le_rfl, ?_, hle⟩
      rw [newtonLoop, if_pos hgt, hx']
      simp only
      rw [newtonLoop, if_neg (not_lt.mpr hle)]
    · refine ⟨⟨u, s.trial, r0, ρ0, s1⟩, 0, Nat.zero_le _, ?_, not_lt.mp hgt⟩
      rw [newtonLoop, if_neg hgt]
  obtain ⟨x, it, hit, hx, hle⟩ := hloop
  have hok : ∃ s', loadStep c p k s = .ok s' ∧ s'.displacement = x.displacement := by
    unfold loadStep
    simp only
    rw [← hu, hr0]
    simp only
    rw [hx]
    simp only
    rw [if_neg (by have := hr.maxIter; omega)]
    exact ⟨_, rfl, rfl⟩
  obtain ⟨s', h2, h3⟩ := hok
  exact ⟨s', h2, r0, ρ0, s1, hr0, x, it, hit, hx, hle, h3⟩

/-- **C145 (e)**.  A whole run of such a problem ends with status 0, if the linear solver's tolerance is small
against the nonlinear one for every residual that occurs (in particular if it is zero). -/
theorem linear_run (c : QConfig K) (p : QPhysics K S) {pairs : List (ℕ × ℕ)} {A : Crs K}
    {force : Nodal K → Nodal K} {lo hi : K} (hr : LinearRun c p pairs A force lo hi)
    (hranks : c.numRanks ≤ 1) (htime : c.initialTime ≤ c.finalTime) (s : S)
    (hsmall : ∀ r : ℕ → K, 441 * hi * c.cgTol * ∑ a ∈ Finset.range c.unknowns, r a * r a
        ≤ lo * ((c.relTol * residualNorm c r) * (c.relTol * residualNorm c r))) :
    ∃ q, qIntegrate c p s = .finished q := by
  have hstep : ∀ k (t : QSim K S), ∃ t', loadStep c p k t = .ok t' := by
    intro k t
    obtain ⟨t', h, -⟩ := linear_load_step c p hr k t (by
      intro r0 ρ0 st0 h
      have : ρ0 = residualNorm c r0 := by
        unfold computeResidual at h
        simp only [Option.bind_eq_some_iff, Option.some.injEq, Prod.mk.injEq] at h
        obtain ⟨_, _, _, _, _, _, rfl, h4, _⟩ := h
        exact h4.symm
      rw [this]
      exact hsmall r0)
    exact ⟨t', h⟩
  have hloop : ∀ n (t : QSim K S), ∃ t', qLoop c p n t = .ok t' := by
    intro n t
    induction n with
    | zero => exact ⟨t, rfl⟩
    | succ n ih =>
      obtain ⟨t1, h1⟩ := ih
      obtain ⟨t2, h2⟩ := hstep n t1
      refine ⟨t2, ?_⟩
      unfold qLoop at h1 ⊢
      rw [List.range_succ, List.foldlM_append, h1]
      show ((List.foldlM (fun s k => loadStep c p k s) t1 [n]) : Except Stop _) = _
      rw [List.foldlM_cons, h2]
      rfl
  obtain ⟨q, hq⟩ := hloop c.numSteps (qStart c s)
  refine ⟨q, ?_⟩
  unfold qIntegrate
  rw [if_neg (by omega), if_neg (not_lt.mpr htime), hq]

/-- **C145 (f)**.  With an exact linear solver (tolerance zero in exact arithmetic) and positive diagonal, the
displacement accepted after one iteration is an exact equilibrium: the residual vanishes at every unknown. -/
theorem linear_exact_equilibrium (c : QConfig K) (hc : Consistent c) (p : QPhysics K S)
    {pairs : List (ℕ × ℕ)} (hp : Regular c p pairs) (hmx : 0 ≤ c.cgMax) (htol : c.cgTol = 0) {A : Crs K}
    {force : Nodal K → Nodal K} (hl : LinearProblem c p A force)
    (hdiag : ∀ a < c.unknowns, 0 < entry A a a)
    (step it : ℕ) (tp tc : K) (out : Bool) (x x' : Newton K S)
    (hx : NewtonInv c p tp tc out x) (h : newtonStep c p step it tp tc out x = .ok x') :
    ∀ n < c.numNodes, ∀ i < c.dim, ¬ Held c.manager n i → force x'.displacement n i = 0 := by
  classical
  obtain ⟨s1, s2, hinv⟩ := hx
  have hfinal : ∀ a < c.unknowns, x'.residualVector a = 0 := by
    unfold newtonStep at h
    split at h
    · simp at h
    · rename_i sol rhs hsol
      simp only at h
      set trial := updateNodes c (fun n dof i => x.displacement n dof - sol i) x.trial with htrial
      have hu : ∀ n < c.numNodes, ∀ i < c.dim, trial n i = x.displacement n i - sol (place c n i) := by
        intro n hn i hi
        rw [htrial, updateNodes_spec c hc.ids.1, if_pos ⟨hn, id_lt c hc.ids hn, hi⟩]
        rfl
      obtain ⟨hheld, ρ, s3, hρ, hρv⟩ :=
        corrected_residual c hc p hl tp tc out x.state x.displacement trial sol hu hinv
      obtain ⟨-, -, -, hsize⟩ :=
        linearSolve_result c hc p hp hmx step it x A (hl.tangent _ _) sol rhs hsol hheld ρ hρv
      rw [htol, zero_mul] at hsize
      have hnn : ∀ a ∈ Finset.range c.unknowns, 0 ≤ ρ a * ρ a / entry A a a := fun a ha =>
        div_nonneg (mul_self_nonneg _) (hdiag a (Finset.mem_range.mp ha)).le
      have hz : size c A ρ = 0 := le_antisymm hsize (Finset.sum_nonneg hnn)
      unfold size at hz
      rw [Finset.sum_eq_zero_iff_of_nonneg hnn] at hz
      have hρ0 : ∀ a < c.unknowns, ρ a = 0 := by
        intro a ha
        rcases div_eq_zero_iff.mp (hz a (Finset.mem_range.mpr ha)) with h | h
        · exact mul_self_eq_zero.mp h
        · exact absurd h (hdiag a ha).ne'
      rw [hρ] at h
      simp only at h
      split_ifs at h with hne
      have hs0 : innerProduct c.unknowns sol ρ = 0 := by
        rw [innerProduct_eq]
        exact Finset.sum_eq_zero fun a ha => by rw [hρ0 a (Finset.mem_range.mp ha), mul_zero]
      have hα : -1 * innerProduct c.unknowns sol rhs
          / (innerProduct c.unknowns sol ρ - innerProduct c.unknowns sol rhs) = 1 := by
        rw [hs0, zero_sub] at hne ⊢
        rw [neg_one_mul]
        exact div_self hne
      rw [hα] at h
      set disp := updateNodes c (fun n dof i => x.displacement n dof - 1 * sol i) x.displacement with hdisp
      have hu2 : ∀ n < c.numNodes, ∀ i < c.dim, disp n i = x.displacement n i - sol (place c n i) := by
        intro n hn i hi
        rw [hdisp, updateNodes_spec c hc.ids.1, if_pos ⟨hn, id_lt c hc.ids hn, hi⟩, one_mul]
        rfl
      obtain ⟨-, ρ2, s4, hρ2, hρ2v⟩ :=
        corrected_residual c hc p hl tp tc out s3 x.displacement disp sol hu2 hinv
      rw [hρ2] at h
      simp only at h
      split_ifs at h
      · simp only [Except.ok.injEq] at h; subst h; exact hρ0
      · simp only [Except.ok.injEq] at h; subst h
        intro a ha
        simp only
        rw [hρ2v a ha, ← hρv a ha, hρ0 a ha]
  obtain ⟨s5, s6, hinv'⟩ := newtonStep_inv c p step it tp tc out x x' h
  intro n hn i hi hh
  obtain ⟨s7, h7⟩ := hl.internal s5 tp tc out x'.displacement
  obtain ⟨r, hr, hrv⟩ := residual_vector_spec c hc p s5 tp tc out x'.displacement _ s7 h7
  rw [hinv'] at hr
  simp only [Option.some.injEq, Prod.mk.injEq] at hr
  obtain ⟨rfl, -, -⟩ := hr
  have h1 := hrv n hn i hi
  rw [if_neg hh, hfinal _ (index_lt c hc.ids hn hi)] at h1
  exact neg_eq_zero.mp h1.symm

end NimbleSM.Integrate
