import Verif.Integrate.QuasistaticLemmas
import Verif.Solver.TangentProps

/-!
# C46, C69, C70: quasistatic time integration
-/

namespace NimbleSM.Integrate

open NimbleSM.Bc NimbleSM.Solver

variable {K S : Type*} [Field K] [LinearOrder K] [IsStrictOrderedRing K]

/-! ## Specification -/

/-- The degree of freedom (node, direction) has a prescribed displacement or velocity. -/
def Held (m : Manager K) (n i : ℕ) : Prop := ∃ bc ∈ m.bcs, Acts m bc n i

/-- The input is consistent: node ids are a renumbering of `0 .. N-1`, node sets of the conditions exist and
contain nodes of the mesh, conditions act on coordinates of the space. -/
structure Consistent (c : QConfig K) : Prop where
  ids : Contiguous c.ids
  posed : WellPosed c.manager.sets c.ids c.manager.bcs
  coord : ∀ bc ∈ c.manager.bcs, bc.coordinate < c.dim

/-- Every assembled tangent is a square sparse matrix of the size of the linear system with non-zero
diagonal, and the scratch space is one that earlier solves can leave. -/
structure Regular (c : QConfig K) (p : QPhysics K S) (pairs : List (ℕ × ℕ)) : Prop where
  tangent : ∀ s u A, p.tangent s u = some A → Solvable A pairs ∧ A.numRows = c.unknowns
  scratch : ∀ k it, ScratchOk (p.scratch k it)

/-! ## Held degrees of freedom -/

theorem id_lt (c : QConfig K) (hc : Contiguous c.ids) {n : ℕ} (hn : n < c.numNodes) :
    c.ids.getD n 0 < c.numNodes := by
  have h : n < c.ids.length := hn
  rw [getD_lt _ h]
  exact hc.2 _ (List.getElem_mem h)

theorem index_lt (c : QConfig K) (hc : Contiguous c.ids) {n i : ℕ} (hn : n < c.numNodes) (hi : i < c.dim) :
    c.ids.getD n 0 * c.dim + i < c.unknowns := by
  unfold QConfig.unknowns
  rw [lsNodes_eq c hc.1]
  have := Nat.mul_le_mul_right c.dim (Nat.succ_le_of_lt (id_lt c hc hn))
  rw [Nat.succ_mul] at this
  omega

theorem held_lt (c : QConfig K) (hc : Consistent c) {n i : ℕ} (h : Held c.manager n i) :
    n < c.numNodes ∧ i < c.dim := by
  obtain ⟨bc, hb, hk, rfl, l, hl, hn⟩ := h
  obtain ⟨ns, hns, hlt⟩ := hc.posed bc hb
  rw [hl] at hns; cases hns
  exact ⟨hlt n hn, hc.coord bc hb⟩

theorem held_iff (c : QConfig K) (hc : Consistent c) {n i : ℕ} (hn : n < c.numNodes) (hi : i < c.dim) :
    Constrained c.manager.sets c.ids c.dim c.manager.bcs (c.ids.getD n 0 * c.dim + i) ↔
      Held c.manager n i := by
  have hn' : n < c.ids.length := hn
  constructor
  · rintro ⟨bc, hb, hk, ns, hns, m, hm, g, hg, he⟩
    have hmlt : m < c.ids.length := by
      obtain ⟨h, -⟩ := List.getElem?_eq_some_iff.mp hg; exact h
    rw [List.getElem?_eq_getElem hmlt] at hg
    cases hg
    have hco := hc.coord bc hb
    rw [getD_lt _ hn'] at he
    have e1 : (c.ids[n] * c.dim + i) / c.dim = c.ids[n] := by
      rw [Nat.add_comm, Nat.add_mul_div_right _ _ (by omega), Nat.div_eq_of_lt hi, Nat.zero_add]
    have e2 : (c.ids[m] * c.dim + bc.coordinate) / c.dim = c.ids[m] := by
      rw [Nat.add_comm, Nat.add_mul_div_right _ _ (by omega), Nat.div_eq_of_lt hco, Nat.zero_add]
    have h5 : c.ids[n] = c.ids[m] := by rw [← e1, he, e2]
    have hnm : n = m := hc.ids.1.getElem_inj_iff.mp h5
    refine ⟨bc, hb, by simpa [BoundaryCondition.isKinematic] using hk, ?_, ns, hns, hnm ▸ hm⟩
    rw [h5] at he; omega
  · rintro ⟨bc, hb, hk, rfl, l, hl, hm⟩
    exact ⟨bc, hb, by simpa [BoundaryCondition.isKinematic] using hk, l, hl, n, hm, c.ids[n],
      List.getElem?_eq_getElem hn', by rw [getD_lt _ hn']⟩

/-! ## C70: the residual -/

open Classical in
/-- **C70 (a)**: the residual vector has, at the place of every node and direction, zero if that degree of
freedom is held and the negated internal force otherwise. -/
theorem residual_vector_spec (c : QConfig K) (hc : Consistent c) (p : QPhysics K S) (s : S) (tp tc : K)
    (out : Bool) (u F : Nodal K) (s' : S) (hF : p.internal s tp tc out u = some (F, s')) :
    ∃ r, computeResidual c p s tp tc out u = some (r, residualNorm c r, s') ∧
      ∀ n < c.numNodes, ∀ i < c.dim,
        r (c.ids.getD n 0 * c.dim + i) = if Held c.manager n i then 0 else -F n i := by
  obtain ⟨r0, h1, h2⟩ := negatedForce_spec c hc.ids F
  obtain ⟨r, h3, h4⟩ := modifyRhs_spec c.manager.sets c.ids c.dim c.manager.bcs r0 hc.posed
  refine ⟨r, ?_, ?_⟩
  · simp [computeResidual, hF, h1, h3]
  · intro n hn i hi
    rw [h4, h2 n hn i hi]
    by_cases hh : Held c.manager n i
    · rw [if_pos hh, if_pos ((held_iff c hc hn hi).mpr hh)]
    · rw [if_neg hh, if_neg (fun h => hh ((held_iff c hc hn hi).mp h))]

/-- **C70 (b)**: if some node id is not below the number of nodes (a gap in the numbering of the input
mesh), the residual computation leaves the arrays' bounds, whatever the physics. -/
theorem id_gap_out_of_bounds (c : QConfig K) (hn : c.ids.Nodup) (hdim : 0 < c.dim)
    (hgap : ∃ g ∈ c.ids, c.numNodes ≤ g) (p : QPhysics K S) (s : S) (tp tc : K) (out : Bool) (u : Nodal K) :
    computeResidual c p s tp tc out u = none := by
  obtain ⟨g, hg, hge⟩ := hgap
  unfold computeResidual
  cases p.internal s tp tc out u with
  | none => rfl
  | some fs =>
    have hneg : negatedForce c fs.1 = none := by
      obtain ⟨n, hlt, rfl⟩ := List.getElem_of_mem hg
      unfold negatedForce QConfig.numNodes
      obtain ⟨m, hm⟩ : ∃ m, c.ids.length = (n + 1) + m := ⟨c.ids.length - (n + 1), by omega⟩
      rw [hm, List.range_add, List.foldlM_append, List.range_succ, List.foldlM_append]
      cases (List.range n).foldlM (fun (r : ℕ → K) n =>
        c.ids[n]?.bind fun ls_id =>
          (List.range c.dim).foldlM (fun (r : ℕ → K) dof =>
            let ls_index := ls_id * c.dim + dof
            if ls_index < c.unknowns then some (upd r ls_index (r ls_index + -1 * fs.1 n dof)) else none) r)
        (fun _ => 0) with
      | none => rfl
      | some r =>
        have hoob := foldlM_dof_oob c.unknowns c.ids[n] c.dim (fs.1 n) c.dim 0 hdim (by
          unfold QConfig.unknowns
          rw [lsNodes_eq c hn]
          have := Nat.mul_le_mul_right c.dim hge
          omega) r
        simp only [Option.bind_eq_bind, Option.bind_some, List.foldlM_cons, List.foldlM_nil,
          List.getElem?_eq_getElem hlt]
        rw [hoob]; rfl
    simp [hneg]

/-! ## C46: what convergence means -/

theorem infinityNorm_ge (n : ℕ) (r : ℕ → K) : 0 ≤ infinityNorm n r ∧ ∀ i < n, |r i| ≤ infinityNorm n r := by
  unfold infinityNorm
  induction n with
  | zero => simp
  | succ n ih =>
    rw [List.range_succ, List.foldl_append]
    simp only [List.foldl_cons, List.foldl_nil]
    refine ⟨le_max_of_le_left ih.1, fun i hi => ?_⟩
    rcases Nat.lt_succ_iff_lt_or_eq.mp hi with h | h
    · exact le_max_of_le_left (ih.2 i h)
    · rw [h]; exact le_max_right _ _

theorem infinityNorm_attained (n : ℕ) (r : ℕ → K) :
    infinityNorm n r = 0 ∨ ∃ i < n, infinityNorm n r = |r i| := by
  unfold infinityNorm
  induction n with
  | zero => simp
  | succ n ih =>
    rw [List.range_succ, List.foldl_append]
    simp only [List.foldl_cons, List.foldl_nil]
    rcases le_total ((List.range n).foldl (fun m i => max m |r i|) 0) |r n| with h | h
    · rw [max_eq_right h]; exact Or.inr ⟨n, Nat.lt_succ_self n, rfl⟩
    · rw [max_eq_left h]
      rcases ih with h0 | ⟨i, hi, he⟩
      · exact Or.inl h0
      · exact Or.inr ⟨i, Nat.lt_succ_of_lt hi, he⟩

/-- The tested number bounds the residual at the first `num_nodes` unknowns (of `dim * num_nodes`). -/
theorem residualNorm_bounds (c : QConfig K) (hsqrt : ∀ x, 0 ≤ x → 0 ≤ c.sqrt x ∧ c.sqrt x * c.sqrt x = x)
    (r : ℕ → K) (i : ℕ) (hi : i < c.numNodes) : 21 * |r i| ≤ residualNorm c r := by
  unfold residualNorm
  rw [innerProduct_eq]
  set q := ∑ j ∈ Finset.range c.numNodes, r j * r j with hq
  have hqi : r i * r i ≤ q :=
    Finset.single_le_sum (f := fun j => r j * r j) (fun j _ => mul_self_nonneg _) (Finset.mem_range.mpr hi)
  obtain ⟨h0, h1⟩ := hsqrt q (le_trans (mul_self_nonneg _) hqi)
  have h2 : |r i| ≤ c.sqrt q := by
    apply abs_le_of_sq_le_sq _ h0
    rw [sq, sq, h1]; exact hqi
  have h3 := (infinityNorm_ge c.numNodes r).2 i hi
  linarith

/-- Conversely: if the first `num_nodes` unknowns vanish the tested number is zero, whatever the others. -/
theorem residualNorm_blind (c : QConfig K) (hsqrt : c.sqrt 0 = 0) (r : ℕ → K)
    (h : ∀ i < c.numNodes, r i = 0) : residualNorm c r = 0 := by
  unfold residualNorm
  rw [innerProduct_eq, Finset.sum_eq_zero (fun i hi => by rw [h i (Finset.mem_range.mp hi), mul_zero]), hsqrt]
  rcases infinityNorm_attained c.numNodes r with h0 | ⟨i, hi, he⟩
  · rw [h0]; ring
  · rw [he, h i hi]; simp

/-- The residual variables belong to the displacement. -/
def NewtonInv (c : QConfig K) (p : QPhysics K S) (tp tc : K) (out : Bool) (x : Newton K S) : Prop :=
  ∃ s s', computeResidual c p s tp tc out x.displacement = some (x.residualVector, x.residual, s')

theorem newtonStep_inv (c : QConfig K) (p : QPhysics K S) (step it : ℕ) (tp tc : K) (out : Bool)
    (x x' : Newton K S) (h : newtonStep c p step it tp tc out x = .ok x') :
    NewtonInv c p tp tc out x' := by
  unfold newtonStep at h
  split at h
  · simp at h
  · simp only at h
    split at h
    · simp at h
    · rename_i tv tr s hT
      split_ifs at h with h0
      split at h
      · simp at h
      · rename_i rv rr s' hR
        split_ifs at h with hlt
        · simp only [Except.ok.injEq] at h; subst h
          exact ⟨_, _, hT⟩
        · simp only [Except.ok.injEq] at h; subst h
          exact ⟨_, _, hR⟩

theorem newtonLoop_spec (c : QConfig K) (p : QPhysics K S) (step : ℕ) (tp tc : K) (out : Bool) (tol : K)
    (fuel it : ℕ) (x x' : Newton K S) (it' : ℕ) (hx : NewtonInv c p tp tc out x)
    (h : newtonLoop c p step tp tc out tol fuel it x = .ok (x', it')) :
    NewtonInv c p tp tc out x' ∧ it' ≤ it + fuel ∧ (it' = it + fuel ∨ x'.residual ≤ tol) := by
  induction fuel generalizing it x with
  | zero => simp only [newtonLoop, Except.ok.injEq, Prod.mk.injEq] at h; obtain ⟨rfl, rfl⟩ := h
            exact ⟨hx, le_rfl, Or.inl rfl⟩
  | succ fuel ih =>
    unfold newtonLoop at h
    split_ifs at h with hgt
    · split at h
      · simp at h
      · rename_i x1 h1
        obtain ⟨h2, h3, h4⟩ := ih (it + 1) x1 (newtonStep_inv c p step it tp tc out x x1 h1) h
        exact ⟨h2, by omega, by rcases h4 with h4 | h4 <;> [left; right] <;> omega⟩
    · simp only [Except.ok.injEq, Prod.mk.injEq] at h; obtain ⟨rfl, rfl⟩ := h
      exact ⟨hx, by omega, Or.inr (not_lt.mp hgt)⟩

/-- **C46 (partial)**.  A load step that is accepted (with a non-negative iteration limit) ends with a
residual vector belonging to the accepted displacement whose entries at the first `num_nodes` unknowns are
below a 21st of the tolerance.  Missing, and false (see `quasistatic_convergence_refuted`): the other
unknowns. -/
theorem load_step_converged_partial (c : QConfig K)
    (hsqrt : ∀ x, 0 ≤ x → 0 ≤ c.sqrt x ∧ c.sqrt x * c.sqrt x = x) (hmax : 0 ≤ c.maxIter)
    (p : QPhysics K S) (k : ℕ) (s s' : QSim K S) (h : loadStep c p k s = .ok s') :
    ∃ r0 ρ0 st0,
      computeResidual c p s.state s.time (s.time + c.dt) (c.isOutputStep k)
        (kinematic c.toConfig (s.time + c.dt) s.time s.displacement s.velocity).1 = some (r0, ρ0, st0) ∧
      ∃ st r st', computeResidual c p st s.time (s.time + c.dt) (c.isOutputStep k) s'.displacement
          = some (r, residualNorm c r, st') ∧
        residualNorm c r ≤ c.relTol * ρ0 ∧
        ∀ i < c.numNodes, 21 * |r i| ≤ c.relTol * ρ0 := by
  unfold loadStep at h
  simp only at h
  split at h
  · simp at h
  · rename_i r0 ρ0 st0 h0
    refine ⟨r0, ρ0, st0, h0, ?_⟩
    split at h
    · simp at h
    · rename_i x it hx
      split_ifs at h with hit
      all_goals
        simp only [Except.ok.injEq] at h
        subst h
        obtain ⟨⟨st, st', hinv⟩, hle, hor⟩ := newtonLoop_spec c p k _ _ _ _ _ _ _ _ _
          ⟨s.state, st0, h0⟩ hx
        have hρ : x.residual ≤ c.relTol * ρ0 := by
          rcases hor with hor | hor
          · exfalso; apply hit; omega
          · exact hor
        have hnorm : x.residual = residualNorm c x.residualVector := by
          unfold computeResidual at hinv
          simp only [Option.bind_eq_some_iff, Option.some.injEq, Prod.mk.injEq] at hinv
          obtain ⟨_, _, _, _, _, _, rfl, h4, _⟩ := hinv
          exact h4.symm
        rw [hnorm] at hρ hinv
        exact ⟨st, x.residualVector, st', hinv, hρ,
          fun i hi => (residualNorm_bounds c hsqrt _ i hi).trans hρ⟩

/-! ## C69: held degrees of freedom keep their prescribed displacement -/

theorem mapM_diag (A : Crs K) (n : ℕ) (l : List K) (h : (List.range n).mapM (fun i => A.at? i i) = some l) :
    l = (List.range n).map fun i => entry A i i := by
  have : ∀ (a : List ℕ) (l : List K), a.mapM (fun i => A.at? i i) = some l → l = a.map fun i => entry A i i := by
    intro a
    induction a with
    | nil => intro l h; simpa using h.symm
    | cons x xs ih =>
      intro l h
      rw [List.mapM_cons] at h
      simp only [Option.bind_eq_bind, Option.bind_eq_some_iff] at h
      obtain ⟨v, hv, ys, hys, he⟩ := h
      cases he
      rw [ih ys hys]
      simp [entry, hv]
  exact this _ l h

theorem solvable_imposed {A B : Crs K} {pairs : List (ℕ × ℕ)} (hS : Solvable A pairs) (hB : HasPattern B pairs)
    {C : ℕ → Prop} {diagonal : K} (hd : diagonal ≠ 0)
    (hat : ∀ a b, B.at? a b = (A.at? a b).map (imposed C diagonal a b)) :
    Solvable B pairs ∧ B.numRows = A.numRows ∧
      ∀ i, C i → ∀ j, j ≠ i → entry B i j = 0 := by
  have hnum : B.numRows = A.numRows := by rw [hB.numRows_eq, hS.pat.numRows_eq]
  refine ⟨⟨hS.adm, hB, by rw [hnum]; exact hS.cols, by rw [hnum]; exact hS.diag, ?_⟩, hnum, ?_⟩
  · intro i hi
    rw [hnum] at hi
    have h1 := hS.diagNe i hi
    obtain ⟨v, hv⟩ := Option.isSome_iff_exists.mp ((at_isSome_iff hS.adm hS.pat i i).mpr (hS.diag i hi))
    unfold entry at h1 ⊢
    rw [hat, hv]
    rw [hv] at h1
    simp only [Option.map_some, Option.getD_some, imposed, or_self, if_true] at h1 ⊢
    split_ifs
    · exact hd
    · exact h1
  · intro i hC j hj
    unfold entry
    rw [hat]
    cases A.at? i j with
    | none => rfl
    | some v => simp [imposed, hC, Ne.symm hj]

/-- The linear solve returns exactly zero at every held degree of freedom. -/
theorem linearSolve_held (c : QConfig K) (hc : Consistent c) (p : QPhysics K S) {pairs : List (ℕ × ℕ)}
    (hp : Regular c p pairs) (step it : ℕ) (x : Newton K S) (sol rhs : ℕ → K)
    (h : linearSolve c p step it x = .ok (sol, rhs)) (n i : ℕ) (hh : Held c.manager n i) :
    sol (c.ids.getD n 0 * c.dim + i) = 0 := by
  obtain ⟨hn, hi⟩ := held_lt c hc hh
  have hC := (held_iff c hc hn hi).mpr hh
  unfold linearSolve at h
  split at h
  · simp at h
  · rename_i A hA
    obtain ⟨hS, hrows⟩ := hp.tangent _ _ A hA
    split at h
    · simp at h
    · rename_i diag hdiag
      split_ifs at h with hU
      simp only at h
      split at h
      · rename_i B b hB hb
        have hd : (diag.map fun a => |a|).sum / (c.unknowns : K) ≠ 0 := by
          apply div_ne_zero _ (Nat.cast_ne_zero.mpr hU)
          rw [mapM_diag A _ _ hdiag, List.map_map]
          apply ne_of_gt
          apply List.sum_pos
          · intro y hy
            rw [List.mem_map] at hy
            obtain ⟨j, hj, rfl⟩ := hy
            simp only [Function.comp]
            rw [abs_pos]
            exact hS.diagNe j (by rw [hrows]; exact List.mem_range.mp hj)
          · simp [hU]
        obtain ⟨B', hB', pB, vB⟩ := modifyTangent_crs hS.adm hS.pat
          ((diag.map fun a => |a|).sum / (c.unknowns : K)) c.manager.sets c.ids c.dim c.manager.bcs hc.posed (by
            intro d hd
            obtain ⟨bc, hbc, -, ns, hns, m, hm, g, hg, rfl⟩ := hd
            apply hS.diag
            rw [hrows]
            have hmlt : m < c.ids.length := by
              obtain ⟨h, -⟩ := List.getElem?_eq_some_iff.mp hg; exact h
            have := index_lt c hc.ids (n := m) (i := bc.coordinate) hmlt (hc.coord bc hbc)
            rw [getD_lt _ hmlt] at this
            rw [List.getElem?_eq_getElem hmlt] at hg
            cases hg
            exact this)
        rw [hB] at hB'; cases hB'
        obtain ⟨r', hr', hrv⟩ := modifyRhs_spec c.manager.sets c.ids c.dim c.manager.bcs x.residualVector hc.posed
        rw [hb] at hr'; cases hr'
        obtain ⟨hSB, hrB, hoff⟩ := solvable_imposed hS pB hd vB
        split at h
        · simp at h
        · simp at h
        · simp at h
        · rename_i iters sol' hcg
          simp only [Except.ok.injEq, Prod.mk.injEq] at h
          obtain ⟨rfl, rfl⟩ := h
          have hlt : c.ids.getD n 0 * c.dim + i < B.numRows := by
            rw [hrB, hrows]; exact index_lt c hc.ids hn hi
          exact cg_decoupled_zero hSB (hp.scratch _ _) b (fun _ => 0) _ _ _ hlt
            (fun j _ hj => hoff _ hC j hj) (by rw [hrv, if_pos hC]) rfl hcg
      · simp at h

theorem newtonStep_held (c : QConfig K) (hc : Consistent c) (p : QPhysics K S) {pairs : List (ℕ × ℕ)}
    (hp : Regular c p pairs) (step it : ℕ) (tp tc : K) (out : Bool) (x x' : Newton K S)
    (h : newtonStep c p step it tp tc out x = .ok x') (n i : ℕ) (hh : Held c.manager n i) :
    x'.displacement n i = x.displacement n i := by
  obtain ⟨hn, hi⟩ := held_lt c hc hh
  have hid := id_lt c hc.ids hn
  unfold newtonStep at h
  split at h
  · simp at h
  · rename_i sol rhs hsol
    have h0 := linearSolve_held c hc p hp step it x sol rhs hsol n i hh
    simp only at h
    split at h
    · simp at h
    · split_ifs at h with hz
      split at h
      · simp at h
      · split_ifs at h with hlt
        · simp only [Except.ok.injEq] at h; subst h
          simp only
          rw [updateNodes_spec c hc.ids.1, if_pos ⟨hn, hid, hi⟩, h0, sub_zero]
        · simp only [Except.ok.injEq] at h; subst h
          simp only
          rw [updateNodes_spec c hc.ids.1, if_pos ⟨hn, hid, hi⟩, h0, mul_zero, sub_zero]

theorem newtonLoop_held (c : QConfig K) (hc : Consistent c) (p : QPhysics K S) {pairs : List (ℕ × ℕ)}
    (hp : Regular c p pairs) (step : ℕ) (tp tc : K) (out : Bool) (tol : K)
    (fuel it : ℕ) (x x' : Newton K S) (it' : ℕ)
    (h : newtonLoop c p step tp tc out tol fuel it x = .ok (x', it')) (n i : ℕ) (hh : Held c.manager n i) :
    x'.displacement n i = x.displacement n i := by
  induction fuel generalizing it x with
  | zero => simp only [newtonLoop, Except.ok.injEq, Prod.mk.injEq] at h; obtain ⟨rfl, rfl⟩ := h; rfl
  | succ fuel ih =>
    unfold newtonLoop at h
    split_ifs at h with hgt
    · split at h
      · simp at h
      · rename_i x1 h1
        rw [ih (it + 1) x1 h, newtonStep_held c hc p hp step it tp tc out x x1 h1 n i hh]
    · simp only [Except.ok.injEq, Prod.mk.injEq] at h; obtain ⟨rfl, rfl⟩ := h; rfl

/-- What an accepted load step does to times, outputs and held degrees of freedom. -/
theorem loadStep_spec (c : QConfig K) (p : QPhysics K S) (k : ℕ) (s s' : QSim K S)
    (h : loadStep c p k s = .ok s') :
    s'.time = s.time + c.dt ∧
    (∃ st, s'.outputs = if c.isOutputStep k then s.outputs ++ [(s'.time, s'.displacement, st)] else s.outputs) ∧
    (∀ pairs, Consistent c → Regular c p pairs → ∀ n i, Held c.manager n i → s'.displacement n i
      = (kinematic c.toConfig (s.time + c.dt) s.time s.displacement s.velocity).1 n i) := by
  unfold loadStep at h
  simp only at h
  split at h
  · simp at h
  · split at h
    · simp at h
    · rename_i x it hx
      split at h
      · simp at h
      · simp only [Except.ok.injEq] at h
        subst h
        exact ⟨rfl, ⟨_, rfl⟩, fun pairs hc hp n i hh => newtonLoop_held c hc p hp k _ _ _ _ _ _ _ _ _ hx n i hh⟩

theorem qLoop_zero (c : QConfig K) (p : QPhysics K S) (s : QSim K S) : qLoop c p 0 s = .ok s := rfl

theorem qLoop_succ (c : QConfig K) (p : QPhysics K S) (n : ℕ) (s s' : QSim K S)
    (h : qLoop c p (n + 1) s = .ok s') :
    ∃ s1, qLoop c p n s = .ok s1 ∧ loadStep c p n s1 = .ok s' := by
  unfold qLoop at h ⊢
  rw [List.range_succ (n := n), List.foldlM_append] at h
  cases h1 : (List.range n).foldlM (fun (s : QSim K S) k => loadStep c p k s) s with
  | error e => rw [h1] at h; cases h
  | ok s1 =>
    rw [h1] at h
    refine ⟨s1, rfl, ?_⟩
    simp only [List.foldlM_cons, List.foldlM_nil] at h
    change (loadStep c p n s1).bind _ = _ at h
    cases h2 : loadStep c p n s1 with
    | error e => rw [h2] at h; cases h
    | ok s2 => rw [h2] at h; exact h

theorem qLoop_time (c : QConfig K) (p : QPhysics K S) (n : ℕ) (s s' : QSim K S)
    (h : qLoop c p n s = .ok s') : s'.time = s.time + n * c.dt := by
  induction n generalizing s' with
  | zero => rw [qLoop_zero] at h; cases h; simp
  | succ n ih =>
    obtain ⟨s1, h1, h2⟩ := qLoop_succ c p n s s' h
    rw [(loadStep_spec c p n s1 s' h2).1, ih s1 h1]; push_cast; ring

/-- **C69 (a)**.  After every accepted load step every degree of freedom governed by a prescribed
displacement has exactly the prescribed displacement at the time reached: the Newton iterations, with
whatever CG returns, do not disturb it. -/
theorem quasistatic_prescribed_displacement (c : QConfig K) (hm : c.manager.scheme = .quasistatic)
    (hdt : 0 < c.dt) (hc : Consistent c) (p : QPhysics K S) {pairs : List (ℕ × ℕ)} (hp : Regular c p pairs)
    (s0 : S) (k : ℕ) (s : QSim K S) (h : qLoop c p (k + 1) (qStart c s0) = .ok s)
    (bc : BoundaryCondition K) (n i : ℕ) (hg : Governs c.manager bc n i)
    (hty : bc.type = .prescribedDisplacement) :
    s.displacement n i = prescribed c.manager bc c.X n (c.initialTime + (k + 1) * c.dt) := by
  have ht := qLoop_time c p _ _ _ h
  obtain ⟨s1, h1, h2⟩ := qLoop_succ c p k _ s h
  have hheld : Held c.manager n i := by
    obtain ⟨pre, post, he, ha, -⟩ := hg
    exact ⟨bc, by rw [he]; simp, ha⟩
  obtain ⟨ht2, -, hd⟩ := loadStep_spec c p k s1 s h2
  rw [hd pairs hc hp n i hheld]
  have := governs_displacement_quasistatic c.manager hm (s1.time + c.dt) s1.time c.X
    { displacement := s1.displacement, velocity := s1.velocity, offnom := [] } bc n i hg hty
    (by rw [add_sub_cancel_left]; exact hdt)
  unfold kinematic
  simp only
  rw [this, ← ht2, ht]
  have hst : (qStart c s0).time = c.initialTime := rfl
  rw [hst]; push_cast; rfl

/-- Specification: exactly one condition acts on the degree of freedom: the prescribed velocity `bc`, whose
node set lists the node once. -/
def MovedBy (m : Manager K) (bc : BoundaryCondition K) (n i : ℕ) : Prop :=
  bc.type = .prescribedVelocity ∧ (m.nodeSet bc).Nodup ∧ ∃ pre post, m.bcs = pre ++ bc :: post ∧
    Acts m bc n i ∧ (∀ b ∈ pre, ¬ Acts m b n i) ∧ ∀ b ∈ post, ¬ Acts m b n i

/-- **C69 (b)**.  A degree of freedom moved by a prescribed velocity has the accumulated displacement. -/
theorem quasistatic_prescribed_velocity (c : QConfig K) (hm : c.manager.scheme = .quasistatic)
    (hc : Consistent c) (p : QPhysics K S) {pairs : List (ℕ × ℕ)} (hp : Regular c p pairs)
    (s0 : S) (k : ℕ) (s : QSim K S) (h : qLoop c p k (qStart c s0) = .ok s)
    (bc : BoundaryCondition K) (n i : ℕ) (hg : MovedBy c.manager bc n i) :
    s.displacement n i
      = ∑ j ∈ Finset.range k, prescribed c.manager bc c.X n (c.initialTime + (j + 1) * c.dt) * c.dt := by
  obtain ⟨hty, honce, pre, post, hb, hact, hpre, hpost⟩ := hg
  induction k generalizing s with
  | zero =>
    rw [qLoop_zero] at h; cases h
    have := velocity_increment_quasistatic c.manager hm c.initialTime c.initialTime c.X
      { displacement := fun _ _ => 0, velocity := fun _ _ => 0, offnom := [] } bc n i pre post hb hact hpre hpost hty honce
    unfold qStart kinematic
    simp only
    rw [this]; simp
  | succ k ih =>
    have ht := qLoop_time c p _ _ _ h
    obtain ⟨s1, h1, h2⟩ := qLoop_succ c p k _ s h
    have hheld : Held c.manager n i := ⟨bc, by rw [hb]; simp, hact⟩
    obtain ⟨ht2, -, hd⟩ := loadStep_spec c p k s1 s h2
    rw [hd pairs hc hp n i hheld]
    have := velocity_increment_quasistatic c.manager hm (s1.time + c.dt) s1.time c.X
      { displacement := s1.displacement, velocity := s1.velocity, offnom := [] } bc n i pre post hb hact hpre
      hpost hty honce
    unfold kinematic
    simp only
    rw [this]
    simp only
    rw [add_sub_cancel_left, ← ht2, ht, Finset.sum_range_succ, ih s1 h1]
    have hst : (qStart c s0).time = c.initialTime := rfl
    rw [hst]; push_cast; rfl

/-! ## C71: times, outputs, status -/

open Classical in
/-- **C71 (a)**.  A run that finishes with status 0 has performed exactly `numSteps` load steps of size
`(tf - t0)/n`, ends at the final time, and has written the initial time and the end times of the steps that
the output frequency selects. -/
theorem quasistatic_times (c : QConfig K) (p : QPhysics K S) (s0 : S) (s : QSim K S)
    (h : qIntegrate c p s0 = .finished s) :
    c.numRanks ≤ 1 ∧ c.initialTime ≤ c.finalTime ∧
    (c.numSteps ≠ 0 → s.time = c.finalTime) ∧
    s.outputs.map Prod.fst = c.initialTime ::
      ((List.range c.numSteps).filter fun k => decide (Written c.toConfig k)).map fun k : ℕ =>
        c.initialTime + ((k : K) + 1) * ((c.finalTime - c.initialTime) / c.numSteps) := by
  unfold qIntegrate at h
  split_ifs at h with h1 h2
  refine ⟨not_lt.mp h1, not_lt.mp h2, ?_⟩
  cases hl : qLoop c p c.numSteps (qStart c s0) with
  | error e => rw [hl] at h; simp at h
  | ok s1 =>
    rw [hl] at h
    simp only [QResult.finished.injEq] at h
    subst h
    have hst : (qStart c s0).time = c.initialTime := rfl
    constructor
    · intro hn
      rw [qLoop_time c p _ _ _ hl, hst, Config.dt]
      have : (c.numSteps : K) ≠ 0 := Nat.cast_ne_zero.mpr hn
      field_simp; ring
    · have key : ∀ n s, qLoop c p n (qStart c s0) = .ok s → s.outputs.map Prod.fst = c.initialTime ::
          ((List.range n).filter fun k => decide (Written c.toConfig k)).map fun k : ℕ =>
            c.initialTime + ((k : K) + 1) * c.dt := by
        intro n
        induction n with
        | zero => intro s h; rw [qLoop_zero] at h; cases h; rfl
        | succ n ih =>
          intro s h
          have ht := qLoop_time c p _ _ _ h
          obtain ⟨s1, h1, h2⟩ := qLoop_succ c p n _ s h
          obtain ⟨_, ⟨st, ho⟩, _⟩ := loadStep_spec c p n s1 s h2
          rw [ho, List.range_succ, List.filter_append, List.map_append, ← List.cons_append, ← ih s1 h1]
          by_cases hw : Written c.toConfig n
          · rw [if_pos ((isOutputStep_iff c.toConfig n).mpr hw)]
            simp only [List.map_append, List.map_cons, List.map_nil, hw, decide_true,
              List.filter_cons_of_pos, List.filter_nil]
            rw [ht, hst]; push_cast; rfl
          · rw [if_neg (fun h => hw ((isOutputStep_iff c.toConfig n).mp h))]
            simp [hw]
      exact key _ _ hl

/-- **C71 (b)**: more than one rank, or a final time before the initial time, is rejected. -/
theorem quasistatic_rejects (c : QConfig K) (p : QPhysics K S) (s0 : S)
    (h : 1 < c.numRanks ∨ c.finalTime < c.initialTime) : qIntegrate c p s0 = .invalidArgument := by
  unfold qIntegrate
  by_cases h1 : c.numRanks > 1
  · rw [if_pos h1]
  · rw [if_neg h1, if_pos (h.resolve_left h1)]

/-- **C71 (c)**: status 0 (with a non-negative iteration limit) means that every load step met the tested
criterion within fewer iterations than the limit; in particular with the limit 0 no run with a load step can
succeed. -/
theorem quasistatic_limit_zero (c : QConfig K) (hmax : c.maxIter = 0) (hn : c.numSteps ≠ 0)
    (p : QPhysics K S) (s0 : S) (s : QSim K S) : qIntegrate c p s0 ≠ .finished s := by
  intro h
  unfold qIntegrate at h
  split_ifs at h with h1 h2
  cases hl : qLoop c p c.numSteps (qStart c s0) with
  | error e => rw [hl] at h; simp at h
  | ok s1 =>
    obtain ⟨m, hm⟩ := Nat.exists_eq_succ_of_ne_zero hn
    rw [hm] at hl
    obtain ⟨s2, h3, h4⟩ := qLoop_succ c p m _ _ hl
    unfold loadStep at h4
    simp only [hmax] at h4
    split at h4
    · simp at h4
    · simp [newtonLoop] at h4

end NimbleSM.Integrate
