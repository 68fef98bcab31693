import Verif.Element.HexProps

/-!
# C25, C26, C27, C29: forces, mass, tangent, volume averages of the hexahedron
-/

set_option linter.unusedSectionVars false
set_option linter.unusedSimpArgs false
set_option linter.unnecessarySeqFocus false

namespace NimbleSM.Hex

open Matrix NimbleSM.Tensor

variable {K : Type*} [Field K] [LinearOrder K] [IsStrictOrderedRing K]

theorem put_self_fold {A : Type*} (g : ℕ → A → A) (F : ℕ → A) (L m : ℕ) :
    (List.range L).foldl (fun F n => put F n (g n (F n))) F m = if m < L then g m (F m) else F m := by
  induction L with
  | zero => simp
  | succ L ih =>
    rw [List.range_succ, List.foldl_append, List.foldl_cons, List.foldl_nil, put]
    by_cases h : m = L
    · subst h
      rw [if_pos rfl, ih, if_neg (lt_irrefl _), if_pos (Nat.lt_succ_self _)]
    · rw [if_neg h, ih]
      by_cases h' : m < L
      · rw [if_pos h', if_pos (by omega)]
      · rw [if_neg h', if_neg (by omega)]

/-- The outcome of `computeNodalForces`, with the inverse Jacobians exhibited. -/
theorem computeNodalForces_val (val : K) (x σ : ℕ → K) (f : ℕ → Fin 3 → K)
    (h : computeNodalForces val x σ = some f) :
    ∃ inv : Fin 8 → Fin 3 → Fin 3 → K,
      (∀ p : Fin 8, 0 < (Jac val x p).det) ∧
      (∀ p : Fin 8, jacMat val (view3 x) p * Matrix.of (inv p) = 1) ∧
      ∀ n, n < 8 → ∀ d : Fin 3, f n d = - ∑ p : Fin 8, (Jac val x p).det *
        ∑ e : Fin 3, dNdx val (inv p) p n e * symMat (fun c : Fin 6 => σ (6 * p + c)) e d := by
  unfold computeNodalForces computeNodalForcesImpl at h
  have hz : ∀ i, jacobian val (fun n d => view3 x n d + (fun _ _ => (0:K)) n d) i
      = jacobian val (view3 x) i := fun i => jacobian_congr _ _ _ (fun n _ d => by simp) i
  simp only [hz] at h
  set step := fun (force : ℕ → Fin 3 → K) (int_pt : ℕ) (r : (Fin 3 → Fin 3 → K) × K) =>
          (List.range 8).foldl
            (fun force node =>
              put force node ![force node 0 - (dNdx val r.1 int_pt node 0 * σ (6 * int_pt + (K_S_XX : Fin 6).val) + dNdx val r.1 int_pt node 1 * σ (6 * int_pt + (K_S_YX : Fin 6).val) +
                dNdx val r.1 int_pt node 2 * σ (6 * int_pt + (K_S_ZX : Fin 6).val)) * (r.2 * intWts int_pt),
                force node 1 - (dNdx val r.1 int_pt node 0 * σ (6 * int_pt + (K_S_XY : Fin 6).val) + dNdx val r.1 int_pt node 1 * σ (6 * int_pt + (K_S_YY : Fin 6).val) +
                dNdx val r.1 int_pt node 2 * σ (6 * int_pt + (K_S_ZY : Fin 6).val)) * (r.2 * intWts int_pt),
                force node 2 - (dNdx val r.1 int_pt node 0 * σ (6 * int_pt + (K_S_XZ : Fin 6).val) + dNdx val r.1 int_pt node 1 * σ (6 * int_pt + (K_S_YZ : Fin 6).val) +
                dNdx val r.1 int_pt node 2 * σ (6 * int_pt + (K_S_ZZ : Fin 6).val)) * (r.2 * intWts int_pt)])
            force with hstep
  have h' : (List.range 8).foldlM (fun force i =>
      (invert3x3 (jacobian val (view3 x) i)).map (step force i)) (fun _ => ![0, 0, 0]) = some f := h
  have hs := (foldlM_isSome_iff (fun i => invert3x3 (jacobian val (view3 x) i)) step (List.range 8)
    (fun _ => ![0, 0, 0])).mp (by rw [h']; rfl)
  have hpos := (jac_pos_iff val (view3 x)).mp hs
  have hex : ∀ i : ℕ, ∃ b : (Fin 3 → Fin 3 → K) × K, i ∈ List.range 8 →
      invert3x3 (jacobian val (view3 x) i) = some b ∧ b.2 = (jacMat val (view3 x) i).det ∧
      jacMat val (view3 x) i * Matrix.of b.1 = 1 := by
    intro i
    by_cases hi : i ∈ List.range 8
    · obtain ⟨inv, h1, h2, h3⟩ := invert3x3_some _ (hpos ⟨i, List.mem_range.mp hi⟩)
      exact ⟨(inv, _), fun _ => ⟨h1, rfl, h2⟩⟩
    · exact ⟨(fun _ _ => 0, 0), fun h' => absurd h' hi⟩
  choose v hv using hex
  rw [foldlM_some _ step _ _ v (fun i hi => (hv i hi).1)] at h'
  have hf := (Option.some.inj h').symm
  refine ⟨fun p => (v p).1, fun p => by rw [← jacMat_spec]; exact hpos p,
    fun p => (hv p (List.mem_range.mpr p.isLt)).2.2, ?_⟩
  intro n hn d
  have gen : ∀ (L : ℕ) (F : ℕ → Fin 3 → K), ((List.range L).foldl (fun s i => step s i (v i)) F) n d
      = F n d - ∑ p ∈ Finset.range L, (v p).2 *
        ∑ e : Fin 3, dNdx val (v p).1 p n e * symMat (fun c : Fin 6 => σ (6 * p + c)) e d := by
    intro L
    induction L with
    | zero => intro F; simp
    | succ L ih =>
      intro F
      rw [List.range_succ, List.foldl_append, List.foldl_cons, List.foldl_nil, Finset.sum_range_succ,
        ← sub_sub, ← ih]
      generalize (List.range L).foldl (fun s i => step s i (v i)) F = G
      rw [hstep]
      simp only []
      rw [put_self_fold (fun node (a : Fin 3 → K) => ![a 0 - (dNdx val (v L).1 L node 0 * σ (6 * L + (K_S_XX : Fin 6).val) + dNdx val (v L).1 L node 1 * σ (6 * L + (K_S_YX : Fin 6).val) +
                dNdx val (v L).1 L node 2 * σ (6 * L + (K_S_ZX : Fin 6).val)) * ((v L).2 * intWts L),
                a 1 - (dNdx val (v L).1 L node 0 * σ (6 * L + (K_S_XY : Fin 6).val) + dNdx val (v L).1 L node 1 * σ (6 * L + (K_S_YY : Fin 6).val) +
                dNdx val (v L).1 L node 2 * σ (6 * L + (K_S_ZY : Fin 6).val)) * ((v L).2 * intWts L),
                a 2 - (dNdx val (v L).1 L node 0 * σ (6 * L + (K_S_XZ : Fin 6).val) + dNdx val (v L).1 L node 1 * σ (6 * L + (K_S_YZ : Fin 6).val) +
                dNdx val (v L).1 L node 2 * σ (6 * L + (K_S_ZZ : Fin 6).val)) * ((v L).2 * intWts L)]) G 8 n, if_pos hn]
      fin_cases d <;>
        simp [Fin.sum_univ_three, symMat, intWts, K_S_XX, K_S_YY, K_S_ZZ, K_S_XY, K_S_YZ, K_S_ZX,
          K_S_YX, K_S_ZY, K_S_XZ] <;> ring
  rw [hf, gen]
  have h0 : (![0, 0, 0] : Fin 3 → K) d = 0 := by fin_cases d <;> rfl
  simp only [h0, zero_sub]
  congr 1
  rw [Finset.sum_range]
  apply Finset.sum_congr rfl
  intro p _
  rw [(hv p (List.mem_range.mpr p.isLt)).2.1, jacMat_spec]

/-- Nodal forces are defined exactly when the Jacobian is positive at all integration points. -/
theorem nodal_forces_defined (val : K) (x σ : ℕ → K) :
    (∃ f, computeNodalForces val x σ = some f) ↔ ∀ p : Fin 8, 0 < (Jac val x p).det := by
  constructor
  · rintro ⟨f, h⟩
    obtain ⟨_, h1, _⟩ := computeNodalForces_val val x σ f h
    exact h1
  · intro h
    rw [← Option.isSome_iff_exists]
    unfold computeNodalForces computeNodalForcesImpl
    have hz : ∀ i, jacobian val (fun n d => view3 x n d + (fun _ _ => (0:K)) n d) i
        = jacobian val (view3 x) i := fun i => jacobian_congr _ _ _ (fun n _ d => by simp) i
    simp only [hz]
    refine (foldlM_isSome_iff (fun i => invert3x3 (jacobian val (view3 x) i)) _ _ _).mpr ?_
    rw [jac_pos_iff]
    intro p; rw [jacMat_spec]; exact h p

/-- **C25.**  Virtual work: the work of the nodal forces on any nodal velocity that is an affine
function `G x + c` of the current coordinates is `- Σ_p J_p σ_p : G`. -/
theorem nodal_forces_virtual_work (val : K) (x σ : ℕ → K) (f : ℕ → Fin 3 → K)
    (h : computeNodalForces val x σ = some f) (G : Matrix (Fin 3) (Fin 3) K) (c : Fin 3 → K) :
    ∑ n ∈ Finset.range 8, ∑ d : Fin 3, f n d * ((∑ e : Fin 3, G d e * x (3 * n + e)) + c d)
      = - ∑ p : Fin 8, (Jac val x p).det *
          ∑ d : Fin 3, ∑ e : Fin 3, symMat (fun k : Fin 6 => σ (6 * p + k)) d e * G d e := by
  obtain ⟨inv, _, hinv, hf⟩ := computeNodalForces_val val x σ f h
  have hA : ∀ n ∈ Finset.range 8, ∑ d : Fin 3, f n d * ((∑ e : Fin 3, G d e * x (3 * n + e)) + c d)
      = - ∑ p : Fin 8, (Jac val x p).det * ∑ d : Fin 3, ∑ e : Fin 3,
          symMat (fun k : Fin 6 => σ (6 * p + k)) e d *
            ((∑ g : Fin 3, G d g * (x (3 * n + g) * dNdx val (inv p) p n e))
              + c d * dNdx val (inv p) p n e) := by
    intro n hn
    have hn' := Finset.mem_range.mp hn
    simp only [hf n hn']
    rw [← Finset.sum_neg_distrib]
    simp only [neg_mul, Finset.sum_mul]
    rw [Finset.sum_neg_distrib, Finset.sum_neg_distrib, Finset.sum_comm]
    congr 1
    apply Finset.sum_congr rfl; intro p _
    rw [Finset.mul_sum]
    apply Finset.sum_congr rfl; intro d _
    simp only [Fin.sum_univ_three]
    ring
  rw [Finset.sum_congr rfl hA, Finset.sum_neg_distrib, Finset.sum_comm]
  congr 1
  apply Finset.sum_congr rfl; intro p _
  rw [← Finset.mul_sum]
  congr 1
  rw [Finset.sum_comm]
  apply Finset.sum_congr rfl; intro d _
  rw [Finset.sum_comm]
  apply Finset.sum_congr rfl; intro e _
  rw [← Finset.mul_sum]
  have hsym : symMat (fun k : Fin 6 => σ (6 * p + k)) e d
      = symMat (fun k : Fin 6 => σ (6 * p + k)) d e := by
    fin_cases d <;> fin_cases e <;> rfl
  rw [hsym]
  congr 1
  rw [Finset.sum_add_distrib, ← Finset.mul_sum, sum_dNdx, mul_zero, add_zero, Finset.sum_comm]
  have hc : ∀ g : Fin 3, ∑ n ∈ Finset.range 8, G d g * (x (3 * n + g) * dNdx val (inv p) p n e)
      = G d g * if g = e then 1 else 0 := by
    intro g
    rw [← Finset.mul_sum, ← sum_coord_dNdx val (view3 x) (inv p) p (hinv p) g e]
    rfl
  simp only [hc]
  simp

/-- **C25.**  The nodal forces of an element sum to zero. -/
theorem nodal_forces_sum_zero (val : K) (x σ : ℕ → K) (f : ℕ → Fin 3 → K)
    (h : computeNodalForces val x σ = some f) (d : Fin 3) :
    ∑ n ∈ Finset.range 8, f n d = 0 := by
  have h1 := nodal_forces_virtual_work val x σ f h 0 (fun e => if e = d then 1 else 0)
  simpa using h1

/-- **C25.**  The total moment of the nodal forces about any point vanishes. -/
theorem nodal_forces_moment_zero (val : K) (x σ : ℕ → K) (f : ℕ → Fin 3 → K)
    (h : computeNodalForces val x σ = some f) (q : Fin 3 → K) :
    ∑ n ∈ Finset.range 8, (fun d : Fin 3 => x (3 * n + d) - q d) ⨯₃ f n = 0 := by
  have h0 := fun d => nodal_forces_sum_zero val x σ f h d
  -- G = the skew matrix generating the rotation about axis `i`
  have hw := fun (i j : Fin 3) => nodal_forces_virtual_work val x σ f h
    (fun a b => (if a = i ∧ b = j then 1 else 0) - (if a = j ∧ b = i then 1 else 0)) 0
  have key : ∀ i j : Fin 3, ∑ n ∈ Finset.range 8,
      (f n i * x (3 * n + j) - f n j * x (3 * n + i)) = 0 := by
    intro i j
    have h1 := hw i j
    have hr : ∀ p : Fin 8, ∑ d : Fin 3, ∑ e : Fin 3, symMat (fun k : Fin 6 => σ (6 * p + k)) d e *
        ((if d = i ∧ e = j then (1:K) else 0) - (if d = j ∧ e = i then 1 else 0)) = 0 := by
      intro p
      fin_cases i <;> fin_cases j <;> simp [Fin.sum_univ_three, symMat]
    simp only [hr, mul_zero, Finset.sum_const_zero, neg_zero] at h1
    rw [← h1]
    apply Finset.sum_congr rfl; intro n _
    fin_cases i <;> fin_cases j <;> simp [Fin.sum_univ_three] <;> ring
  have k12 := key 2 1
  have k20 := key 0 2
  have k01 := key 1 0
  funext d
  rw [Finset.sum_apply]
  have e : ∀ n, ((fun d : Fin 3 => x (3 * n + d) - q d) ⨯₃ f n) d
      = ![f n 2 * x (3 * n + 1) - f n 1 * x (3 * n + 2) - (q 1 * f n 2 - q 2 * f n 1),
          f n 0 * x (3 * n + 2) - f n 2 * x (3 * n + 0) - (q 2 * f n 0 - q 0 * f n 2),
          f n 1 * x (3 * n + 0) - f n 0 * x (3 * n + 1) - (q 0 * f n 1 - q 1 * f n 0)] d := by
    intro n
    rw [cross_apply]
    fin_cases d <;> simp <;> ring
  simp only [e]
  simp only [Fin.val_zero, Fin.val_one, Fin.val_two, add_zero] at k12 k20 k01
  fin_cases d <;>
    simp [Finset.sum_sub_distrib, ← Finset.mul_sum, h0] at k12 k20 k01 ⊢ <;> linarith

/-! ## C29 and C26: volume, volume averages, lumped mass -/

/-- Quadrature volume of the element: the sum of the Jacobian determinants at the integration
points (all weights are one). -/
def quadVolume (val : K) (x : ℕ → K) : K := ∑ p : Fin 8, (Jac val x p).det

theorem computeVolumeAverage_val (val : K) (x q : ℕ → K) (nq : ℕ) :
    ((computeVolumeAverage val x nq q).isSome ↔ ∀ p : Fin 8, 0 < (Jac val x p).det) ∧
    ∀ volume ave, computeVolumeAverage val x nq q = some (volume, ave) →
      volume = quadVolume val x ∧
      ∀ i, ave i = (∑ p : Fin 8, q (nq * p + i) * (Jac val x p).det) / quadVolume val x := by
  unfold computeVolumeAverage computeVolumeAverageImpl
  have hz : ∀ i, jacobian val (fun n d => view3 x n d + (fun _ _ => (0:K)) n d) i
      = jacobian val (view3 x) i := fun i => jacobian_congr _ _ _ (fun n _ d => by simp) i
  simp only [hz, Option.isSome_map]
  have hiff := (foldlM_isSome_iff (fun i => invert3x3 (jacobian val (view3 x) i))
    (fun (st : K × (ℕ → K)) int_pt (r : (Fin 3 → Fin 3 → K) × K) =>
      (st.1 + r.2, fun i => st.2 i + q (nq * int_pt + i) * intWts int_pt * r.2))
    (List.range 8) ((0 : K), fun _ => (0 : K)))
  rw [jac_pos_iff] at hiff
  simp only [jacMat_spec] at hiff
  refine ⟨hiff, ?_⟩
  intro volume ave h
  obtain ⟨⟨V, A⟩, hst, hVA⟩ := Option.map_eq_some_iff.mp h
  have hpos := hiff.mp (by
    have := congrArg Option.isSome hst
    exact this)
  have hex : ∀ i : ℕ, ∃ b : (Fin 3 → Fin 3 → K) × K, i ∈ List.range 8 →
      invert3x3 (jacobian val (view3 x) i) = some b ∧ b.2 = (jacMat val (view3 x) i).det := by
    intro i
    by_cases hi : i ∈ List.range 8
    · have hp := hpos ⟨i, List.mem_range.mp hi⟩
      rw [← jacMat_spec] at hp
      obtain ⟨inv, h1, h2, h3⟩ := invert3x3_some _ hp
      exact ⟨(inv, _), fun _ => ⟨h1, rfl⟩⟩
    · exact ⟨(fun _ _ => 0, 0), fun h' => absurd h' hi⟩
  choose v hv using hex
  have hrun := foldlM_some (fun i => invert3x3 (jacobian val (view3 x) i))
    (fun (st : K × (ℕ → K)) int_pt (r : (Fin 3 → Fin 3 → K) × K) =>
      (st.1 + r.2, fun i => st.2 i + q (nq * int_pt + i) * intWts int_pt * r.2))
    (List.range 8) ((0 : K), fun _ => (0 : K)) v (fun i hi => (hv i hi).1)
  have hst' := hst.symm.trans hrun
  have hVA' := Option.some.inj hst'
  have gen : ∀ L : ℕ, (List.range L).foldl (fun (st : K × (ℕ → K)) int_pt =>
      (st.1 + (v int_pt).2, fun i => st.2 i + q (nq * int_pt + i) * intWts int_pt * (v int_pt).2))
      ((0 : K), fun _ => (0 : K))
      = (∑ p ∈ Finset.range L, (v p).2,
         fun i => ∑ p ∈ Finset.range L, q (nq * p + i) * intWts p * (v p).2) := by
    intro L
    induction L with
    | zero => simp
    | succ L ih =>
      rw [List.range_succ, List.foldl_append, ih]
      simp [Finset.sum_range_succ]
  rw [gen] at hVA'
  have hdet : ∀ p : Fin 8, (v p).2 = (Jac val x p).det := fun p => by
    rw [(hv p (List.mem_range.mpr p.isLt)).2, jacMat_spec]
  have hV : V = quadVolume val x := by
    have := congrArg Prod.fst hVA'
    simp only [Finset.sum_range, hdet] at this
    exact this
  have hA : ∀ i, A i = ∑ p : Fin 8, q (nq * p + i) * (Jac val x p).det := by
    intro i
    have := congrFun (congrArg Prod.snd hVA') i
    simp only [Finset.sum_range, hdet, intWts, mul_one] at this
    exact this
  simp only [Prod.mk.injEq] at hVA
  obtain ⟨h1, h2⟩ := hVA
  refine ⟨by rw [← h1, hV], ?_⟩
  intro i
  rw [← h2]
  change A i / V = _
  rw [hA, hV]

/-- **C29.**  The reported volume is the quadrature volume and is positive. -/
theorem volume_spec (val : K) (x q : ℕ → K) (nq : ℕ) (volume : K) (ave : ℕ → K)
    (h : computeVolumeAverage val x nq q = some (volume, ave)) :
    volume = ∑ p : Fin 8, (Jac val x p).det ∧ 0 < volume := by
  obtain ⟨h1, h2⟩ := computeVolumeAverage_val val x q nq
  obtain ⟨h3, -⟩ := h2 volume ave h
  refine ⟨h3, ?_⟩
  rw [h3]
  exact Finset.sum_pos (fun p _ => h1.mp (by rw [h]; rfl) p) ⟨0, Finset.mem_univ _⟩

/-- **C29.**  The volume average of a field that has the same value at all integration points is
that value. -/
theorem volume_average_uniform (val : K) (x q : ℕ → K) (nq : ℕ) (volume : K) (ave : ℕ → K)
    (h : computeVolumeAverage val x nq q = some (volume, ave)) (i : ℕ) (c : K)
    (hq : ∀ p : Fin 8, q (nq * p + i) = c) : ave i = c := by
  obtain ⟨_, h2⟩ := computeVolumeAverage_val val x q nq
  obtain ⟨h3, h4⟩ := h2 volume ave h
  obtain ⟨_, hpos⟩ := volume_spec val x q nq volume ave h
  rw [h4 i]
  simp only [hq, ← Finset.mul_sum]
  rw [h3] at hpos
  exact mul_div_cancel_right₀ _ hpos.ne'

/-- **C29.**  Every average lies between any bounds of the integration point values. -/
theorem volume_average_between (val : K) (x q : ℕ → K) (nq : ℕ) (volume : K) (ave : ℕ → K)
    (h : computeVolumeAverage val x nq q = some (volume, ave)) (i : ℕ) (lo hi : K)
    (hq : ∀ p : Fin 8, lo ≤ q (nq * p + i) ∧ q (nq * p + i) ≤ hi) : lo ≤ ave i ∧ ave i ≤ hi := by
  obtain ⟨h1, h2⟩ := computeVolumeAverage_val val x q nq
  obtain ⟨h3, h4⟩ := h2 volume ave h
  obtain ⟨_, hpos⟩ := volume_spec val x q nq volume ave h
  have hJ := h1.mp (by rw [h]; rfl)
  rw [h3] at hpos
  rw [h4 i, le_div_iff₀ hpos, div_le_iff₀ hpos]
  unfold quadVolume
  rw [Finset.mul_sum, Finset.mul_sum]
  constructor
  · exact Finset.sum_le_sum fun p _ => mul_le_mul_of_nonneg_right (hq p).1 (hJ p).le
  · exact Finset.sum_le_sum fun p _ => mul_le_mul_of_nonneg_right (hq p).2 (hJ p).le

/-- **C29.**  The average is the Jacobian-weighted mean (this determines it completely). -/
theorem volume_average_weighted (val : K) (x q : ℕ → K) (nq : ℕ) (volume : K) (ave : ℕ → K)
    (h : computeVolumeAverage val x nq q = some (volume, ave)) (i : ℕ) :
    ave i * volume = ∑ p : Fin 8, q (nq * p + i) * (Jac val x p).det := by
  obtain ⟨_, h2⟩ := computeVolumeAverage_val val x q nq
  obtain ⟨h3, h4⟩ := h2 volume ave h
  obtain ⟨_, hpos⟩ := volume_spec val x q nq volume ave h
  rw [h4 i, h3]
  rw [h3] at hpos
  exact div_mul_cancel₀ _ hpos.ne'

theorem put_range_fold (g : ℕ → K) (L m : ℕ) :
    (List.range L).foldl (fun F n => put F n (g n)) (fun _ => 0) m = if m < L then g m else 0 := by
  rw [put_self_fold (fun n _ => g n)]

theorem computeLumpedMass_val (val density : K) (x : ℕ → K) :
    ((computeLumpedMass val density x).isSome ↔ ∀ p : Fin 8, 0 < (Jac val x p).det) ∧
    ∀ m, computeLumpedMass val density x = some m → ∀ n : Fin 8,
      m n = density * ∑ p : Fin 8, N n (gaussPt val p) * (Jac val x p).det := by
  unfold computeLumpedMass computeConsistentMass
  simp only [Option.isSome_map]
  have hiff := (foldlM_isSome_iff (fun i => invert3x3 (jacobian val (view3 x) i))
    (fun (jac_det : ℕ → K) int_pt (r : (Fin 3 → Fin 3 → K) × K) => put jac_det int_pt r.2)
    (List.range 8) (fun _ => (0 : K)))
  rw [jac_pos_iff] at hiff
  simp only [jacMat_spec] at hiff
  refine ⟨hiff, ?_⟩
  intro m h n
  obtain ⟨cons, hc, hm⟩ := Option.map_eq_some_iff.mp h
  obtain ⟨jd, hjd, hcons⟩ := Option.map_eq_some_iff.mp hc
  have hpos := hiff.mp (congrArg Option.isSome hjd)
  have hex : ∀ i : ℕ, ∃ b : (Fin 3 → Fin 3 → K) × K, i ∈ List.range 8 →
      invert3x3 (jacobian val (view3 x) i) = some b ∧ b.2 = (jacMat val (view3 x) i).det := by
    intro i
    by_cases hi : i ∈ List.range 8
    · have hp := hpos ⟨i, List.mem_range.mp hi⟩
      rw [← jacMat_spec] at hp
      obtain ⟨inv, h1, h2, h3⟩ := invert3x3_some _ hp
      exact ⟨(inv, _), fun _ => ⟨h1, rfl⟩⟩
    · exact ⟨(fun _ _ => 0, 0), fun h' => absurd h' hi⟩
  choose v hv using hex
  have hrun := foldlM_some (fun i => invert3x3 (jacobian val (view3 x) i))
    (fun (jac_det : ℕ → K) int_pt (r : (Fin 3 → Fin 3 → K) × K) => put jac_det int_pt r.2)
    (List.range 8) (fun _ => (0 : K)) v (fun i hi => (hv i hi).1)
  have hjd' := Option.some.inj (hjd.symm.trans hrun)
  have hdet : ∀ p : Fin 8, jd p = (Jac val x p).det := fun p => by
    rw [hjd', put_range_fold, if_pos p.isLt, (hv p (List.mem_range.mpr p.isLt)).2, jacMat_spec]
  rw [← hm, ← hcons]
  simp only [foldl_add_sum, zero_add, Finset.sum_range, shapeFcnVals_spec, hdet, intWts, one_mul]
  rw [Finset.sum_comm, Finset.mul_sum]
  apply Finset.sum_congr rfl; intro p _
  rw [← Finset.sum_mul, ← Finset.mul_sum, N_sum]
  ring

/-- **C26.**  The lumped nodal masses of an element sum to density times the volume that
`ComputeVolumeAverage` reports for the same coordinates. -/
theorem lumped_mass_total (val density : K) (x m q : ℕ → K) (nq : ℕ) (volume : K) (ave : ℕ → K)
    (h : computeLumpedMass val density x = some m)
    (hv : computeVolumeAverage val x nq q = some (volume, ave)) :
    ∑ n ∈ Finset.range 8, m n = density * volume := by
  rw [(volume_spec val x q nq volume ave hv).1, Finset.sum_range]
  simp only [(computeLumpedMass_val val density x).2 m h]
  rw [← Finset.mul_sum, Finset.sum_comm]
  congr 1
  apply Finset.sum_congr rfl; intro p _
  rw [← Finset.sum_mul, N_sum, one_mul]

/-- **C26.**  With positive density every lumped mass is positive (`val` is less than one in
absolute value, as the code's constant is). -/
theorem lumped_mass_pos (val density : K) (x m : ℕ → K) (hval : |val| < 1) (hd : 0 < density)
    (h : computeLumpedMass val density x = some m) (n : Fin 8) : 0 < m n := by
  obtain ⟨h1, h2⟩ := computeLumpedMass_val val density x
  have hJ := h1.mp (by rw [h]; rfl)
  rw [h2 m h n]
  apply mul_pos hd
  apply Finset.sum_pos _ ⟨0, Finset.mem_univ _⟩
  intro p _
  apply mul_pos _ (hJ p)
  unfold N
  apply mul_pos (by norm_num)
  apply Finset.prod_pos
  intro d _
  obtain ⟨ha, hb⟩ := abs_lt.mp hval
  have hc : ∀ k : Fin 8, (corner k d : K) = 1 ∨ (corner k d : K) = -1 := by
    intro k; fin_cases k <;> fin_cases d <;> simp [corner]
  unfold gaussPt
  rcases hc n with h | h <;> rcases hc p with h' | h' <;> rw [h, h'] <;> linarith

/-- Lumped mass is defined exactly when volume averaging is (all Jacobians positive). -/
theorem lumped_mass_defined (val density : K) (x : ℕ → K) :
    (∃ m, computeLumpedMass val density x = some m) ↔ ∀ p : Fin 8, 0 < (Jac val x p).det := by
  rw [← (computeLumpedMass_val val density x).1, Option.isSome_iff_exists]

/-! ## C27: element tangent -/

/-- Strain-displacement matrix of the specification: component `k` (order XX, YY, ZZ, XY, YZ, ZX,
engineering shears) of the strain produced by a unit displacement of node `n` in direction `d`,
for shape function gradient `g`. -/
def strainOf (g : Fin 3 → K) (d : Fin 3) : Fin 6 → K :=
  ![if d = 0 then g 0 else 0, if d = 1 then g 1 else 0, if d = 2 then g 2 else 0,
    (if d = 0 then g 1 else 0) + (if d = 1 then g 0 else 0),
    (if d = 1 then g 2 else 0) + (if d = 2 then g 1 else 0),
    (if d = 2 then g 0 else 0) + (if d = 0 then g 2 else 0)]

/-- `B` is a well-formed contents of the scratch matrix: the entries never assigned are zero. -/
def BZero (B : ℕ → ℕ → K) : Prop := ∀ n, n < 8 → ∀ (d : Fin 3) (k : Fin 6),
  (∀ g : Fin 3 → K, strainOf g d k = 0) → B k (3 * n + d) = 0

theorem fillB_val (val : K) (inv : Fin 3 → Fin 3 → K) (ip : ℕ) (B : ℕ → ℕ → K) (hB : BZero B) :
    (∀ n, n < 8 → ∀ (d : Fin 3) (k : Fin 6),
      fillB val inv ip B k (3 * n + d) = strainOf (dNdx val inv ip n) d k) ∧
    BZero (fillB val inv ip B) := by
  have key : ∀ n, n < 8 → ∀ (d : Fin 3) (k : Fin 6),
      fillB val inv ip B k (3 * n + d) = strainOf (dNdx val inv ip n) d k := by
    have gen : ∀ L, ∀ n, n < 8 → ∀ (d : Fin 3) (k : Fin 6),
        (List.range L).foldl
          (fun B n =>
            let dN := dNdx val inv ip n
            let B := put2 B 0 (3 * n) (dN 0)
            let B := put2 B 1 (3 * n + 1) (dN 1)
            let B := put2 B 2 (3 * n + 2) (dN 2)
            let B := put2 B 3 (3 * n) (dN 1)
            let B := put2 B 3 (3 * n + 1) (dN 0)
            let B := put2 B 4 (3 * n + 1) (dN 2)
            let B := put2 B 4 (3 * n + 2) (dN 1)
            let B := put2 B 5 (3 * n) (dN 2)
            put2 B 5 (3 * n + 2) (dN 0)) B k (3 * n + d)
        = if n < L then strainOf (dNdx val inv ip n) d k else B k (3 * n + d) := by
      intro L
      induction L with
      | zero => intro n hn d k; simp
      | succ L ih =>
        intro n hn d k
        rw [List.range_succ, List.foldl_append, List.foldl_cons, List.foldl_nil]
        have ih' := ih n hn d k
        revert ih'
        generalize (List.range L).foldl _ B = G
        intro ih'
        by_cases hL : n = L
        · subst hL
          rw [if_neg (lt_irrefl _)] at ih'
          rw [if_pos (Nat.lt_succ_self _)]
          have hz : (∀ g : Fin 3 → K, strainOf g d k = 0) → G k (3 * n + d) = 0 := by
            intro hg
            rw [ih']
            exact hB n hn d k hg
          fin_cases d <;> fin_cases k <;> simp [put2, strainOf] at hz ⊢ <;> exact hz
        · have hne : ∀ (a b : Fin 3), 3 * n + a.val ≠ 3 * L + b.val := fun a b => by omega
          have h0 := hne d 0
          have h1 := hne d 1
          have h2 := hne d 2
          simp only [Fin.val_zero, Fin.val_one, Fin.val_two, add_zero] at h0 h1 h2
          simp only [put2, h0, h1, h2, and_false, if_false]
          rw [ih']
          by_cases h' : n < L
          · rw [if_pos h', if_pos (by omega)]
          · rw [if_neg h', if_neg (by omega)]
    intro n hn d k
    have := gen 8 n hn d k
    rw [if_pos hn] at this
    exact this
  refine ⟨key, ?_⟩
  intro n hn d k hg
  rw [key n hn d k]
  exact hg _

/-- The outcome of `computeTangent` with the shape function gradients exhibited. -/
theorem computeTangent_val (val : K) (x C : ℕ → K) :
    ((computeTangent val x C).isSome ↔ ∀ p : Fin 8, 0 < (Jac val x p).det) ∧
    ∀ T, computeTangent val x C = some T → ∃ inv : Fin 8 → Fin 3 → Fin 3 → K,
      (∀ p : Fin 8, jacMat val (view3 x) p * Matrix.of (inv p) = 1) ∧
      ∀ m, m < 8 → ∀ n, n < 8 → ∀ d e : Fin 3,
        T (3 * m + d) (3 * n + e) = ∑ p : Fin 8, (Jac val x p).det *
          ∑ k : Fin 6, ∑ l : Fin 6, strainOf (dNdx val (inv p) p m) d k *
            C (36 * p + 6 * k + l) * strainOf (dNdx val (inv p) p n) e l := by
  unfold computeTangent
  set step := fun (st : (ℕ → ℕ → K) × (ℕ → ℕ → K)) (int_pt : ℕ) (r : (Fin 3 → Fin 3 → K) × K) =>
        (fillB val r.1 int_pt st.1, fun i j =>
          (List.range 6).foldl
            (fun s k => s + fillB val r.1 int_pt st.1 k i * ((List.range 6).foldl
            (fun s l => s + C (36 * int_pt + 6 * k + l) * fillB val r.1 int_pt st.1 l j) 0)
              * intWts int_pt * r.2) (st.2 i j)) with hstep
  have hiff := (foldlM_isSome_iff (fun i => invert3x3 (jacobian val (view3 x) i)) step
    (List.range 8) ((fun _ _ => (0 : K)), fun _ _ => (0 : K)))
  rw [jac_pos_iff] at hiff
  simp only [jacMat_spec] at hiff
  rw [Option.isSome_map]
  refine ⟨hiff, ?_⟩
  intro T h
  obtain ⟨st, hst, hT⟩ := Option.map_eq_some_iff.mp h
  have hpos := hiff.mp (congrArg Option.isSome hst)
  have hex : ∀ i : ℕ, ∃ b : (Fin 3 → Fin 3 → K) × K, i ∈ List.range 8 →
      invert3x3 (jacobian val (view3 x) i) = some b ∧ b.2 = (jacMat val (view3 x) i).det ∧
      jacMat val (view3 x) i * Matrix.of b.1 = 1 := by
    intro i
    by_cases hi : i ∈ List.range 8
    · have hp := hpos ⟨i, List.mem_range.mp hi⟩
      rw [← jacMat_spec] at hp
      obtain ⟨inv, h1, h2, h3⟩ := invert3x3_some _ hp
      exact ⟨(inv, _), fun _ => ⟨h1, rfl, h2⟩⟩
    · exact ⟨(fun _ _ => 0, 0), fun h' => absurd h' hi⟩
  choose v hv using hex
  have hrun := foldlM_some (fun i => invert3x3 (jacobian val (view3 x) i)) step
    (List.range 8) ((fun _ _ => (0 : K)), fun _ _ => (0 : K)) v (fun i hi => (hv i hi).1)
  have hst' := Option.some.inj (hst.symm.trans hrun)
  refine ⟨fun p => (v p).1, fun p => (hv p (List.mem_range.mpr p.isLt)).2.2, ?_⟩
  intro m hm n hn d e
  have gen : ∀ L : ℕ, BZero ((List.range L).foldl (fun s i => step s i (v i))
        ((fun _ _ => (0 : K)), fun _ _ => (0 : K))).1 ∧
      ((List.range L).foldl (fun s i => step s i (v i))
        ((fun _ _ => (0 : K)), fun _ _ => (0 : K))).2 (3 * m + d) (3 * n + e)
      = ∑ p ∈ Finset.range L, (v p).2 *
          ∑ k : Fin 6, ∑ l : Fin 6, strainOf (dNdx val (v p).1 p m) d k *
            C (36 * p + 6 * k + l) * strainOf (dNdx val (v p).1 p n) e l := by
    intro L
    induction L with
    | zero => exact ⟨fun _ _ _ _ _ => rfl, by simp⟩
    | succ L ih =>
      rw [List.range_succ, List.foldl_append, List.foldl_cons, List.foldl_nil,
        Finset.sum_range_succ, ← ih.2]
      have hB := ih.1
      generalize (List.range L).foldl (fun s i => step s i (v i)) _ = G at hB ⊢
      obtain ⟨f1, f2⟩ := fillB_val val (v L).1 L G.1 hB
      refine ⟨f2, ?_⟩
      rw [hstep]
      simp only [foldl_add_sum, zero_add, Finset.sum_range, f1 m hm, f1 n hn, intWts, mul_one]
      congr 1
      rw [Finset.mul_sum]
      apply Finset.sum_congr rfl; intro k _
      rw [Finset.mul_sum, Finset.mul_sum, Finset.sum_mul]
      apply Finset.sum_congr rfl; intro l _
      ring
  rw [← hT, hst', (gen 8).2, Finset.sum_range]
  apply Finset.sum_congr rfl; intro p _
  rw [(hv p (List.mem_range.mpr p.isLt)).2.1, jacMat_spec]

/-- The tangent is defined exactly when all Jacobians are positive. -/
theorem tangent_defined (val : K) (x C : ℕ → K) :
    (∃ T, computeTangent val x C = some T) ↔ ∀ p : Fin 8, 0 < (Jac val x p).det := by
  rw [← (computeTangent_val val x C).1, Option.isSome_iff_exists]

/-- **C27.**  For a symmetric material tangent the element tangent is symmetric. -/
theorem tangent_symmetric (val : K) (x C : ℕ → K) (T : ℕ → ℕ → K)
    (hC : ∀ (p : Fin 8) (k l : Fin 6), C (36 * p + 6 * k + l) = C (36 * p + 6 * l + k))
    (h : computeTangent val x C = some T) (i j : ℕ) (hi : i < 24) (hj : j < 24) : T i j = T j i := by
  obtain ⟨inv, -, hT⟩ := (computeTangent_val val x C).2 T h
  have hi' : i = 3 * (i / 3) + (⟨i % 3, Nat.mod_lt _ (by norm_num)⟩ : Fin 3).val := by
    simp only; omega
  have hj' : j = 3 * (j / 3) + (⟨j % 3, Nat.mod_lt _ (by norm_num)⟩ : Fin 3).val := by
    simp only; omega
  rw [hi', hj', hT _ (by omega) _ (by omega), hT _ (by omega) _ (by omega)]
  apply Finset.sum_congr rfl; intro p _
  congr 1
  rw [Finset.sum_comm]
  apply Finset.sum_congr rfl; intro k _
  apply Finset.sum_congr rfl; intro l _
  rw [hC p l k]; ring

/-- The strain of an affine displacement field `u = G x + c` at an integration point is the
symmetric part of `G`. -/
theorem sum_strain_affine (val : K) (x : ℕ → K) (inv : Fin 3 → Fin 3 → K) (p : ℕ)
    (hinv : jacMat val (view3 x) p * Matrix.of inv = 1) (G : Matrix (Fin 3) (Fin 3) K)
    (c : Fin 3 → K) (l : Fin 6) :
    ∑ n ∈ Finset.range 8, ∑ e : Fin 3, strainOf (dNdx val inv p n) e l *
      ((∑ g : Fin 3, G e g * x (3 * n + g)) + c e)
      = (![G 0 0, G 1 1, G 2 2, G 0 1 + G 1 0, G 1 2 + G 2 1, G 2 0 + G 0 2] : Fin 6 → K) l := by
  have h0 := fun d => sum_dNdx val inv p d
  have h1 := fun i d => sum_coord_dNdx val (view3 x) inv p hinv i d
  have hs : ∀ (a b : Fin 3), ∑ n ∈ Finset.range 8, dNdx val inv p n b *
      ((∑ g : Fin 3, G a g * x (3 * n + g)) + c a) = G a b := by
    intro a b
    have e1 : ∀ n ∈ Finset.range 8, dNdx val inv p n b * ((∑ g : Fin 3, G a g * x (3 * n + g)) + c a)
        = (∑ g : Fin 3, G a g * (view3 x n g * dNdx val inv p n b)) + c a * dNdx val inv p n b := by
      intro n _
      rw [mul_add, Finset.mul_sum]
      congr 1
      · apply Finset.sum_congr rfl; intro g _; simp only [view3]; ring
      · ring
    rw [Finset.sum_congr rfl e1, Finset.sum_add_distrib, ← Finset.mul_sum, h0, mul_zero, add_zero,
      Finset.sum_comm]
    simp only [← Finset.mul_sum, h1]
    simp
  generalize hu : (fun (n : ℕ) (e : Fin 3) => (∑ g : Fin 3, G e g * x (3 * n + g)) + c e) = u
  have hu' : ∀ n e, (∑ g : Fin 3, G e g * x (3 * n + g)) + c e = u n e := fun n e => by rw [← hu]
  simp only [hu'] at hs ⊢
  have e0 : ∀ n, ∑ e : Fin 3, strainOf (dNdx val inv p n) e l * u n e
      = strainOf (dNdx val inv p n) 0 l * u n 0 + strainOf (dNdx val inv p n) 1 l * u n 1
        + strainOf (dNdx val inv p n) 2 l * u n 2 := fun n => Fin.sum_univ_three _
  rw [Finset.sum_congr rfl (fun n _ => e0 n)]
  fin_cases l <;> simp [strainOf, Finset.sum_add_distrib, hs, add_comm]

/-- The strain, in Voigt order with engineering shears, of a displacement with gradient `G`. -/
def strainVec (G : Matrix (Fin 3) (Fin 3) K) : Fin 6 → K :=
  ![G 0 0, G 1 1, G 2 2, G 0 1 + G 1 0, G 1 2 + G 2 1, G 2 0 + G 0 2]

theorem tangent_affine (val : K) (x C : ℕ → K) (T : ℕ → ℕ → K) (inv : Fin 8 → Fin 3 → Fin 3 → K)
    (hinv : ∀ p : Fin 8, jacMat val (view3 x) p * Matrix.of (inv p) = 1)
    (hT : ∀ m, m < 8 → ∀ n, n < 8 → ∀ d e : Fin 3,
        T (3 * m + d) (3 * n + e) = ∑ p : Fin 8, (Jac val x p).det *
          ∑ k : Fin 6, ∑ l : Fin 6, strainOf (dNdx val (inv p) p m) d k *
            C (36 * p + 6 * k + l) * strainOf (dNdx val (inv p) p n) e l)
    (G : Matrix (Fin 3) (Fin 3) K) (c : Fin 3 → K) (n₀ : ℕ) (hn₀ : n₀ < 8) (d₀ : Fin 3) :
    ∑ n ∈ Finset.range 8, ∑ e : Fin 3,
      T (3 * n₀ + d₀) (3 * n + e) * ((∑ g : Fin 3, G e g * x (3 * n + g)) + c e)
      = ∑ p : Fin 8, ∑ k : Fin 6, ∑ l : Fin 6, (Jac val x p).det *
          strainOf (dNdx val (inv p) p n₀) d₀ k * C (36 * p + 6 * k + l) * strainVec G l := by
  have e1 : ∀ n ∈ Finset.range 8, ∀ e : Fin 3,
      T (3 * n₀ + d₀) (3 * n + e) * ((∑ g : Fin 3, G e g * x (3 * n + g)) + c e)
      = ∑ p : Fin 8, ∑ k : Fin 6, ∑ l : Fin 6, ((Jac val x p).det *
          strainOf (dNdx val (inv p) p n₀) d₀ k *
            C (36 * p + 6 * k + l)) * (strainOf (dNdx val (inv p) p n) e l *
            ((∑ g : Fin 3, G e g * x (3 * n + g)) + c e)) := by
    intro n hn e
    rw [hT _ hn₀ n (Finset.mem_range.mp hn), Finset.sum_mul]
    apply Finset.sum_congr rfl; intro p _
    rw [Finset.mul_sum, Finset.sum_mul]
    apply Finset.sum_congr rfl; intro k _
    rw [Finset.mul_sum, Finset.sum_mul]
    apply Finset.sum_congr rfl; intro l _
    ring
  rw [Finset.sum_congr rfl (fun n hn => Finset.sum_congr rfl (fun e _ => e1 n hn e))]
  have swap : ∀ (F : ℕ → Fin 3 → Fin 8 → Fin 6 → Fin 6 → K),
      ∑ n ∈ Finset.range 8, ∑ e, ∑ p, ∑ k, ∑ l, F n e p k l
        = ∑ p, ∑ k, ∑ l, ∑ n ∈ Finset.range 8, ∑ e, F n e p k l := by
    intro F
    rw [Finset.sum_congr rfl (fun n _ => Finset.sum_comm), Finset.sum_comm]
    apply Finset.sum_congr rfl; intro p _
    rw [Finset.sum_congr rfl (fun n _ => Finset.sum_comm), Finset.sum_comm]
    apply Finset.sum_congr rfl; intro k _
    rw [Finset.sum_congr rfl (fun n _ => Finset.sum_comm), Finset.sum_comm]
  rw [swap]
  apply Finset.sum_congr rfl; intro p _
  apply Finset.sum_congr rfl; intro k _
  apply Finset.sum_congr rfl; intro l _
  simp only [← Finset.mul_sum]
  rw [sum_strain_affine val x (inv p) p (hinv p) G c l]
  rfl

/-- **C27.**  Nodal displacements that are an infinitesimal rigid motion (`W x + c` with `W`
skew) produce no force: in particular each row of the tangent sums to zero over the nodes, for
each direction. -/
theorem tangent_rigid_motion (val : K) (x C : ℕ → K) (T : ℕ → ℕ → K)
    (h : computeTangent val x C = some T) (W : Matrix (Fin 3) (Fin 3) K) (hW : Wᵀ = -W)
    (c : Fin 3 → K) (i : ℕ) (hi : i < 24) :
    ∑ n ∈ Finset.range 8, ∑ e : Fin 3,
      T i (3 * n + e) * ((∑ g : Fin 3, W e g * x (3 * n + g)) + c e) = 0 := by
  obtain ⟨inv, hinv, hT⟩ := (computeTangent_val val x C).2 T h
  have hi' : i = 3 * (i / 3) + (⟨i % 3, Nat.mod_lt _ (by norm_num)⟩ : Fin 3).val := by
    simp only; omega
  have hsk : ∀ a b, W a b + W b a = 0 := fun a b => by
    have := congrFun (congrFun hW a) b
    simp only [Matrix.transpose_apply, Matrix.neg_apply] at this
    rw [this]; ring
  have hdiag : ∀ a, W a a = 0 := fun a => by have := hsk a a; linarith
  conv_lhs => rw [hi']
  rw [tangent_affine val x C T inv hinv hT W c (i / 3) (by omega)]
  apply Finset.sum_eq_zero; intro p _
  apply Finset.sum_eq_zero; intro k _
  apply Finset.sum_eq_zero; intro l _
  have : strainVec W l = 0 := by
    fin_cases l <;> simp [strainVec, hdiag, hsk]
  rw [this, mul_zero]

/-- **C27.**  The tangent is consistent with the nodal forces: for a displacement `G x + c` the
product of the tangent with the nodal displacements is minus the nodal force of the stress that the
material tangent assigns to the strain of `G`. -/
theorem tangent_force_consistent (val : K) (x C σ : ℕ → K) (T : ℕ → ℕ → K) (f : ℕ → Fin 3 → K)
    (h : computeTangent val x C = some T) (hf : computeNodalForces val x σ = some f)
    (G : Matrix (Fin 3) (Fin 3) K) (c : Fin 3 → K)
    (hσ : ∀ (p : Fin 8) (k : Fin 6), σ (6 * p + k) = ∑ l : Fin 6, C (36 * p + 6 * k + l) *
      (![G 0 0, G 1 1, G 2 2, G 0 1 + G 1 0, G 1 2 + G 2 1, G 2 0 + G 0 2] : Fin 6 → K) l)
    (n : ℕ) (hn : n < 8) (d : Fin 3) :
    ∑ m ∈ Finset.range 8, ∑ e : Fin 3,
      T (3 * n + d) (3 * m + e) * ((∑ g : Fin 3, G e g * x (3 * m + g)) + c e) = - f n d := by
  obtain ⟨inv, hinv, hT⟩ := (computeTangent_val val x C).2 T h
  obtain ⟨inv', -, hinv', hF⟩ := computeNodalForces_val val x σ f hf
  have heq : ∀ p, inv' p = inv p := fun p => by
    have h1 := mul_eq_one_comm.mp (hinv p)
    have h2 : Matrix.of (inv' p) = Matrix.of (inv p) := by
      calc Matrix.of (inv' p)
          = (Matrix.of (inv p) * jacMat val (view3 x) p) * Matrix.of (inv' p) := by rw [h1, one_mul]
        _ = _ := by rw [mul_assoc, hinv' p, mul_one]
    exact Matrix.of.injective h2
  rw [tangent_affine val x C T inv hinv hT G c n hn d, hF n hn d, neg_neg]
  apply Finset.sum_congr rfl; intro p _
  rw [heq p]
  have hv : ∀ (g : Fin 3 → K) (s : Fin 6 → K), ∑ e : Fin 3, g e * symMat s e d
      = ∑ k : Fin 6, strainOf g d k * s k := by
    intro g s
    fin_cases d <;> simp [strainOf, symMat, Fin.sum_univ_six, Fin.sum_univ_three] <;> ring
  rw [hv, Finset.mul_sum]
  apply Finset.sum_congr rfl; intro k _
  rw [hσ p k, Finset.mul_sum, Finset.mul_sum]
  apply Finset.sum_congr rfl; intro l _
  rw [strainVec]; ring

/-- **C27.**  Row sums: a unit translation in direction `e` produces no force. -/
theorem tangent_row_sum_zero (val : K) (x C : ℕ → K) (T : ℕ → ℕ → K)
    (h : computeTangent val x C = some T) (i : ℕ) (hi : i < 24) (e : Fin 3) :
    ∑ n ∈ Finset.range 8, T i (3 * n + e) = 0 := by
  have := tangent_rigid_motion val x C T h 0 (by simp) (fun d => if d = e then 1 else 0) i hi
  simpa using this

theorem energy_swap (A : Fin 8 → Fin 3 → Fin 8 → Fin 6 → K) (j : Fin 8 → K)
    (C : Fin 8 → Fin 6 → Fin 6 → K) :
    ∑ n : Fin 8, ∑ d : Fin 3, ∑ m : Fin 8, ∑ e : Fin 3, ∑ p : Fin 8, ∑ k : Fin 6, ∑ l : Fin 6,
      j p * (A n d p k * C p k l * A m e p l)
    = ∑ p : Fin 8, j p * ∑ k : Fin 6, ∑ l : Fin 6,
        (∑ n : Fin 8, ∑ d : Fin 3, A n d p k) * C p k l * (∑ m : Fin 8, ∑ e : Fin 3, A m e p l) := by
  simp only [← Fintype.sum_prod_type' (fun (m : Fin 8) (e : Fin 3) => A m e _ _)]
  simp only [← Fintype.sum_prod_type' (fun (m : Fin 8) (e : Fin 3) =>
    ∑ p : Fin 8, ∑ k : Fin 6, ∑ l : Fin 6, j p * (A _ _ p k * C p k l * A m e p l))]
  rw [← Fintype.sum_prod_type' (fun (n : Fin 8) (d : Fin 3) => ∑ me : Fin 8 × Fin 3,
    ∑ p : Fin 8, ∑ k : Fin 6, ∑ l : Fin 6, j p * (A n d p k * C p k l * A me.1 me.2 p l))]
  rw [Finset.sum_congr rfl (fun nd _ => Finset.sum_comm), Finset.sum_comm]
  apply Finset.sum_congr rfl; intro p _
  rw [Finset.sum_congr rfl (fun nd _ => Finset.sum_comm), Finset.sum_comm, Finset.mul_sum]
  apply Finset.sum_congr rfl; intro k _
  rw [Finset.sum_congr rfl (fun nd _ => Finset.sum_comm), Finset.sum_comm, Finset.mul_sum]
  apply Finset.sum_congr rfl; intro l _
  rw [Finset.sum_mul, Finset.sum_mul, Finset.mul_sum]
  apply Finset.sum_congr rfl; intro nd _
  rw [Finset.mul_sum, Finset.mul_sum]

/-- **C27.**  For a positive semidefinite material tangent the element tangent is positive
semidefinite: the strain energy of every nodal displacement `u` is nonnegative. -/
theorem tangent_energy_nonneg (val : K) (x C : ℕ → K) (T : ℕ → ℕ → K)
    (h : computeTangent val x C = some T)
    (hC : ∀ (p : Fin 8) (ε : Fin 6 → K),
      0 ≤ ∑ k : Fin 6, ∑ l : Fin 6, ε k * C (36 * p + 6 * k + l) * ε l) (u : ℕ → K) :
    0 ≤ ∑ n : Fin 8, ∑ d : Fin 3, ∑ m : Fin 8, ∑ e : Fin 3,
      u (3 * n + d) * T (3 * n + d) (3 * m + e) * u (3 * m + e) := by
  obtain ⟨inv, -, hT⟩ := (computeTangent_val val x C).2 T h
  have hpos := (tangent_defined val x C).mp ⟨T, h⟩
  have key : ∑ n : Fin 8, ∑ d : Fin 3, ∑ m : Fin 8, ∑ e : Fin 3,
      u (3 * n + d) * T (3 * n + d) (3 * m + e) * u (3 * m + e)
      = ∑ p : Fin 8, (Jac val x p).det * ∑ k : Fin 6, ∑ l : Fin 6,
          (∑ n : Fin 8, ∑ d : Fin 3, u (3 * n + d) * strainOf (dNdx val (inv p) p n) d k)
            * C (36 * p + 6 * k + l) *
          (∑ m : Fin 8, ∑ e : Fin 3, u (3 * m + e) * strainOf (dNdx val (inv p) p m) e l) := by
    have e1 : ∀ (n : Fin 8) (d : Fin 3) (m : Fin 8) (e : Fin 3),
        u (3 * n + d) * T (3 * n + d) (3 * m + e) * u (3 * m + e)
        = ∑ p : Fin 8, ∑ k : Fin 6, ∑ l : Fin 6, (Jac val x p).det *
          ((u (3 * n + d) * strainOf (dNdx val (inv p) p n) d k) * C (36 * p + 6 * k + l) *
            (u (3 * m + e) * strainOf (dNdx val (inv p) p m) e l)) := by
      intro n d m e
      rw [hT n n.isLt m m.isLt d e, Finset.mul_sum, Finset.sum_mul]
      apply Finset.sum_congr rfl; intro p _
      simp only [Finset.mul_sum, Finset.sum_mul]
      apply Finset.sum_congr rfl; intro k _
      apply Finset.sum_congr rfl; intro l _
      ring
    simp only [e1]
    exact energy_swap (fun n d p k => u (3 * n + d) * strainOf (dNdx val (inv p) p n) d k)
      (fun p => (Jac val x p).det) (fun p k l => C (36 * p + 6 * k + l))
  rw [key]
  apply Finset.sum_nonneg; intro p _
  exact mul_nonneg (hpos p).le (hC p _)

/-! ## A concrete element -/

/-- Nodal coordinates of the cube `[0,2]³` sheared in `x` by `z/2`. -/
def demo : ℕ → ℚ
  | 0 => 0 | 1 => 0 | 2 => 0 | 3 => 2 | 4 => 0 | 5 => 0 | 6 => 2 | 7 => 2 | 8 => 0
  | 9 => 0 | 10 => 2 | 11 => 0 | 12 => 1 | 13 => 0 | 14 => 2 | 15 => 3 | 16 => 0 | 17 => 2
  | 18 => 3 | 19 => 2 | 20 => 2 | 21 => 1 | 22 => 2 | 23 => 2
  | _ => 0

theorem Jac_demo (p : Fin 8) : Jac gaussVal demo p = !![1, 0, 1/2; 0, 1, 0; 0, 0, 1] := by
  have h : ∀ (p : Fin 8) (i j : Fin 3), Jac gaussVal demo p i j
      = (![![1, 0, 1/2], ![0, 1, 0], ![0, 0, 1]] : Fin 3 → Fin 3 → ℚ) i j := by
    intro p i j
    change (∑ n : Fin 8, demo (3 * n + i) * gradN n (gaussPt gaussVal p) j) = _
    revert p i j
    decide +kernel
  ext i j
  rw [h]; rfl

theorem demo_ok (p : Fin 8) : 0 < (Jac gaussVal demo p).det := by
  rw [Jac_demo, Matrix.det_fin_three]; simp

/-- Non-vacuity of C24–C27, C29: the routines succeed on the sheared cube, whatever the current
coordinates, stresses, tangent and field. -/
example (x σ C q : ℕ → ℚ) : (∃ out, computeDeformationGradients gaussVal demo x = some out) ∧
    (∃ f, computeNodalForces gaussVal demo σ = some f) ∧
    (∃ m, computeLumpedMass gaussVal 3 demo = some m) ∧
    (∃ T, computeTangent gaussVal demo C = some T) ∧
    (∃ r, computeVolumeAverage gaussVal demo 6 q = some r) :=
  ⟨(deformation_gradients_defined _ _ _).mpr demo_ok, (nodal_forces_defined _ _ _).mpr demo_ok,
    (lumped_mass_defined _ _ _).mpr demo_ok, (tangent_defined _ _ _).mpr demo_ok,
    Option.isSome_iff_exists.mp ((computeVolumeAverage_val _ _ _ _).1.mpr demo_ok)⟩

/-- The volume of the sheared cube `[0,2]³` is reported as eight, whatever is averaged. -/
example (q : ℕ → ℚ) (volume : ℚ) (ave : ℕ → ℚ)
    (h : computeVolumeAverage gaussVal demo 6 q = some (volume, ave)) : volume = 8 := by
  rw [(volume_spec _ _ _ _ _ _ h).1]
  simp only [Jac_demo, Matrix.det_fin_three]
  simp

end NimbleSM.Hex
