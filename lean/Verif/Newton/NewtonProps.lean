import Verif.Newton.NewtonLemmas
import Verif.Integrate.EnergyCubeProps
import Verif.Assembly.MeshMapProps

/-!
# C131: is the matrix of the quasi-static solver the derivative of the internal force?

The solver replaces the change of the internal force under a change of displacement by minus the product
with the assembled element tangents (quasistatic_time_integrator.cc:270-326).  For elastic blocks in the
undeformed state this is the exact derivative, for every mesh and every displacement; in a stressed state it
is not (the code has no geometric part of the stiffness).
-/

set_option linter.unusedSectionVars false

open scoped BigOperators

namespace NimbleSM.Newton

open Matrix NimbleSM.Bc NimbleSM.Hex NimbleSM.Tensor NimbleSM.Constitutive NimbleSM.Assembly NimbleSM.Solver NimbleSM.Integrate

/-! ## Specification -/

/-- Component `(n, d)` of the internal force the code computes for displacements `u`; zero when it aborts. -/
noncomputable def force (val : ℝ) (X u : ℕ → ℝ) (blocks : List (Blk ℝ × List ℕ)) (n : ℕ) (d : Fin 3) : ℝ :=
  (computeInternalForce val X u blocks).elim 0 fun F => F (3 * n + d)

/-- The nodes of an element, as the list the assembly of the matrix uses. -/
def elemNodes (b : Blk ℝ) (e : ℕ) : List ℕ := (List.range 8).map (b.nodeId e)

/-- Element stiffnesses the code computes at the displacements `u`: one for each element of the blocks, in
the same order, with the tangent of the material of the block, evaluated at the current coordinates
(nimble_block_base.cc:66-143). -/
def Stiffnesses (val : ℝ) (X u : ℕ → ℝ) (mat : Blk ℝ → Material ℝ) (L : List (Blk ℝ × ℕ))
    (elems : List (List ℕ × (ℕ → ℕ → ℝ))) : Prop :=
  List.Forall₂ (fun be x => x.1 = elemNodes be.1 be.2 ∧ ∃ out,
    computeTangent val (gather be.1 be.2 fun k => X k + u k) (getTangent (mat be.1) 8 out) = some x.2) L elems

/-! ## One element -/

/-- Near the undeformed state the forces of an elastic element are defined, and their derivative is minus
the product with the element tangent. -/
theorem element_force_deriv (val : ℝ) (b : Blk ℝ) (m : Material ℝ) (hlaw : b.law = fun F => some (elasticStress m F))
    (X v out : ℕ → ℝ) (e : ℕ) (T : ℕ → ℕ → ℝ)
    (hT : computeTangent val (gather b e X) (getTangent m 8 out) = some T) :
    (∀ᶠ t in nhds (0 : ℝ), ∃ f, elementForce val b X (fun k => t * v k) e = some f) ∧
    ∀ (n : Fin 8) (d : Fin 3),
      HasDerivAt (fun t => (elementForce val b X (fun k => t * v k) e).elim 0 fun f => f n d)
        (- ∑ j : Fin 8, ∑ g : Fin 3, T (3 * n + d) (3 * j + g) * v (3 * b.nodeId e j + g)) 0 := by
  have hJX := (tangent_defined val _ _).mp ⟨T, hT⟩
  have hJt : ∀ (p : Fin 8) (i j : Fin 3), HasDerivAt (fun t : ℝ => Jac val (gather b e fun k => X k + t * v k) p i j)
      (Jac val (gather b e v) p i j) 0 := by
    intro p i j
    simp only [path_jac, Matrix.add_apply, Matrix.smul_apply, smul_eq_mul]
    simpa using ((hasDerivAt_id (0 : ℝ)).mul_const (Jac val (gather b e v) p i j)).const_add (Jac val (gather b e X) p i j)
  have hev : ∀ᶠ t in nhds (0 : ℝ), ∃ f, elementForce val b X (fun k => t * v k) e = some f := by
    have hc : ∀ p : Fin 8, ∀ᶠ t in nhds (0 : ℝ), 0 < (Jac val (gather b e fun k => X k + t * v k) p).det := by
      intro p
      have hd := det_deriv (fun t => Jac val (gather b e fun k => X k + t * v k) p) (Jac val (gather b e v) p) 0 (hJt p)
      have h0 : 0 < (Jac val (gather b e fun k => X k + (0 : ℝ) * v k) p).det := by
        rw [path_jac, zero_smul, add_zero]; exact hJX p
      exact hd.continuousAt.eventually (lt_mem_nhds h0)
    filter_upwards [Filter.eventually_all.mpr hc] with t ht
    exact elementForce_defined val b X _ e (fun F => by rw [hlaw]; exact ⟨_, rfl⟩) hJX ht
  refine ⟨hev, fun n d => ?_⟩
  have hclosed : (fun t => (elementForce val b X (fun k => t * v k) e).elim 0 fun f => f n d) =ᶠ[nhds (0 : ℝ)]
      fun t => t * - ∑ p : Fin 8, ∑ k : Fin 3, gradN n (gaussPt val p) k *
        ∑ i : Fin 3, (Jac val (gather b e fun k => X k + t * v k) p).adjugate k i *
          hooke m.bulk m.shear (smallStrain (1 + Jac val (gather b e v) p * (Jac val (gather b e X) p)⁻¹)) i d := by
    filter_upwards [hev] with t ht
    obtain ⟨f, hf⟩ := ht
    rw [hf, Option.elim_some, elastic_element_force val b m hlaw X _ e f hf n d, mul_neg]
    congr 1
    rw [Finset.mul_sum]
    apply Finset.sum_congr rfl; intro p _
    rw [Finset.mul_sum]
    apply Finset.sum_congr rfl; intro k _
    have hF : Jac val (gather b e fun k => X k + t * v k) p * (Jac val (gather b e X) p)⁻¹
        = 1 + t • (Jac val (gather b e v) p * (Jac val (gather b e X) p)⁻¹) := by
      rw [path_jac, Matrix.add_mul, Matrix.mul_nonsing_inv _ (hJX p).ne'.isUnit, Matrix.smul_mul]
    rw [hF, smallStrain_line, hooke_smul, Matrix.mul_smul, Matrix.smul_apply, smul_eq_mul, Matrix.mul_apply]
    ring
  refine HasDerivAt.congr_of_eventuallyEq ?_ hclosed
  have hg : ContinuousAt (fun t : ℝ => - ∑ p : Fin 8, ∑ k : Fin 3, gradN n (gaussPt val p) k *
        ∑ i : Fin 3, (Jac val (gather b e fun k => X k + t * v k) p).adjugate k i *
          hooke m.bulk m.shear (smallStrain (1 + Jac val (gather b e v) p * (Jac val (gather b e X) p)⁻¹)) i d) 0 := by
    have hcont : ∀ p, Continuous fun t : ℝ => Jac val (gather b e fun k => X k + t * v k) p := by
      intro p
      simp only [path_jac]
      exact continuous_const.add (continuous_id.smul continuous_const)
    have hadj : ∀ p k i, Continuous fun t : ℝ => (Jac val (gather b e fun k => X k + t * v k) p).adjugate k i :=
      fun p k i => (Continuous.matrix_adjugate (hcont p)).matrix_elem k i
    refine Continuous.continuousAt ?_
    refine Continuous.neg (continuous_finset_sum _ fun p _ => continuous_finset_sum _ fun k _ => continuous_const.mul
      (continuous_finset_sum _ fun i _ => (hadj p k i).mul continuous_const))
  have hkey : ∀ g : ℝ → ℝ, ContinuousAt g 0 → HasDerivAt (fun t => t * g t) (g 0) 0 := by
    intro g hg
    rw [hasDerivAt_iff_tendsto_slope]
    refine Filter.Tendsto.congr' ?_ (hg.tendsto.mono_left nhdsWithin_le_nhds)
    filter_upwards [self_mem_nhdsWithin] with t ht
    have ht0 : t ≠ 0 := ht
    simp only [slope, sub_zero, zero_mul, vsub_eq_sub, smul_eq_mul]
    field_simp
  refine HasDerivAt.congr_deriv (hkey _ hg) ?_
  have hw : ∑ j : Fin 8, ∑ g : Fin 3, T (3 * n + d) (3 * j + g) * v (3 * b.nodeId e j + g)
      = ∑ j : Fin 8, ∑ g : Fin 3, T (3 * n + d) (3 * j + g) * gather b e v (3 * j + g) :=
    Finset.sum_congr rfl fun j _ => Finset.sum_congr rfl fun g _ => by rw [gather_val _ _ _ j.isLt]
  rw [hw, tangent_product val _ m out T hT]
  simp only [path_jac, zero_smul, add_zero, Matrix.mul_apply]

/-! ## The assembled matrix -/

/-- Entries of the assembled matrix. -/
theorem assembled_entry {nodeIds : List ℕ} {cb : List Connectivity} {pairs : List (ℕ × ℕ)}
    {elems : List (List ℕ × (ℕ → ℕ → ℝ))} (hne : nodeIds ≠ []) (hm : MeshWellPosed nodeIds cb)
    (hu : EveryIdUsed nodeIds cb) (hel : ∀ x ∈ elems, ∃ b ∈ cb, x.1 ∈ b)
    (hs : nonzeroStructure nodeIds 3 cb = some pairs) {A₀ A : Crs ℝ} (h₀ : HasPattern A₀ pairs)
    (hz : ∀ a b w, A₀.at? a b = some w → w = 0) (hA : assembleTangent nodeIds 3 elems A₀ = some A) (a b : ℕ) :
    entry A a b = (elems.map fun x => contribution nodeIds 3 x.1 x.2 a b).sum := by
  obtain ⟨hadm, _, _⟩ := nonzeroStructure_admissible (K := ℝ) hs hu hne (by norm_num)
  obtain ⟨_, hshare, _⟩ := nonzeroStructure_spec hs
  obtain ⟨B, h1, h2, h3⟩ := assembleTangent_spec hs hu hne (by norm_num) hm elems hel h₀
  rw [hA] at h1
  cases h1
  unfold entry
  rw [h3]
  by_cases hmem : (a, b) ∈ pairs
  · obtain ⟨w, hw⟩ := Option.isSome_iff_exists.mp ((at_isSome_iff hadm h₀ a b).mpr hmem)
    rw [hw, hz a b w hw]
    simp
  · have : A₀.at? a b = none := by
      rw [← Option.not_isSome_iff_eq_none, at_isSome_iff hadm h₀ a b]; exact hmem
    rw [this]
    simp only [Option.map_none, Option.getD_none]
    symm
    apply List.sum_eq_zero
    intro y hy
    obtain ⟨x, hx, rfl⟩ := List.mem_map.mp hy
    obtain ⟨bl, hbl, hxb⟩ := hel x hx
    refine contribution_unlisted nodeIds x.1 x.2 (fun n hn' => ?_) a b ?_
    · obtain ⟨g, hg, _⟩ := hm bl hbl x.1 hxb n hn'
      exact (List.getElem?_eq_some_iff.mp hg).1
    · rintro ⟨ha, hb⟩
      exact hmem ((hshare a b).mpr ⟨bl, hbl, x.1, hxb, ha, hb⟩)

theorem ids_inj {nodeIds : List ℕ} (hnd : nodeIds.Nodup) {a b : ℕ} (ha : a < nodeIds.length) (hb : b < nodeIds.length)
    (h : nodeIds.getD a 0 = nodeIds.getD b 0) : a = b := by
  rw [List.getD_eq_getElem?_getD, List.getD_eq_getElem?_getD, List.getElem?_eq_getElem ha, List.getElem?_eq_getElem hb] at h
  exact (List.Nodup.getElem_inj_iff hnd).mp h

theorem elemNodes_getD (b : Blk ℝ) (e : ℕ) {r : ℕ} (hr : r < 8) : (elemNodes b e).getD r 0 = b.nodeId e r := by
  rw [List.getD_eq_getElem?_getD, elemNodes, List.getElem?_map, List.getElem?_range hr]
  rfl

/-- A row of the matrix of one element, times a vector of displacements. -/
theorem contribution_product {nodeIds : List ℕ} (hnd : nodeIds.Nodup) (b : Blk ℝ) (e : ℕ)
    (hlt : ∀ r < 8, b.nodeId e r < nodeIds.length) (T : ℕ → ℕ → ℝ) (v : ℕ → ℝ) {n : ℕ} (hn : n < nodeIds.length) (d : Fin 3) :
    ∑ n' ∈ Finset.range nodeIds.length, ∑ g : Fin 3,
      contribution nodeIds 3 (elemNodes b e) T (nodeIds.getD n 0 * 3 + d) (nodeIds.getD n' 0 * 3 + g) * v (3 * n' + g)
    = ∑ r ∈ Finset.range 8, if b.nodeId e r = n then
        ∑ j : Fin 8, ∑ g : Fin 3, T (3 * r + d) (3 * j + g) * v (3 * b.nodeId e j + g) else 0 := by
  have hlen : (elemNodes b e).length = 8 := by simp [elemNodes]
  have hmatch : ∀ r < 8, ∀ n' < nodeIds.length, ∀ i < 3, ∀ g : Fin 3,
      (nodeIds.getD ((elemNodes b e).getD r 0) 0 * 3 + i = nodeIds.getD n' 0 * 3 + g ↔ b.nodeId e r = n' ∧ i = g) := by
    intro r hr n' hn' i hi g
    rw [elemNodes_getD b e hr]
    constructor
    · intro h
      have h1 : nodeIds.getD (b.nodeId e r) 0 = nodeIds.getD n' 0 := by omega
      exact ⟨ids_inj hnd (hlt r hr) hn' h1, by omega⟩
    · rintro ⟨h1, h2⟩; rw [h1, h2]
  have hcon : ∀ n' < nodeIds.length, ∀ g : Fin 3,
      contribution nodeIds 3 (elemNodes b e) T (nodeIds.getD n 0 * 3 + d) (nodeIds.getD n' 0 * 3 + g)
      = ∑ r ∈ Finset.range 8, if b.nodeId e r = n then ∑ c ∈ Finset.range 8,
          (if b.nodeId e c = n' then T (3 * r + d) (3 * c + g) else 0) else 0 := by
    intro n' hn' g
    unfold Solver.contribution
    rw [hlen]
    apply Finset.sum_congr rfl; intro r hr
    have hr8 := Finset.mem_range.mp hr
    by_cases h1 : b.nodeId e r = n
    · rw [if_pos h1]
      apply Finset.sum_congr rfl; intro c hc
      have hc8 := Finset.mem_range.mp hc
      rw [Finset.sum_eq_single_of_mem d.val (Finset.mem_range.mpr d.isLt), Finset.sum_eq_single_of_mem g.val (Finset.mem_range.mpr g.isLt)]
      · rw [Nat.mul_comm r, Nat.mul_comm c]
        refine if_congr ?_ rfl rfl
        rw [hmatch r hr8 n hn d d.isLt d, hmatch c hc8 n' hn' g g.isLt g]
        simp [h1]
      · intro j hj hne
        exact if_neg fun h => hne ((hmatch c hc8 n' hn' j (Finset.mem_range.mp hj) g).mp h.2).2
      · intro i hi hne
        refine Finset.sum_eq_zero fun j _ => ?_
        exact if_neg fun h => hne ((hmatch r hr8 n hn i (Finset.mem_range.mp hi) d).mp h.1).2
    · rw [if_neg h1]
      refine Finset.sum_eq_zero fun c _ => Finset.sum_eq_zero fun i hi => Finset.sum_eq_zero fun j _ => ?_
      exact if_neg fun h => h1 ((hmatch r hr8 n hn i (Finset.mem_range.mp hi) d).mp h.1).1
  rw [Finset.sum_congr rfl fun n' hn' => Finset.sum_congr rfl fun g _ => by
    rw [hcon n' (Finset.mem_range.mp hn') g, Finset.sum_mul]]
  have hswap : ∀ (Φ : ℕ → Fin 3 → ℕ → ℝ), ∑ n' ∈ Finset.range nodeIds.length, ∑ g : Fin 3, ∑ r ∈ Finset.range 8, Φ n' g r
      = ∑ r ∈ Finset.range 8, ∑ g : Fin 3, ∑ n' ∈ Finset.range nodeIds.length, Φ n' g r := by
    intro Φ
    rw [Finset.sum_congr rfl fun n' _ => Finset.sum_comm, Finset.sum_comm]
    exact Finset.sum_congr rfl fun r _ => Finset.sum_comm
  rw [hswap]
  apply Finset.sum_congr rfl; intro r hr
  by_cases h1 : b.nodeId e r = n
  · simp only [if_pos h1, Finset.sum_mul]
    conv_rhs => rw [Finset.sum_comm]
    apply Finset.sum_congr rfl; intro g _
    rw [Finset.sum_comm, Finset.sum_range]
    apply Finset.sum_congr rfl; intro j _
    rw [Finset.sum_eq_single_of_mem (b.nodeId e j) (Finset.mem_range.mpr (hlt j j.isLt)), if_pos rfl]
    intro n' _ hne
    rw [if_neg (Ne.symm hne), zero_mul]
  · simp only [if_neg h1, zero_mul, Finset.sum_const_zero]

theorem forall₂_eventually {α β : Type*} {r : α → β → Prop} {l : List α} {l' : List β} (h : List.Forall₂ r l l')
    {P : ℝ → α → Prop} {t : ℝ} (hP : ∀ a b, r a b → ∀ᶠ s in nhds t, P s a) : ∀ᶠ s in nhds t, ∀ a ∈ l, P s a := by
  induction h with
  | nil => simp
  | cons h1 _ ih =>
    filter_upwards [hP _ _ h1, ih] with s hs hl a ha
    rcases List.mem_cons.mp ha with rfl | ha
    · exact hs
    · exact hl a ha

theorem forall₂_deriv {α β : Type*} {r : α → β → Prop} {l : List α} {l' : List β} (h : List.Forall₂ r l l')
    (φ : α → ℝ → ℝ) (ψ : β → ℝ) (t : ℝ) (hφ : ∀ a b, r a b → HasDerivAt (φ a) (ψ b) t) :
    HasDerivAt (fun s => (l.map fun a => φ a s).sum) (l'.map ψ).sum t := by
  induction h with
  | nil => simpa using hasDerivAt_const t (0 : ℝ)
  | cons h1 _ ih =>
    simp only [List.map_cons, List.sum_cons]
    exact (hφ _ _ h1).add ih

theorem forall₂_mem_both {α β : Type*} {r : α → β → Prop} {l : List α} {l' : List β} (h : List.Forall₂ r l l') :
    List.Forall₂ (fun a b => (a ∈ l ∧ b ∈ l') ∧ r a b) l l' := by
  induction h with
  | nil => exact .nil
  | cons h1 _ ih =>
    exact .cons ⟨⟨List.mem_cons_self, List.mem_cons_self⟩, h1⟩
      (ih.imp fun a b h => ⟨⟨List.mem_cons_of_mem _ h.1.1, List.mem_cons_of_mem _ h.1.2⟩, h.2⟩)

theorem list_sum_neg {α : Type*} (l : List α) (f : α → ℝ) : (l.map fun x => - f x).sum = - (l.map f).sum := by
  induction l with
  | nil => simp
  | cons x l ih => simp only [List.map_cons, List.sum_cons, ih]; ring

/-- **C131, the part that holds.**  For every mesh of elastic blocks, the matrix the code assembles in the
undeformed state is the derivative of the residual (minus the internal force) there: along every
displacement `v` the internal force is defined near the undeformed state and its derivative is minus the
matrix times `v`.  Missing, and false (`tangent_not_derivative`): the same in deformed states. -/
theorem tangent_is_derivative_partial (val : ℝ) (X : ℕ → ℝ) (blocks : List (Blk ℝ × List ℕ)) (mat : Blk ℝ → Material ℝ)
    (hlaw : ∀ b ∈ blocks, b.1.law = fun F => some (elasticStress (mat b.1) F))
    (elems : List (List ℕ × (ℕ → ℕ → ℝ))) (hel : Stiffnesses val X (fun _ => 0) mat (elements blocks) elems)
    (nodeIds : List ℕ) (hnd : nodeIds.Nodup) (hne : nodeIds ≠ []) (cb : List Connectivity) (hm : MeshWellPosed nodeIds cb)
    (hu : EveryIdUsed nodeIds cb) (hcb : elems.map Prod.fst = cb.flatten)
    (pairs : List (ℕ × ℕ)) (hs : nonzeroStructure nodeIds 3 cb = some pairs) (A₀ A : Crs ℝ) (h₀ : HasPattern A₀ pairs)
    (hz : ∀ a b w, A₀.at? a b = some w → w = 0) (hA : assembleTangent nodeIds 3 elems A₀ = some A) (v : ℕ → ℝ) :
    (∀ᶠ t in nhds (0 : ℝ), ∃ F, computeInternalForce val X (fun k => t * v k) blocks = some F) ∧
    ∀ n < nodeIds.length, ∀ d : Fin 3,
      HasDerivAt (fun t => force val X (fun k => t * v k) blocks n d)
        (- ∑ n' ∈ Finset.range nodeIds.length, ∑ g : Fin 3,
          entry A (nodeIds.getD n 0 * 3 + d) (nodeIds.getD n' 0 * 3 + g) * v (3 * n' + g)) 0 := by
  have hmemb : ∀ x ∈ elems, ∃ b ∈ cb, x.1 ∈ b := by
    intro x hx
    exact List.mem_flatten.mp (hcb ▸ List.mem_map_of_mem hx)
  have hmemE : ∀ be ∈ elements blocks, be.1.law = fun F => some (elasticStress (mat be.1) F) := by
    intro be hbe
    obtain ⟨b, hb, h, he⟩ := mem_elements.mp hbe
    rw [← h]; exact hlaw b hb
  have hel' := forall₂_mem_both hel
  have hstep : ∀ be x, ((be ∈ elements blocks ∧ x ∈ elems) ∧ x.1 = elemNodes be.1 be.2 ∧ ∃ out,
      computeTangent val (gather be.1 be.2 fun k => X k + 0) (getTangent (mat be.1) 8 out) = some x.2) →
      ∃ out, computeTangent val (gather be.1 be.2 X) (getTangent (mat be.1) 8 out) = some x.2 := by
    rintro be x ⟨_, _, out, h⟩
    exact ⟨out, by simpa only [add_zero] using h⟩
  have hall : ∀ᶠ t in nhds (0 : ℝ), ∀ be ∈ elements blocks, ∃ f, elementForce val be.1 X (fun k => t * v k) be.2 = some f := by
    refine forall₂_eventually hel' fun be x h => ?_
    obtain ⟨out, hx⟩ := hstep be x h
    exact (element_force_deriv val be.1 (mat be.1) (hmemE be h.1.1) X v out be.2 x.2 hx).1
  have hev : ∀ᶠ t in nhds (0 : ℝ), ∃ F, computeInternalForce val X (fun k => t * v k) blocks = some F := by
    filter_upwards [hall] with t ht
    refine (internal_force_defined val X _ blocks).mpr fun b hb e he => ?_
    exact ht (b.1, e) (mem_elements.mpr ⟨b, hb, rfl, he⟩)
  refine ⟨hev, fun n hn d => ?_⟩
  have hsum : (fun t => force val X (fun k => t * v k) blocks n d) =ᶠ[nhds (0 : ℝ)] fun t =>
      ((elements blocks).map fun be => ∑ c ∈ Finset.range 8, if be.1.nodeId be.2 c = n then
        (elementForce val be.1 X (fun k => t * v k) be.2).elim 0 (fun f => f c d) else 0).sum := by
    filter_upwards [hev, hall] with t ht hd
    obtain ⟨F, hF⟩ := ht
    unfold force
    rw [hF, Option.elim_some, internal_force_elements val X _ F blocks hF n d]
    refine congrArg List.sum (List.map_congr_left fun be hbe => ?_)
    obtain ⟨f, hf⟩ := hd be hbe
    simp only [hf, Option.elim_some]
  refine HasDerivAt.congr_of_eventuallyEq ?_ hsum
  have hder := forall₂_deriv hel' (fun be t => ∑ c ∈ Finset.range 8, if be.1.nodeId be.2 c = n then
        (elementForce val be.1 X (fun k => t * v k) be.2).elim 0 (fun f => f c d) else 0)
    (fun x => - ∑ n' ∈ Finset.range nodeIds.length, ∑ g : Fin 3,
      Solver.contribution nodeIds 3 x.1 x.2 (nodeIds.getD n 0 * 3 + d) (nodeIds.getD n' 0 * 3 + g) * v (3 * n' + g)) 0 ?_
  · refine HasDerivAt.congr_deriv hder ?_
    rw [Finset.sum_congr rfl fun n' _ => Finset.sum_congr rfl fun g _ => by
      rw [assembled_entry hne hm hu hmemb hs h₀ hz hA, ← one_mul (List.sum _), list_mul_sum]]
    have hg : ∀ n', ∑ g : Fin 3, (elems.map fun x => 1 * Solver.contribution nodeIds 3 x.1 x.2 (nodeIds.getD n 0 * 3 + d)
          (nodeIds.getD n' 0 * 3 + g) * v (3 * n' + g)).sum
        = (elems.map fun x => ∑ g : Fin 3, Solver.contribution nodeIds 3 x.1 x.2 (nodeIds.getD n 0 * 3 + d)
          (nodeIds.getD n' 0 * 3 + g) * v (3 * n' + g)).sum := by
      intro n'
      simp only [one_mul, Fin.sum_univ_three, ← List.sum_map_add]
    rw [Finset.sum_congr rfl fun n' _ => hg n', sum_map_list, list_sum_neg]
  · intro be x h
    obtain ⟨out, hx⟩ := hstep be x h
    have hlt : ∀ r < 8, be.1.nodeId be.2 r < nodeIds.length := by
      intro r hr
      have hxe : x ∈ elems := h.1.2
      obtain ⟨bl, hbl, hxb⟩ := hmemb x hxe
      obtain ⟨g, hg, _⟩ := hm bl hbl x.1 hxb (be.1.nodeId be.2 r) (by
        rw [h.2.1]; exact List.mem_map_of_mem (List.mem_range.mpr hr))
      exact (List.getElem?_eq_some_iff.mp hg).1
    rw [h.2.1, contribution_product hnd be.1 be.2 hlt x.2 v hn d, ← Finset.sum_neg_distrib]
    refine HasDerivAt.fun_sum fun c hc => ?_
    by_cases h1 : be.1.nodeId be.2 c = n
    · simp only [if_pos h1]
      exact (element_force_deriv val be.1 (mat be.1) (hmemE be h.1.1) X v out be.2 x.2 hx).2 ⟨c, Finset.mem_range.mp hc⟩ d
    · simp only [if_neg h1, neg_zero]
      exact hasDerivAt_const _ _

/-! ## Stressed states -/

/-- Displacements rotating the cube stretched by `a` along the first axis: `W x`, `x` the current
positions, `W` the rotation generator in the plane of the first two axes. -/
noncomputable def spin (X : Nodal ℝ) (a : ℝ) : ℕ → ℝ := flat fun n d => if d = 0 then X n 1 else if d = 1 then - a * X n 0 else 0

/-- The stretched cube, turned. -/
noncomputable def turned (X : Nodal ℝ) (a t : ℝ) : ℕ → ℝ := fun k => boxU X a 1 k + t * spin X a k

/-- Deformation of the stretched cube after the displacement `t W x`. -/
def spun (a t : ℝ) : Matrix (Fin 3) (Fin 3) ℝ := !![a, t, 0; -(t * a), 1, 0; 0, 0, 1]

theorem spun_moved (m : Material ℝ) (X : Nodal ℝ) (a t : ℝ) :
    Moved (cubeBlk m) (cubeBlk m) 0 0 (flat X) (fun k => flat X k + turned X a t k) (spun a t) 0 := by
  intro n hn d
  simp only [turned, spin, boxU, flat_apply]
  fin_cases d
  · simp [Fin.sum_univ_three, spun]; ring
  · simp [Fin.sum_univ_three, spun]; ring
  · simp [Fin.sum_univ_three, spun]

theorem spun_det (a t : ℝ) : (spun a t).det = a * (1 + t ^ 2) := by
  simp [spun, Matrix.det_fin_three]; ring

/-- The forces of the stretched and turned cube, and their virtual work. -/
theorem spun_work (val : ℝ) (m : Material ℝ) (X : Nodal ℝ) (hX : IsCube X 1) (a t : ℝ) (ha : 0 < a) :
    ∃ F, computeInternalForce val (flat X) (turned X a t) [(cubeBlk m, [0])] = some F ∧
      ∀ G : Matrix (Fin 3) (Fin 3) ℝ, ∑ d : Fin 3, ∑ n ∈ Finset.range 8,
        (∑ k : Fin 3, G d k * (flat X (3 * n + k) + turned X a t (3 * n + k))) * F (3 * n + d)
        = - (a * (1 + t ^ 2) * ∑ d : Fin 3, ∑ e : Fin 3, hooke m.bulk m.shear (smallStrain (spun a t)) d e * G d e) := by
  have hJX : ∀ p, Jac val (gather (cubeBlk m) 0 (flat X)) p = Matrix.diagonal fun _ => 1 / 2 :=
    fun p => Jac_box val _ _ _ (cube_reference m _ 1 hX) p
  have hmv := spun_moved m X a t
  have hJx : ∀ p, Jac val (gather (cubeBlk m) 0 fun k => flat X k + turned X a t k) p
      = spun a t * Matrix.diagonal fun _ => 1 / 2 := by
    intro p; rw [moved_jac val hmv p, hJX]
  have hdetx : ∀ p, (Jac val (gather (cubeBlk m) 0 fun k => flat X k + turned X a t k) p).det = a * (1 + t ^ 2) / 8 := by
    intro p; rw [hJx, Matrix.det_mul, spun_det]; simp [Matrix.det_diagonal]; ring
  obtain ⟨f, hf⟩ := elementForce_defined val (cubeBlk m) (flat X) (turned X a t) 0 (fun F => ⟨_, rfl⟩)
    (fun p => by rw [hJX]; simp [Matrix.det_diagonal]) (fun p => by rw [hdetx]; positivity)
  obtain ⟨F, hF⟩ := (internal_force_defined val (flat X) (turned X a t) [(cubeBlk m, [0])]).mpr (by
    intro c hc e he
    rw [List.mem_singleton] at hc
    subst hc
    rw [List.mem_singleton] at he
    subst he
    exact ⟨f, hf⟩)
  refine ⟨F, hF, fun G => ?_⟩
  have hmesh : InMesh 8 [(cubeBlk m, [0])] := cube_inMesh m
  simp only [fun d : Fin 3 => internal_force_work val (flat X) (turned X a t) F _ 8 hmesh hF
      (fun n => ∑ k : Fin 3, G d k * (flat X (3 * n + k) + turned X a t (3 * n + k))) d,
    List.map_cons, List.map_nil, List.sum_cons, List.sum_nil, add_zero, hf, Option.elim_some]
  unfold elementForce at hf
  simp only [Option.bind_eq_bind, Option.bind_eq_some_iff] at hf
  obtain ⟨H, hH, σ, hσ, hf⟩ := hf
  have hGa : ∀ p : Fin 8, fullMat (fun i : Fin 9 => H (9 * p + i)) = spun a t := by
    intro p
    have h1 := computeDeformationGradients_val val _ _ H hH p
    rw [hJx, hJX] at h1
    have hunit : IsUnit (Matrix.diagonal fun _ : Fin 3 => (1 / 2 : ℝ)) := by
      rw [Matrix.isUnit_iff_isUnit_det]; simp [Matrix.det_diagonal]
    exact hunit.mul_right_cancel h1
  have hσp : ∀ p : Fin 8, symMat (fun k : Fin 6 => σ (6 * p + k)) = hooke m.bulk m.shear (smallStrain (spun a t)) := by
    intro p
    obtain ⟨sig, hs, hv⟩ := (pointLoop_val _ 8 H _ σ hσ).1 p p.isLt
    have e1 : (fun k : Fin 6 => σ (6 * p + k)) = elasticStress m (fun i : Fin 9 => H (9 * p + i.val)) := by
      funext k; rw [hv, ← Option.some.inj hs]
    rw [e1, elastic_stress_spec, hGa p]
  have hwork := nodal_forces_virtual_work val _ σ f hf G 0
  have hL : ∑ d : Fin 3, ∑ n ∈ Finset.range 8, (∑ k : Fin 3, G d k * (flat X (3 * (cubeBlk m).nodeId 0 n + k) +
        turned X a t (3 * (cubeBlk m).nodeId 0 n + k))) * f n d
      = ∑ n ∈ Finset.range 8, ∑ d : Fin 3, f n d * ((∑ k : Fin 3, G d k *
        gather (cubeBlk m) 0 (fun k => flat X k + turned X a t k) (3 * n + k)) + (0 : Fin 3 → ℝ) d) := by
    rw [Finset.sum_comm]
    apply Finset.sum_congr rfl; intro n hn
    apply Finset.sum_congr rfl; intro d _
    simp only [gather_val _ _ _ (Finset.mem_range.mp hn), Pi.zero_apply, add_zero]
    ring
  rw [hL, hwork]
  simp only [hσp, hdetx]
  rw [Finset.sum_const, Finset.card_univ, Fintype.card_fin]
  simp only [nsmul_eq_mul]
  push_cast
  ring

/-- **C131 fails in stressed states.**  An elastic cube of any positive moduli, stretched by any factor
other than one: turned a little, its forces turn with it, but the matrix the solver uses predicts that they
do not change.  `T` is the tangent the code computes for the stretched cube; the forces exist for all `t`. -/
theorem tangent_not_derivative (val : ℝ) (m : Material ℝ) (hk : 0 < m.bulk) (hg : 0 < m.shear) (X : Nodal ℝ)
    (hX : IsCube X 1) (a : ℝ) (ha : 0 < a) (ha1 : a ≠ 1) (out : ℕ → ℝ) :
    ∃ T, computeTangent val (gather (cubeBlk m) 0 fun k => flat X k + boxU X a 1 k) (getTangent m 8 out) = some T ∧
      (∀ t, ∃ F, computeInternalForce val (flat X) (fun k => boxU X a 1 k + t * spin X a k) [(cubeBlk m, [0])] = some F) ∧
      ¬ ∀ n < 8, ∀ d : Fin 3,
        HasDerivAt (fun t => force val (flat X) (fun k => boxU X a 1 k + t * spin X a k) [(cubeBlk m, [0])] n d)
          (- ∑ j : Fin 8, ∑ g : Fin 3, T (3 * n + d) (3 * j + g) * spin X a (3 * j + g)) 0 := by
  have h0 : ∀ k, turned X a 0 k = boxU X a 1 k := fun k => by simp [turned]
  have hpos : ∀ p : Fin 8, 0 < (Jac val (gather (cubeBlk m) 0 fun k => flat X k + boxU X a 1 k) p).det := by
    intro p
    have hJX : Jac val (gather (cubeBlk m) 0 (flat X)) p = Matrix.diagonal fun _ => 1 / 2 :=
      Jac_box val _ _ _ (cube_reference m _ 1 hX) p
    have := moved_jac val (spun_moved m X a 0) p
    simp only [h0] at this
    rw [this, Matrix.det_mul, spun_det, hJX]
    simp [Matrix.det_diagonal]
    positivity
  obtain ⟨T, hT⟩ := (tangent_defined val _ (getTangent m 8 out)).mpr hpos
  refine ⟨T, hT, fun t => ?_, fun hD => ?_⟩
  · obtain ⟨F, hF, _⟩ := spun_work val m X hX a t ha
    exact ⟨F, hF⟩
  choose F hF hW using fun t => spun_work val m X hX a t ha
  have hforce : ∀ t n d, force val (flat X) (fun k => boxU X a 1 k + t * spin X a k) [(cubeBlk m, [0])] n d = F t (3 * n + d) := by
    intro t n d
    have : computeInternalForce val (flat X) (fun k => boxU X a 1 k + t * spin X a k) [(cubeBlk m, [0])] = some (F t) := hF t
    simp only [force, this, Option.elim_some]
  simp only [hforce] at hD
  have hzero : ∀ n < 8, ∀ d : Fin 3, ∑ j : Fin 8, ∑ g : Fin 3, T (3 * n + d) (3 * j + g) * spin X a (3 * j + g) = 0 := by
    intro n hn d
    have h := tangent_rigid_motion val _ _ T hT !![0, 1, 0; -1, 0, 0; 0, 0, 0] (by
      ext i j; fin_cases i <;> fin_cases j <;> simp) 0 (3 * n + d) (by have := d.isLt; omega)
    rw [Finset.sum_range] at h
    rw [← h]
    refine Finset.sum_congr rfl fun j _ => Finset.sum_congr rfl fun g _ => ?_
    congr 1
    simp only [gather_val _ _ _ j.isLt, spin, boxU, flat_apply]
    have hid : (cubeBlk m).nodeId 0 j = j := by simp [Blk.nodeId, cubeBlk]
    fin_cases g
    · simp [Fin.sum_univ_three, hid]
    · simp [Fin.sum_univ_three, hid]; ring
    · simp [Fin.sum_univ_three]
  have hD0 : ∀ n < 8, ∀ d : Fin 3, HasDerivAt (fun t => F t (3 * n + d)) 0 0 := by
    intro n hn d
    have := hD n hn d
    rwa [hzero n hn d, neg_zero] at this
  have e1 : ∀ n (k : Fin 3), flat X (3 * n + k) = X n k := fun n k => flat_apply X n k
  have e0 : ∀ n, boxU X a 1 (3 * n + (0 : Fin 3)) = (a - 1) * X n 0 := fun n => by
    rw [boxU, flat_apply]; simp
  have e2 : ∀ n, boxU X a 1 (3 * n + (1 : Fin 3)) = 0 := fun n => by
    rw [boxU, flat_apply]; simp
  have e3 : ∀ n, spin X a (3 * n + (1 : Fin 3)) = - a * X n 0 := fun n => by
    rw [spin, flat_apply]; simp
  have hx : ∀ t, ∑ n ∈ Finset.range 8, (X n 1 + t * (- a * X n 0)) * F t (3 * n + (0 : Fin 3))
      = - (a * (1 + t ^ 2) * (m.shear * (t * (1 - a)))) := by
    intro t
    have h := hW t (fun i j => if i = 0 ∧ j = 1 then 1 else 0)
    have hl : ∀ d : Fin 3, ∑ n ∈ Finset.range 8, (∑ k : Fin 3, (if d = 0 ∧ k = 1 then (1 : ℝ) else 0) *
        (flat X (3 * n + k) + turned X a t (3 * n + k))) * F t (3 * n + d)
        = if d = 0 then ∑ n ∈ Finset.range 8, (X n 1 + t * (- a * X n 0)) * F t (3 * n + (0 : Fin 3)) else 0 := by
      intro d
      by_cases hd : d = 0
      · subst hd
        rw [if_pos rfl]
        apply Finset.sum_congr rfl; intro n _
        rw [Finset.sum_eq_single_of_mem (1 : Fin 3) (Finset.mem_univ _)]
        · rw [if_pos ⟨rfl, rfl⟩, one_mul, e1, turned, e2, e3, zero_add]; rfl
        · intro k _ hk'
          rw [if_neg (fun h => hk' h.2), zero_mul]
      · rw [if_neg hd]
        refine Finset.sum_eq_zero fun n _ => ?_
        rw [Finset.sum_eq_zero fun k _ => by rw [if_neg (fun h => hd h.1), zero_mul], zero_mul]
    rw [Finset.sum_congr rfl fun d _ => hl d, Finset.sum_ite_eq' Finset.univ (0 : Fin 3), if_pos (Finset.mem_univ _)] at h
    rw [h]
    simp [hooke, smallStrain, spun, Fin.sum_univ_three]
    left; ring
  have hxx : ∑ n ∈ Finset.range 8, (a * X n 0) * F 0 (3 * n + (0 : Fin 3))
      = - (a * ((m.bulk + 4 / 3 * m.shear) * (a - 1))) := by
    have h := hW 0 (fun i j => if i = 0 ∧ j = 0 then 1 else 0)
    have hl : ∀ d : Fin 3, ∑ n ∈ Finset.range 8, (∑ k : Fin 3, (if d = 0 ∧ k = 0 then (1 : ℝ) else 0) *
        (flat X (3 * n + k) + turned X a 0 (3 * n + k))) * F 0 (3 * n + d)
        = if d = 0 then ∑ n ∈ Finset.range 8, (a * X n 0) * F 0 (3 * n + (0 : Fin 3)) else 0 := by
      intro d
      by_cases hd : d = 0
      · subst hd
        rw [if_pos rfl]
        apply Finset.sum_congr rfl; intro n _
        rw [Finset.sum_eq_single_of_mem (0 : Fin 3) (Finset.mem_univ _)]
        · rw [if_pos ⟨rfl, rfl⟩, one_mul, e1, h0, e0, Fin.val_zero]; ring
        · intro k _ hk'
          rw [if_neg (fun h => hk' h.2), zero_mul]
      · rw [if_neg hd]
        refine Finset.sum_eq_zero fun n _ => ?_
        rw [Finset.sum_eq_zero fun k _ => by rw [if_neg (fun h => hd h.1), zero_mul], zero_mul]
    rw [Finset.sum_congr rfl fun d _ => hl d, Finset.sum_ite_eq' Finset.univ (0 : Fin 3), if_pos (Finset.mem_univ _)] at h
    rw [h]
    simp [hooke, smallStrain, spun, Fin.sum_univ_three, Matrix.trace]
    left; ring
  have hd1 : HasDerivAt (fun t => ∑ n ∈ Finset.range 8, (X n 1 + t * (- a * X n 0)) * F t (3 * n + (0 : Fin 3)))
      (∑ n ∈ Finset.range 8, (- a * X n 0) * F 0 (3 * n + (0 : Fin 3))) 0 := by
    refine HasDerivAt.fun_sum fun n hn => ?_
    have ha1 := ((hasDerivAt_id (0 : ℝ)).mul_const (- a * X n 0)).const_add (X n 1)
    refine HasDerivAt.congr_deriv (ha1.mul (hD0 n (Finset.mem_range.mp hn) 0)) ?_
    simp
  have hd2 : HasDerivAt (fun t : ℝ => - (a * (1 + t ^ 2) * (m.shear * (t * (1 - a))))) (- (a * (m.shear * (1 - a)))) 0 := by
    have hp := ((hasDerivAt_pow 2 (0 : ℝ)).const_add 1).const_mul a
    have hq := ((hasDerivAt_id (0 : ℝ)).mul_const (1 - a)).const_mul m.shear
    refine HasDerivAt.congr_deriv (hp.mul hq).neg ?_
    simp
  have heq : (fun t => ∑ n ∈ Finset.range 8, (X n 1 + t * (- a * X n 0)) * F t (3 * n + (0 : Fin 3)))
      = fun t : ℝ => - (a * (1 + t ^ 2) * (m.shear * (t * (1 - a)))) := funext hx
  rw [heq] at hd1
  have hu := hd1.unique hd2
  have hneg : ∑ n ∈ Finset.range 8, (- a * X n 0) * F 0 (3 * n + (0 : Fin 3))
      = - ∑ n ∈ Finset.range 8, (a * X n 0) * F 0 (3 * n + (0 : Fin 3)) := by
    rw [← Finset.sum_neg_distrib]
    exact Finset.sum_congr rfl fun n _ => by ring
  rw [hneg, hxx] at hu
  have hfin : a * (a - 1) * (m.bulk + m.shear / 3) = 0 := by linarith
  rcases mul_eq_zero.mp hfin with h | h
  · rcases mul_eq_zero.mp h with h | h
    · exact ha.ne' h
    · exact ha1 (sub_eq_zero.mp h)
  · have : 0 < m.bulk + m.shear / 3 := by positivity
    exact this.ne' h

/-! ## Cases -/

/-- The unit cube meets the hypotheses of `tangent_is_derivative_partial` (nodes numbered backwards in the
linear system), so that the statement can be used for it. -/
theorem cube_tangent (m : Material ℝ) (v : ℕ → ℝ) :
    ∃ (T : ℕ → ℕ → ℝ) (A : Crs ℝ), computeTangent (1 / 2) (gather (cubeBlk m) 0 (flat unitX)) (getTangent m 8 fun _ => 0) = some T ∧
      (∀ n < 8, ∀ d : Fin 3, HasDerivAt (fun t => force (1 / 2) (flat unitX) (fun k => t * v k) [(cubeBlk m, [0])] n d)
        (- ∑ n' ∈ Finset.range 8, ∑ g : Fin 3, entry A ((7 - n) * 3 + d) ((7 - n') * 3 + g) * v (3 * n' + g)) 0) := by
  have hpos : ∀ p : Fin 8, 0 < (Jac (1 / 2) (gather (cubeBlk m) 0 (flat unitX)) p).det := by
    intro p
    rw [Jac_box (1 / 2) _ _ _ (cube_reference m _ 1 unitX_cube) p]
    simp [Matrix.det_diagonal]
  obtain ⟨T, hT⟩ := (tangent_defined (1 / 2 : ℝ) _ (getTangent m 8 fun _ => 0)).mpr hpos
  have hnodes : elemNodes (cubeBlk m) 0 = [0, 1, 2, 3, 4, 5, 6, 7] := by
    simp [elemNodes, Blk.nodeId, cubeBlk, List.range_succ]
  have hwp : MeshWellPosed [7, 6, 5, 4, 3, 2, 1, 0] [[[0, 1, 2, 3, 4, 5, 6, 7]]] := by
    have : ∀ b ∈ [[[0, 1, 2, 3, 4, 5, 6, 7]]], ∀ e ∈ b, ∀ n ∈ e, [7, 6, 5, 4, 3, 2, 1, 0][n]? = some (7 - n) ∧ 7 - n < 8 := by
      decide
    exact fun b hb e he n hn => ⟨7 - n, this b hb e he n hn⟩
  have hus : EveryIdUsed [7, 6, 5, 4, 3, 2, 1, 0] [[[0, 1, 2, 3, 4, 5, 6, 7]]] := by
    intro g hg
    have hg' : g < 8 := hg
    have : ∀ g < 8, ∃ b ∈ [[[0, 1, 2, 3, 4, 5, 6, 7]]], ∃ e ∈ b, ∃ n ∈ e, [7, 6, 5, 4, 3, 2, 1, 0][n]? = some g := by decide
    exact this g hg'
  obtain ⟨pairs, hs⟩ := nonzeroStructure_defined [7, 6, 5, 4, 3, 2, 1, 0] 3 [[[0, 1, 2, 3, 4, 5, 6, 7]]] hwp
  obtain ⟨hadm, _, _⟩ := nonzeroStructure_admissible (K := ℝ) hs hus (by simp) (by norm_num)
  obtain ⟨h₀, hz⟩ := setAllValues_zero hadm (allocated_hasPattern (Crs.empty : Crs ℝ) pairs)
  obtain ⟨A, hA, _, _⟩ := assembleTangent_spec hs hus (by simp) (by norm_num) hwp
    [([0, 1, 2, 3, 4, 5, 6, 7], T)] (by simp) h₀
  obtain ⟨_, h⟩ := tangent_is_derivative_partial (1 / 2) (flat unitX) [(cubeBlk m, [0])] (fun _ => m)
    (by intro b hb; rw [List.mem_singleton] at hb; subst hb; rfl) [([0, 1, 2, 3, 4, 5, 6, 7], T)]
    (.cons ⟨hnodes.symm, fun _ => 0, by simpa only [add_zero] using hT⟩ .nil)
    [7, 6, 5, 4, 3, 2, 1, 0] (by decide) (by simp) [[[0, 1, 2, 3, 4, 5, 6, 7]]] hwp hus rfl pairs hs _ A h₀ hz hA v
  have hid : ∀ n < 8, ([7, 6, 5, 4, 3, 2, 1, 0] : List ℕ).getD n 0 = 7 - n := by decide
  refine ⟨T, A, hT, fun n hn d => ?_⟩
  refine HasDerivAt.congr_deriv (h n hn d) (congrArg Neg.neg ?_)
  refine Finset.sum_congr rfl fun n' hn' => Finset.sum_congr rfl fun g _ => ?_
  rw [hid n hn, hid n' (Finset.mem_range.mp hn')]

/-- Steel stretched by one per cent. -/
example : ∃ T, computeTangent (1 / 2) (gather (cubeBlk ⟨7800, 160, 80⟩) 0 fun k => flat unitX k + boxU unitX (101 / 100) 1 k)
      (getTangent ⟨7800, 160, 80⟩ 8 fun _ => 0) = some T ∧
    (∀ t, ∃ F, computeInternalForce (1 / 2) (flat unitX) (fun k => boxU unitX (101 / 100) 1 k + t * spin unitX (101 / 100) k)
      [(cubeBlk ⟨7800, 160, 80⟩, [0])] = some F) ∧
    ¬ ∀ n < 8, ∀ d : Fin 3, HasDerivAt (fun t => force (1 / 2) (flat unitX)
        (fun k => boxU unitX (101 / 100) 1 k + t * spin unitX (101 / 100) k) [(cubeBlk ⟨7800, 160, 80⟩, [0])] n d)
      (- ∑ j : Fin 8, ∑ g : Fin 3, T (3 * n + d) (3 * j + g) * spin unitX (101 / 100) (3 * j + g)) 0 :=
  tangent_not_derivative _ _ (by norm_num) (by norm_num) unitX unitX_cube _ (by norm_num) (by norm_num) _

end NimbleSM.Newton
