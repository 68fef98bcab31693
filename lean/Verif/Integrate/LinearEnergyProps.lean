import Verif.Integrate.LinearSuperProps

/-!
# C152: least energy and reciprocity

Accepted load steps of a linear quasistatic problem (src/integrators/quasistatic_time_integrator.cc:233-416) have the
least elastic energy of all displacements that satisfy the conditions, and the reactions of two of them are
reciprocal (Betti).
-/

namespace NimbleSM.Integrate

open NimbleSM.Bc NimbleSM.Solver

variable {K S : Type*} [Field K] [LinearOrder K] [IsStrictOrderedRing K]

/-! ## Specification -/

/-- The work of nodal forces `f` on displacements `w`. -/
def nodalWork (c : QConfig K) (f w : Nodal K) : K :=
  ∑ n ∈ Finset.range c.numNodes, ∑ i ∈ Finset.range c.dim, f n i * w n i

/-- The elastic energy of a displacement: half the work against the internal forces. -/
def deformationEnergy (c : QConfig K) (force : Nodal K → Nodal K) (u : Nodal K) : K :=
  -(nodalWork c (force u) u) / 2

open Classical in
/-- The reactions: the forces at the held degrees of freedom. -/
noncomputable def reaction (c : QConfig K) (f : Nodal K) : Nodal K :=
  fun n i => if Held c.manager n i then f n i else 0

/-- Two configurations of the same body; what is held and where may differ. -/
structure SameBody (c d : QConfig K) : Prop where
  dim : c.manager.dim = d.manager.dim
  ids : c.ids = d.ids

/-! ## Sums over nodes and over unknowns -/

theorem place_div (c : QConfig K) {n i : ℕ} (hn : n < c.numNodes) (hi : i < c.dim) :
    place c n i / c.dim = c.ids[n]'hn ∧ place c n i % c.dim = i := by
  have hn' : n < c.ids.length := hn
  unfold place
  rw [getD_lt _ hn', Nat.add_comm, Nat.add_mul_div_right _ _ (by omega), Nat.div_eq_of_lt hi, Nat.zero_add,
    Nat.add_mul_mod_self_right, Nat.mod_eq_of_lt hi]
  exact ⟨rfl, rfl⟩

/-- Summing over nodes and components is summing over the unknowns. -/
theorem sum_place (c : QConfig K) (hc : Contiguous c.ids) (f : ℕ → K) :
    ∑ n ∈ Finset.range c.numNodes, ∑ i ∈ Finset.range c.dim, f (place c n i)
      = ∑ a ∈ Finset.range c.unknowns, f a := by
  rw [← Finset.sum_product']
  apply Finset.sum_nbij fun q : ℕ × ℕ => place c q.1 q.2
  · intro q hq
    rw [Finset.mem_product, Finset.mem_range, Finset.mem_range] at hq
    exact Finset.mem_range.mpr (index_lt c hc hq.1 hq.2)
  · intro q hq q' hq' h
    rw [Finset.mem_coe, Finset.mem_product, Finset.mem_range, Finset.mem_range] at hq hq'
    obtain ⟨e1, e2⟩ := place_div c hq.1 hq.2
    obtain ⟨e3, e4⟩ := place_div c hq'.1 hq'.2
    have h' : place c q.1 q.2 = place c q'.1 q'.2 := h
    rw [h'] at e1 e2
    have h1 : c.ids[q.1]'hq.1 = c.ids[q'.1]'hq'.1 := e1.symm.trans e3
    exact Prod.ext ((hc.1.getElem_inj_iff).mp h1) (e2.symm.trans e4)
  · intro a ha
    obtain ⟨n, hn, i, hi, rfl⟩ := place_surj c hc (Finset.mem_range.mp (Finset.mem_coe.mp ha))
    exact ⟨(n, i), by simp [hn, hi], rfl⟩
  · intro q _
    rfl

/-- The displacement as a vector of unknowns. -/
def asVector (c : QConfig K) (u : Nodal K) (a : ℕ) : K := u (c.ids.idxOf (a / c.dim)) (a % c.dim)

theorem asVector_place (c : QConfig K) (hc : Contiguous c.ids) (u : Nodal K) {n i : ℕ} (hn : n < c.numNodes)
    (hi : i < c.dim) : asVector c u (place c n i) = u n i := by
  obtain ⟨e1, e2⟩ := place_div c hn hi
  unfold asVector
  rw [e1, e2, hc.1.idxOf_getElem n hn]

/-- The forces of a linear problem that is balanced at rest. -/
theorem linear_force_eq (c : QConfig K) (hc : Consistent c) (p : QPhysics K S) {A : Crs K}
    {force : Nodal K → Nodal K} (hl : LinearProblem c p A force)
    (hrest : ∀ n < c.numNodes, ∀ i < c.dim, force (fun _ _ => 0) n i = 0) (v : Nodal K) :
    ∀ n < c.numNodes, ∀ i < c.dim, force v n i
      = -∑ b ∈ Finset.range c.unknowns, entry A (place c n i) b * asVector c v b := by
  intro n hn i hi
  have := hl.affine (fun _ _ => 0) v (fun b => -asVector c v b)
    (fun n hn i hi => by rw [asVector_place c hc.ids v hn hi]; ring) n hn i hi
  rw [this, hrest n hn i hi, zero_add, ← Finset.sum_neg_distrib]
  exact Finset.sum_congr rfl fun b _ => by ring

/-- The work of the internal forces is a bilinear form. -/
theorem nodalWork_eq (c : QConfig K) (hc : Consistent c) (p : QPhysics K S) {A : Crs K}
    {force : Nodal K → Nodal K} (hl : LinearProblem c p A force)
    (hrest : ∀ n < c.numNodes, ∀ i < c.dim, force (fun _ _ => 0) n i = 0) (u w : Nodal K) :
    nodalWork c (force u) w = -∑ a ∈ Finset.range c.unknowns, ∑ b ∈ Finset.range c.unknowns,
      asVector c w a * entry A a b * asVector c u b := by
  rw [← sum_place c hc.ids, ← Finset.sum_neg_distrib]
  refine Finset.sum_congr rfl fun n hn => ?_
  rw [← Finset.sum_neg_distrib]
  refine Finset.sum_congr rfl fun i hi => ?_
  rw [Finset.mem_range] at hn hi
  rw [linear_force_eq c hc p hl hrest u n hn i hi, asVector_place c hc.ids w hn hi, neg_mul, Finset.sum_mul]
  congr 1
  exact Finset.sum_congr rfl fun b _ => by ring

/-- The elastic energy does not depend on whether the work of `u` on `w` or of `w` on `u` is taken. -/
theorem nodalWork_symm (c : QConfig K) (hc : Consistent c) (p : QPhysics K S) {A : Crs K}
    {force : Nodal K → Nodal K} (hl : LinearProblem c p A force)
    (hsymm : ∀ a < c.unknowns, ∀ b < c.unknowns, entry A a b = entry A b a)
    (hrest : ∀ n < c.numNodes, ∀ i < c.dim, force (fun _ _ => 0) n i = 0) (u w : Nodal K) :
    nodalWork c (force u) w = nodalWork c (force w) u := by
  rw [nodalWork_eq c hc p hl hrest, nodalWork_eq c hc p hl hrest]
  congr 1
  rw [Finset.sum_comm]
  refine Finset.sum_congr rfl fun b hb => Finset.sum_congr rfl fun a ha => ?_
  rw [hsymm a (Finset.mem_range.mp ha) b (Finset.mem_range.mp hb)]
  ring

/-- In equilibrium the forces are the reactions. -/
theorem work_of_reactions (c : QConfig K) {force : Nodal K → Nodal K} {u : Nodal K}
    (h : Equilibrium c force u) (w : Nodal K) :
    nodalWork c (reaction c (force u)) w = nodalWork c (force u) w := by
  classical
  refine Finset.sum_congr rfl fun n hn => Finset.sum_congr rfl fun i hi => ?_
  rw [Finset.mem_range] at hn hi
  unfold reaction
  split_ifs with hh
  · rfl
  · rw [h n hn i hi hh]

/-! ## Least energy -/

/-- **C152 (a)**.  Of all displacements that agree with an equilibrium at the held degrees of freedom, the
equilibrium has the least elastic energy, and every other one has more. -/
theorem equilibrium_least_energy (c : QConfig K) (hc : Consistent c) (p : QPhysics K S) {A : Crs K}
    {force : Nodal K → Nodal K} (hl : LinearProblem c p A force) (hP : FreeSPD c A)
    (hrest : ∀ n < c.numNodes, ∀ i < c.dim, force (fun _ _ => 0) n i = 0) (u w : Nodal K)
    (h : Equilibrium c force u) (hheld : ∀ n i, Held c.manager n i → w n i = u n i) :
    deformationEnergy c force u ≤ deformationEnergy c force w ∧
      ((∃ n < c.numNodes, ∃ i < c.dim, w n i ≠ u n i) → deformationEnergy c force u < deformationEnergy c force w) := by
  set d : ℕ → K := fun a => asVector c w a - asVector c u a with hd
  set Q : (ℕ → K) → K := fun v => ∑ a ∈ Finset.range c.unknowns, v a * ∑ b ∈ Finset.range c.unknowns, entry A a b * v b
    with hQ
  have hdz : ∀ n < c.numNodes, ∀ i < c.dim, Held c.manager n i → d (place c n i) = 0 := by
    intro n hn i hi hh
    rw [hd]
    simp only
    rw [asVector_place c hc.ids w hn hi, asVector_place c hc.ids u hn hi, hheld n i hh, sub_self]
  have hcross : nodalWork c (force u) w = nodalWork c (force u) u := by
    refine Finset.sum_congr rfl fun n hn => Finset.sum_congr rfl fun i hi => ?_
    rw [Finset.mem_range] at hn hi
    by_cases hh : Held c.manager n i
    · rw [hheld n i hh]
    · rw [h n hn i hi hh, zero_mul, zero_mul]
  have hbil : ∀ x y : Nodal K, nodalWork c (force x) y = -∑ a ∈ Finset.range c.unknowns,
      ∑ b ∈ Finset.range c.unknowns, asVector c y a * entry A a b * asVector c x b :=
    nodalWork_eq c hc p hl hrest
  have hdiff : Q d = nodalWork c (force u) w + nodalWork c (force w) u - nodalWork c (force w) w
      - nodalWork c (force u) u := by
    rw [hbil, hbil, hbil, hbil, hQ]
    simp only [Finset.mul_sum, hd]
    rw [sub_neg_eq_add, sub_neg_eq_add, ← Finset.sum_neg_distrib, ← Finset.sum_neg_distrib, ← Finset.sum_add_distrib,
      ← Finset.sum_add_distrib, ← Finset.sum_add_distrib]
    refine Finset.sum_congr rfl fun a _ => ?_
    rw [← Finset.sum_neg_distrib, ← Finset.sum_neg_distrib, ← Finset.sum_add_distrib, ← Finset.sum_add_distrib,
      ← Finset.sum_add_distrib]
    exact Finset.sum_congr rfl fun b _ => by ring
  have henergy : deformationEnergy c force w - deformationEnergy c force u = Q d / 2 := by
    unfold deformationEnergy
    rw [hdiff, nodalWork_symm c hc p hl hP.symm hrest w u, hcross]
    ring
  have hpos : (∃ a < c.unknowns, d a ≠ 0) → 0 < Q d := hP.pos d hdz
  have hnn : 0 ≤ Q d := by
    by_cases hex : ∃ a < c.unknowns, d a ≠ 0
    · exact (hpos hex).le
    · push Not at hex
      rw [hQ]
      simp only
      rw [Finset.sum_eq_zero fun a ha => by rw [hex a (Finset.mem_range.mp ha), zero_mul]]
  constructor
  · linarith
  · rintro ⟨n, hn, i, hi, hne⟩
    have := hpos ⟨place c n i, index_lt c hc.ids hn hi, by
      rw [hd]
      simp only
      rw [asVector_place c hc.ids w hn hi, asVector_place c hc.ids u hn hi]
      exact sub_ne_zero.mpr hne⟩
    linarith

/-- **C152 (b)**.  An accepted load step of a linear problem (exact linear solver, a convergence test that sees
every unknown) ends with the displacement of least elastic energy. -/
theorem linear_step_least_energy_partial (c : QConfig K) (p : QPhysics K S) {pairs : List (ℕ × ℕ)} {A : Crs K}
    {force : Nodal K → Nodal K} {lo hi : K} (hr : LinearRun c p pairs A force lo hi) (hcg : c.cgTol = 0)
    (hrel : c.relTol < 1) (hsees : SeesAll c) (hrest : ∀ n < c.numNodes, ∀ i < c.dim, force (fun _ _ => 0) n i = 0)
    (k : ℕ) (s s' : QSim K S) (h : loadStep c p k s = .ok s') (w : Nodal K)
    (hheld : ∀ n i, Held c.manager n i → w n i = s'.displacement n i) :
    deformationEnergy c force s'.displacement ≤ deformationEnergy c force w ∧
      ((∃ n < c.numNodes, ∃ i < c.dim, w n i ≠ s'.displacement n i) →
        deformationEnergy c force s'.displacement < deformationEnergy c force w) :=
  equilibrium_least_energy c hr.consistent p hr.linear hr.spd hrest _ w
    (linear_step_equilibrium_partial c p hr hcg hrel hsees k s s' h) hheld

/-! ## Reciprocity -/

/-- **C152 (c)**, Betti.  Two accepted load steps of the same body, held at any degrees of freedom in any positions:
the work of the reactions of the first on the displacements of the second is the work of the reactions of the second
on the displacements of the first. -/
theorem linear_step_reciprocity_partial (c d : QConfig K) (hcd : SameBody c d) (p p' : QPhysics K S)
    {pairs pairs' : List (ℕ × ℕ)} {A : Crs K} {force : Nodal K → Nodal K} {lo hi lo' hi' : K}
    (hc : LinearRun c p pairs A force lo hi) (hd : LinearRun d p' pairs' A force lo' hi')
    (hcg : c.cgTol = 0 ∧ d.cgTol = 0) (hrel : c.relTol < 1 ∧ d.relTol < 1) (hsees : SeesAll c ∧ SeesAll d)
    (hrest : ∀ n < c.numNodes, ∀ i < c.dim, force (fun _ _ => 0) n i = 0) (k j : ℕ) (s s' t t' : QSim K S)
    (hs : loadStep c p k s = .ok s') (ht : loadStep d p' j t = .ok t') :
    nodalWork c (reaction c (force s'.displacement)) t'.displacement
      = nodalWork d (reaction d (force t'.displacement)) s'.displacement := by
  rw [work_of_reactions c (linear_step_equilibrium_partial c p hc hcg.1 hrel.1 hsees.1 k s s' hs),
    work_of_reactions d (linear_step_equilibrium_partial d p' hd hcg.2 hrel.2 hsees.2 j t t' ht),
    nodalWork_symm c hc.consistent p hc.linear hc.spd.symm hrest]
  unfold nodalWork QConfig.numNodes QConfig.dim
  rw [hcd.dim, hcd.ids]

/-! ## Concrete cases -/

/-- Non-vacuity: the pulled spring of `springPulled`, in 1 and in 5 load steps. -/
example : ∃ t₁ t₂, qIntegrate (springPulled 1 5) springPhysics 0 = .finished t₁ ∧
    qIntegrate (springPulled 5 2) springPhysics 0 = .finished t₂ ∧
    nodalWork (springPulled 1 5) (reaction (springPulled 1 5) (springForce t₁.displacement)) t₂.displacement
      = nodalWork (springPulled 5 2) (reaction (springPulled 5 2) (springForce t₂.displacement)) t₁.displacement ∧
    deformationEnergy (springPulled 1 5) springForce t₁.displacement
      < deformationEnergy (springPulled 1 5) springForce (setAt t₁.displacement 1 0 (t₁.displacement 1 0 + 1)) := by
  obtain ⟨t₁, h₁⟩ := springPulled_finishes 1 5
  obtain ⟨t₂, h₂⟩ := springPulled_finishes 5 2
  have hs : ∀ n a, SeesAll (springPulled n a) := fun n a =>
    seesAll_of_dim_one _ springR_consistent.ids.1 rfl springR_run.sqrt
  have hrel : ∀ n a, (springPulled n a).relTol < 1 := fun n a => by norm_num [springPulled, springR]
  have hrest : ∀ n < (springPulled 1 5).numNodes, ∀ i < (springPulled 1 5).dim,
      springForce (fun _ _ => 0) n i = 0 := by intro n _ i _; simp [springForce]
  obtain ⟨k₁, u₁, e₁⟩ := finished_last_step _ _ _ _ (by simp [springPulled]) h₁
  obtain ⟨k₂, u₂, e₂⟩ := finished_last_step _ _ _ _ (by simp [springPulled]) h₂
  refine ⟨t₁, t₂, h₁, h₂, ?_, ?_⟩
  · exact linear_step_reciprocity_partial (springPulled 1 5) (springPulled 5 2) ⟨rfl, rfl⟩ springPhysics springPhysics
      (springPulled_run 1 5) (springPulled_run 5 2) ⟨rfl, rfl⟩
      ⟨hrel _ _, hrel _ _⟩ ⟨hs _ _, hs _ _⟩ hrest k₁ k₂ u₁ t₁ u₂ t₂ e₁ e₂
  · refine (linear_step_least_energy_partial _ _ (springPulled_run 1 5) rfl (hrel _ _) (hs _ _) hrest k₁ u₁ t₁ e₁ _
      ?_).2 ⟨1, by decide, 0, by decide, ?_⟩
    · intro n i hh
      obtain ⟨bc, hmem, -, -, l, hl, hin⟩ := hh
      rw [List.mem_singleton.mp hmem] at hl
      have h7 : springR.manager.sets 7 = some [0] := rfl
      have : l = [0] := by
        have : some [0] = some l := h7.symm.trans hl
        exact (Option.some.inj this).symm
      rw [this] at hin
      have hn0 : n = 0 := by simpa using hin
      rw [hn0]
      simp [setAt]
    · simp [setAt]

/-! ## C152 is false in three dimensions -/

/-- The final displacements of both nodes. -/
def finalBoth : QResult ℚ Unit → Option (List (List ℚ))
  | .finished s => some ((List.range 2).map fun n => (List.range 3).map fun i => s.displacement n i)
  | _ => none

/-- The internal forces of `pathPhysics`. -/
def pathForce (u : Nodal ℚ) : Nodal ℚ := fun n i => if n = 0 then u 1 i - u 0 i else u 0 i - u 1 i

theorem pathPhysics_force (s : Unit) (tp tc : ℚ) (o : Bool) (u : Nodal ℚ) :
    pathPhysics.internal s tp tc o u = some (pathForce u, ()) := rfl

/-- Node 0 is held in all directions and node 1 in none. -/
theorem pathPulled_held (a b : ℚ) :
    (∀ n i, Held (pathPulled a b).manager n i → n = 0) ∧ ∀ i < 3, Held (pathPulled a b).manager 0 i := by
  constructor
  · intro n i hh
    obtain ⟨bc, hmem, -, -, l, hl, hin⟩ := hh
    have hset : bc.nodeSetId = 7 := by
      simp only [pathPulled, List.mem_cons, List.not_mem_nil, or_false] at hmem
      rcases hmem with rfl | rfl | rfl <;> rfl
    rw [hset] at hl
    have h7 : (pathPulled a b).manager.sets 7 = some [0] := rfl
    rw [← Option.some.inj (h7.symm.trans hl)] at hin
    simpa using hin
  · intro i hi
    obtain rfl | rfl | rfl : i = 0 ∨ i = 1 ∨ i = 2 := by omega
    · exact ⟨⟨.prescribedDisplacement, 7, 0, .inr fun _ _ _ t => a * t⟩, by simp [pathPulled], rfl, rfl, [0], rfl, by simp⟩
    · exact ⟨⟨.prescribedDisplacement, 7, 1, .inl 0⟩, by simp [pathPulled], rfl, rfl, [0], rfl, by simp⟩
    · exact ⟨⟨.prescribedDisplacement, 7, 2, .inr fun _ _ _ t => b * t⟩, by simp [pathPulled], rfl, rfl, [0], rfl, by simp⟩

theorem final_of_both (r : QResult ℚ Unit) {a0 a1 a2 b0 b1 b2 : ℚ}
    (h : finalBoth r = some [[a0, a1, a2], [b0, b1, b2]]) :
    ∃ t, r = .finished t ∧ (t.displacement 0 0 = a0 ∧ t.displacement 0 1 = a1 ∧ t.displacement 0 2 = a2) ∧
      t.displacement 1 0 = b0 ∧ t.displacement 1 1 = b1 ∧ t.displacement 1 2 = b2 := by
  cases r with
  | invalidArgument => simp [finalBoth] at h
  | stopped e => simp [finalBoth] at h
  | finished t =>
    simp only [finalBoth, Option.some.injEq, List.range_succ, List.range_zero, List.nil_append, List.cons_append,
      List.map_cons, List.map_nil, List.cons.injEq, and_true] at h
    exact ⟨t, rfl, h⟩

/-- **C152 (a, b) are false of the code**: the run that pulls node 0 to `(0, 0, 2)` in one load step returns status
0 with energy 2; the rigid displacement, which agrees with it at node 0, has none. -/
theorem least_energy_refuted :
    ∃ t, qIntegrate (pathPulled 0 1) pathPhysics () = .finished t ∧
      (∀ n i, Held (pathPulled 0 1).manager n i → t.displacement 0 i = t.displacement n i) ∧
      deformationEnergy (pathPulled 0 1) pathForce t.displacement = 2 ∧
      deformationEnergy (pathPulled 0 1) pathForce (fun _ i => t.displacement 0 i) = 0 := by
  obtain ⟨t, ht, ⟨a0, a1, a2⟩, b0, b1, b2⟩ := final_of_both (qIntegrate (pathPulled 0 1) pathPhysics ())
    (a0 := 0) (a1 := 0) (a2 := 2) (b0 := 0) (b1 := 0) (b2 := 0) (by decide +kernel)
  have hN : (pathPulled 0 1).numNodes = 2 := rfl
  have hD : (pathPulled 0 1).dim = 3 := rfl
  refine ⟨t, ht, ?_, ?_, ?_⟩
  · intro n i hh
    rw [(pathPulled_held 0 1).1 n i hh]
  · unfold deformationEnergy nodalWork pathForce
    rw [hN, hD]
    simp only [Finset.sum_range_succ, Finset.sum_range_zero, a0, a1, a2, b0, b1, b2]
    norm_num
  · unfold deformationEnergy nodalWork pathForce
    rw [hN, hD]
    simp

/-- **C152 (c) is false of the code**: two accepted runs whose reactions are not reciprocal. -/
theorem reciprocity_refuted :
    ∃ t₁ t₂, qIntegrate (pathPulled 0 1) pathPhysics () = .finished t₁ ∧
      qIntegrate (pathPulled 1 1) pathPhysics () = .finished t₂ ∧
      nodalWork (pathPulled 0 1) (reaction (pathPulled 0 1) (pathForce t₁.displacement)) t₂.displacement = -4 ∧
      nodalWork (pathPulled 1 1) (reaction (pathPulled 1 1) (pathForce t₂.displacement)) t₁.displacement = 0 := by
  obtain ⟨t₁, h₁, ⟨a0, a1, a2⟩, b0, b1, b2⟩ := final_of_both (qIntegrate (pathPulled 0 1) pathPhysics ())
    (a0 := 0) (a1 := 0) (a2 := 2) (b0 := 0) (b1 := 0) (b2 := 0) (by decide +kernel)
  obtain ⟨t₂, h₂, ⟨c0, c1, c2⟩, d0, d1, d2⟩ := final_of_both (qIntegrate (pathPulled 1 1) pathPhysics ())
    (a0 := 2) (a1 := 0) (a2 := 2) (b0 := 2) (b1 := 0) (b2 := 2) (by decide +kernel)
  have h0 : ∀ a b, ∀ i < 3, Held (pathPulled a b).manager 0 i := fun a b => (pathPulled_held a b).2
  have h1 : ∀ a b i, ¬ Held (pathPulled a b).manager 1 i := fun a b i hh =>
    absurd ((pathPulled_held a b).1 1 i hh) one_ne_zero
  have hN : ∀ a b, (pathPulled a b).numNodes = 2 := fun _ _ => rfl
  have hD : ∀ a b, (pathPulled a b).dim = 3 := fun _ _ => rfl
  refine ⟨t₁, t₂, h₁, h₂, ?_, ?_⟩ <;> unfold nodalWork reaction pathForce <;> rw [hN, hD] <;>
    simp only [Finset.sum_range_succ, Finset.sum_range_zero, h1, h0 _ _ 0 (by norm_num), h0 _ _ 1 (by norm_num),
      h0 _ _ 2 (by norm_num), if_true, if_false, a0, a1, a2, b0, b1, b2, c0, c1, c2, d0, d1, d2] <;> norm_num

end NimbleSM.Integrate
