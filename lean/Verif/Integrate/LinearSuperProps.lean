import Verif.Integrate.LinearPathProps
import Verif.Integrate.SuperpositionProps

/-!
# C151: superposition of quasistatic solutions

Three quasistatic runs (src/integrators/quasistatic_time_integrator.cc:121-421) of the same linear problem to the
same final time; the displacements prescribed in the third are `α` times those of the first plus `β` times those
of the second.
-/

namespace NimbleSM.Integrate

open NimbleSM.Bc NimbleSM.Solver

variable {K S : Type*} [Field K] [LinearOrder K] [IsStrictOrderedRing K]

/-! ## Specification -/

/-- The same body held at the same degrees of freedom, at combined positions.  Starting times, numbers of load
steps, output, tolerances and limits may differ. -/
structure SuperposedQ (α β : K) (c₁ c₂ c₃ : QConfig K) : Prop where
  sets : c₁.manager.sets = c₃.manager.sets ∧ c₂.manager.sets = c₃.manager.sets
  scheme : c₁.manager.scheme = .quasistatic ∧ c₂.manager.scheme = .quasistatic ∧ c₃.manager.scheme = .quasistatic
  dim : c₁.manager.dim = c₃.manager.dim ∧ c₂.manager.dim = c₃.manager.dim
  X : c₁.X = c₃.X ∧ c₂.X = c₃.X
  ids : c₁.ids = c₃.ids ∧ c₂.ids = c₃.ids
  bcs : ∃ l : List (BoundaryCondition K × BoundaryCondition K × BoundaryCondition K),
    c₁.manager.bcs = l.map (·.1) ∧ c₂.manager.bcs = l.map (·.2.1) ∧ c₃.manager.bcs = l.map (·.2.2) ∧
    ∀ b ∈ l, CombinedBc α β c₃.X c₁.manager c₂.manager c₃.manager b.1 b.2.1 b.2.2
  /-- no prescribed velocities -/
  displacements : ∀ bc ∈ c₃.manager.bcs, bc.type ≠ .prescribedVelocity

/-! ## The same degrees of freedom are held -/

omit [LinearOrder K] [IsStrictOrderedRing K] in
theorem combined_acts {α β : K} {X : Nodal K} {m₁ m₂ m₃ : Manager K} {b₁ b₂ b₃ : BoundaryCondition K}
    (h : CombinedBc α β X m₁ m₂ m₃ b₁ b₂ b₃) (h₁ : m₁.sets = m₃.sets) (h₂ : m₂.sets = m₃.sets) (n i : ℕ) :
    (Acts m₁ b₁ n i ↔ Acts m₃ b₃ n i) ∧ (Acts m₂ b₂ n i ↔ Acts m₃ b₃ n i) := by
  unfold Acts BoundaryCondition.isKinematic
  rw [h.type.1, h.type.2, h.set.1, h.set.2, h.coordinate.1, h.coordinate.2, h₁, h₂]
  exact ⟨Iff.rfl, Iff.rfl⟩

/-- One triple governs a held degree of freedom in all three runs. -/
theorem governed_triple {α β : K} {c₁ c₂ c₃ : QConfig K} (h : SuperposedQ α β c₁ c₂ c₃) {n i : ℕ}
    (hh : Held c₃.manager n i) :
    ∃ b₁ b₂ b₃, CombinedBc α β c₃.X c₁.manager c₂.manager c₃.manager b₁ b₂ b₃ ∧ b₃ ∈ c₃.manager.bcs ∧
      Governs c₁.manager b₁ n i ∧ Governs c₂.manager b₂ n i ∧ Governs c₃.manager b₃ n i ∧
      b₁ ∈ c₁.manager.bcs ∧ b₂ ∈ c₂.manager.bcs := by
  obtain ⟨l, e1, e2, e3, hl⟩ := h.bcs
  obtain ⟨b, hb, pre, post, hsplit, ha, hpost⟩ := held_governed c₃.manager hh
  rw [e3] at hsplit
  obtain ⟨lp, lr, rfl, rfl, hr⟩ := List.map_eq_append_iff.mp hsplit
  obtain ⟨t, ls, rfl, rfl, rfl⟩ := List.map_eq_cons_iff.mp hr
  have hact : ∀ q ∈ lp ++ t :: ls, (Acts c₁.manager q.1 n i ↔ Acts c₃.manager q.2.2 n i) ∧
      (Acts c₂.manager q.2.1 n i ↔ Acts c₃.manager q.2.2 n i) := fun q ht =>
    combined_acts (hl q ht) h.sets.1 h.sets.2 n i
  have hin : t ∈ lp ++ t :: ls := by simp
  refine ⟨t.1, t.2.1, t.2.2, hl t hin, hb, ⟨lp.map (·.1), ls.map (·.1), by rw [e1]; simp, (hact t hin).1.mpr ha, ?_⟩,
    ⟨lp.map (·.2.1), ls.map (·.2.1), by rw [e2]; simp, (hact t hin).2.mpr ha, ?_⟩, ⟨_, _, by rw [e3, hsplit], ha, hpost⟩,
    ?_, ?_⟩
  · intro b' hb'
    obtain ⟨t', ht', rfl⟩ := List.mem_map.mp hb'
    rw [(hact t' (by simp [ht'])).1]
    exact hpost _ (List.mem_map_of_mem ht')
  · intro b' hb'
    obtain ⟨t', ht', rfl⟩ := List.mem_map.mp hb'
    rw [(hact t' (by simp [ht'])).2]
    exact hpost _ (List.mem_map_of_mem ht')
  · rw [e1]; exact List.mem_map_of_mem hin
  · rw [e2]; exact List.mem_map_of_mem hin

omit [LinearOrder K] [IsStrictOrderedRing K] in
theorem superposed_held {α β : K} {c₁ c₂ c₃ : QConfig K} (h : SuperposedQ α β c₁ c₂ c₃) (n i : ℕ) :
    (Held c₁.manager n i ↔ Held c₃.manager n i) ∧ (Held c₂.manager n i ↔ Held c₃.manager n i) := by
  obtain ⟨l, e1, e2, e3, hl⟩ := h.bcs
  unfold Held
  rw [e1, e2, e3]
  simp only [List.mem_map, exists_exists_and_eq_and]
  constructor
  · exact ⟨fun ⟨t, ht, ha⟩ => ⟨t, ht, (combined_acts (hl t ht) h.sets.1 h.sets.2 n i).1.mp ha⟩,
      fun ⟨t, ht, ha⟩ => ⟨t, ht, (combined_acts (hl t ht) h.sets.1 h.sets.2 n i).1.mpr ha⟩⟩
  · exact ⟨fun ⟨t, ht, ha⟩ => ⟨t, ht, (combined_acts (hl t ht) h.sets.1 h.sets.2 n i).2.mp ha⟩,
      fun ⟨t, ht, ha⟩ => ⟨t, ht, (combined_acts (hl t ht) h.sets.1 h.sets.2 n i).2.mpr ha⟩⟩

/-! ## The forces are linear -/

omit [LinearOrder K] [IsStrictOrderedRing K] in
/-- The internal forces of a linear problem that is balanced at rest are linear in the displacement. -/
theorem linear_force (c : QConfig K) (hc : Consistent c) (p : QPhysics K S) {A : Crs K}
    {force : Nodal K → Nodal K} (hl : LinearProblem c p A force)
    (hrest : ∀ n < c.numNodes, ∀ i < c.dim, force (fun _ _ => 0) n i = 0) (α β : K) (u w : Nodal K) :
    ∀ n < c.numNodes, ∀ i < c.dim, force (comb α β u w) n i = α * force u n i + β * force w n i := by
  have key : ∀ (v : Nodal K), ∀ n < c.numNodes, ∀ i < c.dim, force v n i
      = ∑ b ∈ Finset.range c.unknowns, entry A (place c n i) b
          * (-v (c.ids.idxOf (b / c.dim)) (b % c.dim)) := by
    intro v n hn i hi
    have := hl.affine (fun _ _ => 0) v (fun b => -v (c.ids.idxOf (b / c.dim)) (b % c.dim)) ?_ n hn i hi
    · rw [this, hrest n hn i hi, zero_add]
    · intro n hn i hi
      have hn' : n < c.ids.length := hn
      have e1 : place c n i / c.dim = c.ids[n] := by
        unfold place
        rw [getD_lt _ hn', Nat.add_comm, Nat.add_mul_div_right _ _ (by omega), Nat.div_eq_of_lt hi, Nat.zero_add]
      have e2 : place c n i % c.dim = i := by
        unfold place
        rw [Nat.add_comm, Nat.add_mul_mod_self_right, Nat.mod_eq_of_lt hi]
      rw [e1, e2, hc.ids.1.idxOf_getElem n hn']
      ring
  intro n hn i hi
  rw [key _ n hn i hi, key u n hn i hi, key w n hn i hi, Finset.mul_sum, Finset.mul_sum, ← Finset.sum_add_distrib]
  refine Finset.sum_congr rfl fun b _ => ?_
  unfold comb
  ring

/-! ## Superposition -/

/-- **C151 (a)**.  Load steps of the three problems that end at the same time: the displacement of the third is
the combination of the displacements of the others (exact linear solver, a convergence test that sees every
unknown), whatever the states, step sizes and step numbers before. -/
theorem linear_step_superposition_partial {α β : K} {c₁ c₂ c₃ : QConfig K} (h : SuperposedQ α β c₁ c₂ c₃)
    {p₁ p₂ p₃ : QPhysics K S} {l₁ l₂ l₃ : List (ℕ × ℕ)} {A : Crs K} {force : Nodal K → Nodal K}
    {lo₁ hi₁ lo₂ hi₂ lo₃ hi₃ : K} (h₁ : LinearRun c₁ p₁ l₁ A force lo₁ hi₁)
    (h₂ : LinearRun c₂ p₂ l₂ A force lo₂ hi₂) (h₃ : LinearRun c₃ p₃ l₃ A force lo₃ hi₃)
    (hrest : ∀ n < c₃.numNodes, ∀ i < c₃.dim, force (fun _ _ => 0) n i = 0)
    (hcg : c₁.cgTol = 0 ∧ c₂.cgTol = 0 ∧ c₃.cgTol = 0) (hrel : c₁.relTol < 1 ∧ c₂.relTol < 1 ∧ c₃.relTol < 1)
    (hsees : SeesAll c₁ ∧ SeesAll c₂ ∧ SeesAll c₃) (hdt : 0 < c₁.dt ∧ 0 < c₂.dt ∧ 0 < c₃.dt) (k₁ k₂ k₃ : ℕ)
    (s₁ s₂ s₃ t₁ t₂ t₃ : QSim K S) (e₁ : loadStep c₁ p₁ k₁ s₁ = .ok t₁) (e₂ : loadStep c₂ p₂ k₂ s₂ = .ok t₂)
    (e₃ : loadStep c₃ p₃ k₃ s₃ = .ok t₃) (ht : t₁.time = t₃.time ∧ t₂.time = t₃.time) :
    ∀ n < c₃.numNodes, ∀ i < c₃.dim,
      t₃.displacement n i = α * t₁.displacement n i + β * t₂.displacement n i := by
  have q1 := linear_step_equilibrium_partial c₁ p₁ h₁ hcg.1 hrel.1 hsees.1 k₁ s₁ t₁ e₁
  have q2 := linear_step_equilibrium_partial c₂ p₂ h₂ hcg.2.1 hrel.2.1 hsees.2.1 k₂ s₂ t₂ e₂
  have q3 := linear_step_equilibrium_partial c₃ p₃ h₃ hcg.2.2 hrel.2.2 hsees.2.2 k₃ s₃ t₃ e₃
  have n1 : c₁.numNodes = c₃.numNodes := by unfold QConfig.numNodes; rw [h.ids.1]
  have n2 : c₂.numNodes = c₃.numNodes := by unfold QConfig.numNodes; rw [h.ids.2]
  have d1 : c₁.dim = c₃.dim := h.dim.1
  have d2 : c₂.dim = c₃.dim := h.dim.2
  obtain ⟨τ₁, -, g₁⟩ := loadStep_spec c₁ p₁ k₁ s₁ t₁ e₁
  obtain ⟨τ₂, -, g₂⟩ := loadStep_spec c₂ p₂ k₂ s₂ t₂ e₂
  obtain ⟨τ₃, -, g₃⟩ := loadStep_spec c₃ p₃ k₃ s₃ t₃ e₃
  apply equilibrium_unique c₃ h₃.consistent p₃ h₃.linear h₃.spd t₃.displacement
    (comb α β t₁.displacement t₂.displacement) q3
  · intro n hn i hi hh
    rw [linear_force c₃ h₃.consistent p₃ h₃.linear hrest α β _ _ n hn i hi,
      q1 n (by rw [n1]; exact hn) i (by rw [d1]; exact hi) (fun x => hh ((superposed_held h n i).1.mp x)),
      q2 n (by rw [n2]; exact hn) i (by rw [d2]; exact hi) (fun x => hh ((superposed_held h n i).2.mp x))]
    ring
  · intro n i hh
    obtain ⟨b₁, b₂, b₃, hb, hmem, v₁, v₂, v₃, -, -⟩ := governed_triple h hh
    have hty : b₃.type = .prescribedDisplacement := by
      obtain ⟨pre, post, -, ha, -⟩ := v₃
      have hk := ha.1
      have hnv := h.displacements b₃ hmem
      simp only [BoundaryCondition.isKinematic] at hk
      simpa [hnv] using hk
    have hh1 := (superposed_held h n i).1.mpr hh
    have hh2 := (superposed_held h n i).2.mpr hh
    unfold comb
    rw [g₁ l₁ h₁.consistent h₁.regular n i hh1, g₂ l₂ h₂.consistent h₂.regular n i hh2,
      g₃ l₃ h₃.consistent h₃.regular n i hh]
    unfold kinematic
    simp only
    rw [governs_displacement_quasistatic c₁.manager h.scheme.1 (s₁.time + c₁.dt) s₁.time c₁.X _ b₁ n i v₁
        (hb.type.1.trans hty) (by rw [add_sub_cancel_left]; exact hdt.1),
      governs_displacement_quasistatic c₂.manager h.scheme.2.1 (s₂.time + c₂.dt) s₂.time c₂.X _ b₂ n i v₂
        (hb.type.2.trans hty) (by rw [add_sub_cancel_left]; exact hdt.2.1),
      governs_displacement_quasistatic c₃.manager h.scheme.2.2 (s₃.time + c₃.dt) s₃.time c₃.X _ b₃ n i v₃
        hty (by rw [add_sub_cancel_left]; exact hdt.2.2),
      ← τ₁, ← τ₂, ← τ₃, ht.1, ht.2, h.X.1, h.X.2]
    exact hb.value n t₃.time

/-- The last load step of a run that finishes. -/
theorem finished_last_step (c : QConfig K) (p : QPhysics K S) (s0 : S) (s : QSim K S) (hn : c.numSteps ≠ 0)
    (h : qIntegrate c p s0 = .finished s) : ∃ k s1, loadStep c p k s1 = .ok s := by
  unfold qIntegrate at h
  split_ifs at h with h1 h2
  cases hl : qLoop c p c.numSteps (qStart c s0) with
  | error e => rw [hl] at h; simp at h
  | ok s1 =>
    rw [hl] at h
    simp only [QResult.finished.injEq] at h
    subst h
    obtain ⟨m, hm⟩ := Nat.exists_eq_succ_of_ne_zero hn
    rw [hm] at hl
    obtain ⟨s2, -, h4⟩ := qLoop_succ c p m _ _ hl
    exact ⟨m, s2, h4⟩

theorem positive_dt (c : QConfig K) (hn : c.numSteps ≠ 0) (h : c.initialTime < c.finalTime) : 0 < c.dt := by
  unfold Config.dt
  exact div_pos (sub_pos.mpr h) (Nat.cast_pos.mpr (Nat.pos_of_ne_zero hn))

/-- **C151 (b)**.  Three runs to the same final time, with any numbers of load steps. -/
theorem linear_run_superposition_partial {α β : K} {c₁ c₂ c₃ : QConfig K} (h : SuperposedQ α β c₁ c₂ c₃)
    {p₁ p₂ p₃ : QPhysics K S} {l₁ l₂ l₃ : List (ℕ × ℕ)} {A : Crs K} {force : Nodal K → Nodal K}
    {lo₁ hi₁ lo₂ hi₂ lo₃ hi₃ : K} (h₁ : LinearRun c₁ p₁ l₁ A force lo₁ hi₁)
    (h₂ : LinearRun c₂ p₂ l₂ A force lo₂ hi₂) (h₃ : LinearRun c₃ p₃ l₃ A force lo₃ hi₃)
    (hrest : ∀ n < c₃.numNodes, ∀ i < c₃.dim, force (fun _ _ => 0) n i = 0)
    (hcg : c₁.cgTol = 0 ∧ c₂.cgTol = 0 ∧ c₃.cgTol = 0) (hrel : c₁.relTol < 1 ∧ c₂.relTol < 1 ∧ c₃.relTol < 1)
    (hsees : SeesAll c₁ ∧ SeesAll c₂ ∧ SeesAll c₃)
    (hn : c₁.numSteps ≠ 0 ∧ c₂.numSteps ≠ 0 ∧ c₃.numSteps ≠ 0)
    (hlt : c₁.initialTime < c₁.finalTime ∧ c₂.initialTime < c₂.finalTime ∧ c₃.initialTime < c₃.finalTime)
    (hfin : c₁.finalTime = c₃.finalTime ∧ c₂.finalTime = c₃.finalTime) (s₁ s₂ s₃ : S) (t₁ t₂ t₃ : QSim K S)
    (e₁ : qIntegrate c₁ p₁ s₁ = .finished t₁) (e₂ : qIntegrate c₂ p₂ s₂ = .finished t₂)
    (e₃ : qIntegrate c₃ p₃ s₃ = .finished t₃) :
    ∀ n < c₃.numNodes, ∀ i < c₃.dim,
      t₃.displacement n i = α * t₁.displacement n i + β * t₂.displacement n i := by
  obtain ⟨k₁, u₁, f₁⟩ := finished_last_step c₁ p₁ s₁ t₁ hn.1 e₁
  obtain ⟨k₂, u₂, f₂⟩ := finished_last_step c₂ p₂ s₂ t₂ hn.2.1 e₂
  obtain ⟨k₃, u₃, f₃⟩ := finished_last_step c₃ p₃ s₃ t₃ hn.2.2 e₃
  refine linear_step_superposition_partial h h₁ h₂ h₃ hrest hcg hrel hsees
    ⟨positive_dt c₁ hn.1 hlt.1, positive_dt c₂ hn.2.1 hlt.2.1, positive_dt c₃ hn.2.2 hlt.2.2⟩ k₁ k₂ k₃ u₁ u₂ u₃
    t₁ t₂ t₃ f₁ f₂ f₃ ?_
  rw [(quasistatic_times c₁ p₁ s₁ t₁ e₁).2.2.1 hn.1, (quasistatic_times c₂ p₂ s₂ t₂ e₂).2.2.1 hn.2.1,
    (quasistatic_times c₃ p₃ s₃ t₃ e₃).2.2.1 hn.2.2]
  exact hfin

/-! ## Concrete cases -/

/-- The spring of `springR` with node 0 moved to `a t`, in `n` load steps, with an exact linear solver. -/
noncomputable def springPulled (n : ℕ) (a : ℝ) : QConfig ℝ :=
  { springR with
    manager := { springR.manager with bcs := [⟨.prescribedDisplacement, 7, 0, .inr fun _ _ _ t => a * t⟩] }
    numSteps := n
    cgTol := 0 }

theorem springPulled_held (n : ℕ) (a : ℝ) : Held (springPulled n a).manager 0 0 :=
  ⟨_, List.mem_singleton.mpr rfl, rfl, rfl, [0], rfl, by simp⟩

theorem springPulled_run (n : ℕ) (a : ℝ) :
    LinearRun (springPulled n a) springPhysics [(0, 0), (0, 1), (1, 0), (1, 1)] springMatrix springForce 1 1 where
  consistent := by
    refine ⟨springR_consistent.ids, ?_, ?_⟩
    · intro bc hbc
      rw [List.mem_singleton.mp hbc]
      exact ⟨[0], rfl, by simp [springPulled, springR]⟩
    · intro bc hbc
      rw [List.mem_singleton.mp hbc]
      show 0 < 1
      omega
  sqrt := springR_run.sqrt
  dim := springR_run.dim
  regular := ⟨springR_regular.tangent, springR_regular.scratch⟩
  linear := ⟨springR_linear.tangent, springR_linear.internal, springR_linear.affine⟩
  spd := by
    refine ⟨springR_spd.symm, fun v hv hex => springR_spd.pos v (fun m hm i hi hh => ?_) hex⟩
    obtain ⟨bc, hmem, hk, hcoord, l, hl, hin⟩ := hh
    rw [List.mem_singleton.mp hmem] at hcoord hl
    have hm0 : m = 0 := by
      have : l = [0] := by
        have h7 : springR.manager.sets 7 = some [0] := rfl
        rw [h7, Option.some.injEq] at hl
        exact hl.symm
      rw [this] at hin
      simpa using hin
    subst hm0
    have hi0 : i = 0 := hcoord.symm
    subst hi0
    exact hv 0 hm 0 hi (springPulled_held n a)
  pos := one_pos
  diag := springR_run.diag
  cgTol := by constructor <;> norm_num [springPulled]
  cgMax := springR_run.cgMax
  relTol := springR_run.relTol
  maxIter := springR_run.maxIter

theorem springPulled_finishes (n : ℕ) (a : ℝ) :
    ∃ q, qIntegrate (springPulled n a) springPhysics 0 = .finished q := by
  apply linear_run (springPulled n a) springPhysics (springPulled_run n a) (by simp [springPulled, springR])
    (by norm_num [springPulled, springR])
  intro r
  have e1 : (springPulled n a).cgTol = 0 := rfl
  rw [e1]
  have := mul_self_nonneg ((springPulled n a).relTol * residualNorm (springPulled n a) r)
  linarith

theorem springPulled_superposed (n₁ n₂ n₃ : ℕ) (α β a b : ℝ) :
    SuperposedQ α β (springPulled n₁ a) (springPulled n₂ b) (springPulled n₃ (α * a + β * b)) where
  sets := ⟨rfl, rfl⟩
  scheme := ⟨rfl, rfl, rfl⟩
  dim := ⟨rfl, rfl⟩
  X := ⟨rfl, rfl⟩
  ids := ⟨rfl, rfl⟩
  bcs := by
    refine ⟨[(⟨.prescribedDisplacement, 7, 0, .inr fun _ _ _ t => a * t⟩,
      ⟨.prescribedDisplacement, 7, 0, .inr fun _ _ _ t => b * t⟩,
      ⟨.prescribedDisplacement, 7, 0, .inr fun _ _ _ t => (α * a + β * b) * t⟩)], rfl, rfl, rfl, ?_⟩
    intro t ht
    rw [List.mem_singleton.mp ht]
    refine ⟨⟨rfl, rfl⟩, ⟨rfl, rfl⟩, ⟨rfl, rfl⟩, ?_⟩
    intro n t
    simp only [prescribed]
    split_ifs <;> ring
  displacements := by
    intro bc hbc
    rw [List.mem_singleton.mp hbc]
    simp

/-- Non-vacuity: three runs with 1, 2 and 5 load steps and node 0 at `5 t`, `t` and `7 t`. -/
example : ∃ t₁ t₂ t₃, qIntegrate (springPulled 1 5) springPhysics 0 = .finished t₁ ∧
    qIntegrate (springPulled 2 1) springPhysics 0 = .finished t₂ ∧
    qIntegrate (springPulled 5 (2 * 5 + -3 * 1)) springPhysics 0 = .finished t₃ ∧
    t₃.displacement 1 0 = 2 * t₁.displacement 1 0 + -3 * t₂.displacement 1 0 := by
  obtain ⟨t₁, h₁⟩ := springPulled_finishes 1 5
  obtain ⟨t₂, h₂⟩ := springPulled_finishes 2 1
  obtain ⟨t₃, h₃⟩ := springPulled_finishes 5 (2 * 5 + -3 * 1)
  refine ⟨t₁, t₂, t₃, h₁, h₂, h₃, ?_⟩
  have hs : ∀ n a, SeesAll (springPulled n a) := fun n a =>
    seesAll_of_dim_one _ springR_consistent.ids.1 rfl springR_run.sqrt
  exact linear_run_superposition_partial (springPulled_superposed 1 2 5 2 (-3) 5 1) (springPulled_run 1 5)
    (springPulled_run 2 1) (springPulled_run 5 _)
    (by intro n _ i _; simp [springForce]) ⟨rfl, rfl, rfl⟩
    ⟨by norm_num [springPulled, springR], by norm_num [springPulled, springR], by norm_num [springPulled, springR]⟩
    ⟨hs _ _, hs _ _, hs _ _⟩ ⟨by simp [springPulled], by simp [springPulled], by simp [springPulled]⟩
    ⟨by norm_num [springPulled, springR], by norm_num [springPulled, springR], by norm_num [springPulled, springR]⟩
    ⟨rfl, rfl⟩ 0 0 0 t₁ t₂ t₃ h₁ h₂ h₃ 1 (by decide) 0 (by decide)

/-! ## C151 is false in three dimensions -/

/-- The two nodes of `pathConfig`, node 0 moved to `(a t, 0, b t)`, in one load step. -/
def pathPulled (a b : ℚ) : QConfig ℚ :=
  { pathConfig 1 with
    manager := { (pathConfig 1).manager with
      bcs := [⟨.prescribedDisplacement, 7, 0, .inr fun _ _ _ t => a * t⟩, ⟨.prescribedDisplacement, 7, 1, .inl 0⟩,
        ⟨.prescribedDisplacement, 7, 2, .inr fun _ _ _ t => b * t⟩] } }

theorem pathPulled_superposed (α β a b a' b' : ℚ) :
    SuperposedQ α β (pathPulled a b) (pathPulled a' b') (pathPulled (α * a + β * a') (α * b + β * b')) where
  sets := ⟨rfl, rfl⟩
  scheme := ⟨rfl, rfl, rfl⟩
  dim := ⟨rfl, rfl⟩
  X := ⟨rfl, rfl⟩
  ids := ⟨rfl, rfl⟩
  bcs := by
    refine ⟨[(⟨.prescribedDisplacement, 7, 0, .inr fun _ _ _ t => a * t⟩,
        ⟨.prescribedDisplacement, 7, 0, .inr fun _ _ _ t => a' * t⟩,
        ⟨.prescribedDisplacement, 7, 0, .inr fun _ _ _ t => (α * a + β * a') * t⟩),
      (⟨.prescribedDisplacement, 7, 1, .inl 0⟩, ⟨.prescribedDisplacement, 7, 1, .inl 0⟩,
        ⟨.prescribedDisplacement, 7, 1, .inl 0⟩),
      (⟨.prescribedDisplacement, 7, 2, .inr fun _ _ _ t => b * t⟩,
        ⟨.prescribedDisplacement, 7, 2, .inr fun _ _ _ t => b' * t⟩,
        ⟨.prescribedDisplacement, 7, 2, .inr fun _ _ _ t => (α * b + β * b') * t⟩)], rfl, rfl, rfl, ?_⟩
    intro t ht
    simp only [List.mem_cons, List.not_mem_nil, or_false] at ht
    rcases ht with rfl | rfl | rfl <;> refine ⟨⟨rfl, rfl⟩, ⟨rfl, rfl⟩, ⟨rfl, rfl⟩, ?_⟩ <;> intro n t <;>
      simp only [prescribed]
    · split_ifs <;> ring
    · ring
    · split_ifs <;> ring
  displacements := by
    intro bc hbc
    simp only [pathPulled, List.mem_cons, List.not_mem_nil, or_false] at hbc
    rcases hbc with rfl | rfl | rfl <;> simp

/-- **C151 is false of the code**: the sum of the two load cases moves node 1 to `(2, 0, 2)`; alone, the first
moves it to `(2, 0, 0)` and the second, which also returns status 0, does not move it. -/
theorem quasistatic_superposition_refuted :
    SuperposedQ (1 : ℚ) 1 (pathPulled 1 0) (pathPulled 0 1) (pathPulled (1 * 1 + 1 * 0) (1 * 0 + 1 * 1)) ∧
    finalOf (qIntegrate (pathPulled 1 0) pathPhysics ()) = some [2, 0, 0] ∧
    finalOf (qIntegrate (pathPulled 0 1) pathPhysics ()) = some [0, 0, 0] ∧
    finalOf (qIntegrate (pathPulled (1 * 1 + 1 * 0) (1 * 0 + 1 * 1)) pathPhysics ()) = some [2, 0, 2] :=
  ⟨pathPulled_superposed 1 1 1 0 0 1, by decide +kernel, by decide +kernel, by decide +kernel⟩

end NimbleSM.Integrate
