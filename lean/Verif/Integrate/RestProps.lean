import Verif.Integrate.LinearProps
import Verif.Integrate.QuasistaticDemo

/-!
# C154: an equilibrium is kept

Quasistatic load steps (src/integrators/quasistatic_time_integrator.cc:233-416) that start in equilibrium under
conditions that no longer change; any internal forces, with any element state.
-/

namespace NimbleSM.Integrate

open NimbleSM.Bc NimbleSM.Solver

variable {K S : Type*} [Field K] [LinearOrder K] [IsStrictOrderedRing K]

/-! ## Specification -/

/-- The displacement satisfies every condition at time `t`: it has the prescribed values, and the prescribed velocities
are zero. -/
def Satisfied (m : Manager K) (X u : Nodal K) (t : K) : Prop :=
  ∀ bc ∈ m.bcs, ∀ n l, m.sets bc.nodeSetId = some l → n ∈ l →
    (bc.type = .prescribedDisplacement → prescribed m bc X n t = u n bc.coordinate) ∧
    (bc.type = .prescribedVelocity → prescribed m bc X n t = 0)

/-- In the element states `I`, which evaluating the forces at `u` and finishing a step does not leave, the forces of the
displacement `u` vanish at every free degree of freedom. -/
structure Settled (c : QConfig K) (p : QPhysics K S) (u : Nodal K) (I : S → Prop) : Prop where
  force : ∀ s, I s → ∀ tp tc out, ∃ F s', p.internal s tp tc out u = some (F, s') ∧ I s' ∧
    ∀ n < c.numNodes, ∀ i < c.dim, ¬ Held c.manager n i → F n i = 0
  update : ∀ s, I s → I (p.updateStates s)

/-! ## Conditions that are satisfied change nothing -/

section
omit [LinearOrder K] [IsStrictOrderedRing K]

theorem setAt_self (u : Nodal K) (n i : ℕ) : setAt u n i (u n i) = u := by
  funext m j
  unfold setAt
  split_ifs with h
  · rw [h.1, h.2]
  · rfl

end

omit [IsStrictOrderedRing K] in
theorem satisfied_kinematicBc (m : Manager K) (X : Nodal K) (t dt : K) (s : Kin K) (bc : BoundaryCondition K)
    (h : ∀ n l, m.sets bc.nodeSetId = some l → n ∈ l →
      (bc.type = .prescribedDisplacement → prescribed m bc X n t = s.displacement n bc.coordinate) ∧
      (bc.type = .prescribedVelocity → prescribed m bc X n t * dt = 0)) :
    (kinematicBc m X t dt s bc).displacement = s.displacement := by
  have h' : ∀ n ∈ m.nodeSet bc,
      (bc.type = .prescribedDisplacement → prescribed m bc X n t = s.displacement n bc.coordinate) ∧
      (bc.type = .prescribedVelocity → prescribed m bc X n t * dt = 0) := by
    intro n hn
    obtain ⟨l, hl, hin⟩ := mem_nodeSet.mp hn
    exact h n l hl hin
  unfold kinematicBc
  generalize m.nodeSet bc = ns at h'
  split_ifs with h1 h2
  · have key : ∀ (ns : List ℕ) (q : Kin K), q.displacement = s.displacement →
        (∀ n ∈ ns, prescribed m bc X n t * dt = 0) →
        (ns.foldl (velocityNode m bc X t dt) q).displacement = s.displacement := by
      intro ns
      induction ns with
      | nil => intro q hq _; exact hq
      | cons n ns ih =>
        intro q hq hns
        refine ih _ ?_ fun n' hn' => hns n' (List.mem_cons_of_mem _ hn')
        unfold velocityNode
        simp only
        rw [value_eq, hns n List.mem_cons_self, add_zero, setAt_self, ite_self]
        exact hq
    exact key ns s rfl fun n hn => (h' n hn).2 h1
  · have key : ∀ (ns : List ℕ) (q : Kin K), q.displacement = s.displacement →
        (∀ n ∈ ns, prescribed m bc X n t = s.displacement n bc.coordinate) →
        (ns.foldl (displacementNode m bc X t dt) q).displacement = s.displacement := by
      intro ns
      induction ns with
      | nil => intro q hq _; exact hq
      | cons n ns ih =>
        intro q hq hns
        refine ih _ ?_ fun n' hn' => hns n' (List.mem_cons_of_mem _ hn')
        unfold displacementNode
        simp only
        rw [value_eq, hns n List.mem_cons_self, ← hq, setAt_self, ite_self]
    exact key ns s rfl fun n hn => (h' n hn).1 h2.1
  · rfl

omit [IsStrictOrderedRing K] in
theorem satisfied_kinematic (c : Config K) (t tp : K) (u v : Nodal K)
    (h : ∀ bc ∈ c.manager.bcs, ∀ n l, c.manager.sets bc.nodeSetId = some l → n ∈ l →
      (bc.type = .prescribedDisplacement → prescribed c.manager bc c.X n t = u n bc.coordinate) ∧
      (bc.type = .prescribedVelocity → prescribed c.manager bc c.X n t * (t - tp) = 0)) :
    (kinematic c t tp u v).1 = u := by
  unfold kinematic applyKinematicBC
  simp only
  have key : ∀ (l : List (BoundaryCondition K)) (q : Kin K), (∀ bc ∈ l, bc ∈ c.manager.bcs) → q.displacement = u →
      (l.foldl (kinematicBc c.manager c.X t (t - tp)) q).displacement = u := by
    intro l
    induction l with
    | nil => intro q _ hq; exact hq
    | cons bc l ih =>
      intro q hl hq
      refine ih _ (fun b hb => hl b (List.mem_cons_of_mem _ hb)) ?_
      rw [satisfied_kinematicBc, hq]
      rw [hq]
      exact h bc (hl bc List.mem_cons_self)
  exact key _ _ (fun _ h => h) rfl

/-! ## The convergence test of a zero residual -/

theorem residualNorm_zero (c : QConfig K) (hsqrt : c.sqrt 0 = 0) (r : ℕ → K) (h : ∀ a < c.numNodes, r a = 0) :
    residualNorm c r = 0 := by
  have h1 : innerProduct c.numNodes r r = 0 := by
    rw [innerProduct_eq]
    exact Finset.sum_eq_zero fun a ha => by rw [h a (Finset.mem_range.mp ha), mul_zero]
  have h2 : infinityNorm c.numNodes r = 0 := by
    unfold infinityNorm
    have key : ∀ l : List ℕ, (∀ a ∈ l, r a = 0) → l.foldl (fun m i => max m |r i|) 0 = 0 := by
      intro l
      induction l with
      | nil => intro _; rfl
      | cons a l ih =>
        intro hl
        rw [List.foldl_cons, hl a List.mem_cons_self, abs_zero, max_self]
        exact ih fun b hb => hl b (List.mem_cons_of_mem _ hb)
    exact key _ fun a ha => h a (List.mem_range.mp ha)
  unfold residualNorm
  rw [h1, h2, hsqrt, mul_zero, add_zero]

/-- Every index of the convergence test is an unknown of some node. -/
theorem tested_surj (c : QConfig K) (hc : Contiguous c.ids) (hd : 0 < c.dim) {a : ℕ} (ha : a < c.numNodes) :
    ∃ n < c.numNodes, ∃ i < c.dim, a = c.ids.getD n 0 * c.dim + i := by
  apply place_surj c hc
  unfold QConfig.unknowns
  rw [lsNodes_eq c hc.1]
  exact lt_of_lt_of_le ha (Nat.le_mul_of_pos_right _ hd)

/-! ## The step -/

/-- A load step that starts in an equilibrium that satisfies the conditions keeps it. -/
theorem settled_step (c : QConfig K) (p : QPhysics K S) (hc : Consistent c) (hd : 0 < c.dim) (hsqrt : c.sqrt 0 = 0)
    (hmax : c.maxIter ≠ 0) (u : Nodal K) (I : S → Prop) (hp : Settled c p u I) (k : ℕ) (s : QSim K S)
    (hu : s.displacement = u) (hI : I s.state) (hsat : Satisfied c.manager c.X u (s.time + c.dt)) :
    ∃ s', loadStep c p k s = .ok s' ∧ s'.displacement = u ∧ I s'.state ∧ s'.time = s.time + c.dt ∧
      ∃ st, s'.outputs = if c.isOutputStep k then s.outputs ++ [(s'.time, u, st)] else s.outputs := by
  obtain ⟨F, s1, hF, hI1, hzero⟩ := hp.force s.state hI s.time (s.time + c.dt) (c.isOutputStep k)
  obtain ⟨r, hr, hrv⟩ := residual_vector_spec c hc p s.state s.time (s.time + c.dt) (c.isOutputStep k) u F s1 hF
  have hres : residualNorm c r = 0 := by
    apply residualNorm_zero c hsqrt
    intro a ha
    obtain ⟨n, hn, i, hi, rfl⟩ := tested_surj c hc.ids hd ha
    rw [hrv n hn i hi]
    split_ifs with hh
    · rfl
    · rw [hzero n hn i hi hh, neg_zero]
  have hkin : (kinematic c.toConfig (s.time + c.dt) s.time s.displacement s.velocity).1 = u := by
    rw [satisfied_kinematic]
    · exact hu
    · intro bc hbc n l hl hin
      obtain ⟨h1, h2⟩ := hsat bc hbc n l hl hin
      refine ⟨fun h => by rw [hu]; exact h1 h, fun h => by rw [h2 h, zero_mul]⟩
  unfold loadStep
  simp only
  rw [hkin, hr]
  simp only
  rw [hres, mul_zero]
  have hloop : ∀ x : Newton K S, x.residual = 0 → ∀ fuel,
      newtonLoop c p k s.time (s.time + c.dt) (c.isOutputStep k) 0 fuel 0 x = .ok (x, 0) := by
    intro x hx fuel
    cases fuel with
    | zero => rfl
    | succ f => unfold newtonLoop; rw [if_neg (by rw [hx]; exact lt_irrefl _)]
  rw [hloop _ rfl]
  simp only
  rw [if_neg (by intro h; exact hmax h.symm)]
  refine ⟨_, rfl, rfl, hp.update _ hI1, rfl, s1, rfl⟩

/-! ## Runs -/

/-- **C154 (a)**.  If after `k` load steps the displacement is an equilibrium, in an element state in which it stays one,
and the conditions do not change any more, then every later load step ends with the same displacement and every later
output has it. -/
theorem equilibrium_kept (c : QConfig K) (p : QPhysics K S) (hc : Consistent c) (hd : 0 < c.dim)
    (hsqrt : c.sqrt 0 = 0) (hmax : c.maxIter ≠ 0) (hdt : 0 < c.dt) (s0 s : QSim K S) (k : ℕ)
    (h : qLoop c p k s0 = .ok s) (I : S → Prop) (hp : Settled c p s.displacement I) (hI : I s.state)
    (hsat : ∀ t, s.time < t → Satisfied c.manager c.X s.displacement t) (j : ℕ) :
    ∃ s', qLoop c p (k + j) s0 = .ok s' ∧ s'.displacement = s.displacement ∧ I s'.state ∧
      ∃ later, s'.outputs = s.outputs ++ later ∧ ∀ o ∈ later, o.2.1 = s.displacement := by
  have key : ∃ s', qLoop c p (k + j) s0 = .ok s' ∧ s'.displacement = s.displacement ∧ I s'.state ∧ s.time ≤ s'.time ∧
      ∃ later, s'.outputs = s.outputs ++ later ∧ ∀ o ∈ later, o.2.1 = s.displacement := by
    induction j with
    | zero => exact ⟨s, h, rfl, hI, le_rfl, [], by simp, by simp⟩
    | succ j ih =>
      obtain ⟨s1, h1, h2, h3, h4, later, h5, h6⟩ := ih
      obtain ⟨s2, g1, g2, g3, g4, st, g5⟩ := settled_step c p hc hd hsqrt hmax s.displacement I hp (k + j) s1 h2 h3
        (hsat _ (by linarith))
      refine ⟨s2, ?_, g2, g3, by rw [g4]; linarith, ?_⟩
      · unfold qLoop at h1 ⊢
        rw [← Nat.add_assoc, List.range_succ, List.foldlM_append, h1]
        simp [bind, Except.bind, pure, Except.pure, g1]
      · rw [g5]
        split_ifs
        · refine ⟨later ++ [(s2.time, s.displacement, st)], by rw [h5, List.append_assoc], ?_⟩
          intro o ho
          rcases List.mem_append.mp ho with ho | ho
          · exact h6 o ho
          · rw [List.mem_singleton.mp ho]
        · exact ⟨later, h5, h6⟩
  obtain ⟨s', a, b, d, -, e⟩ := key
  exact ⟨s', a, b, d, e⟩

omit [IsStrictOrderedRing K] in
/-- A run starts undeformed, whatever is prescribed. -/
theorem qStart_undeformed (c : QConfig K) (s0 : S) : (qStart c s0).displacement = fun _ _ => 0 := by
  unfold qStart
  simp only
  unfold kinematic applyKinematicBC
  simp only [sub_self]
  have key : ∀ (l : List (BoundaryCondition K)) (q : Kin K), q.displacement = (fun _ _ => 0) →
      (l.foldl (kinematicBc c.manager c.X c.initialTime 0) q).displacement = fun _ _ => 0 := by
    intro l
    induction l with
    | nil => intro q hq; exact hq
    | cons bc l ih =>
      intro q hq
      refine ih _ ?_
      by_cases hty : bc.type = .prescribedDisplacement
      · unfold kinematicBc
        rw [hty]
        simp [hq]
      · rw [satisfied_kinematicBc, hq]
        intro n l _ _
        exact ⟨fun h => absurd h hty, fun _ => mul_zero _⟩
  exact key _ _ rfl

/-- **C154 (b)**.  A body without forces at rest, with zero prescribed displacements and velocities, stays at rest: the
run finishes and every output has zero displacement. -/
theorem stays_at_rest (c : QConfig K) (p : QPhysics K S) (hc : Consistent c) (hd : 0 < c.dim)
    (hsqrt : c.sqrt 0 = 0) (hmax : c.maxIter ≠ 0) (hranks : c.numRanks ≤ 1) (hlt : c.initialTime < c.finalTime)
    (s0 : S) (I : S → Prop) (hp : Settled c p (fun _ _ => 0) I) (hI : I s0)
    (hzero : ∀ bc ∈ c.manager.bcs, ∀ n t, prescribed c.manager bc c.X n t = 0) :
    ∃ s, qIntegrate c p s0 = .finished s ∧ (∀ n i, s.displacement n i = 0) ∧
      ∀ o ∈ s.outputs, ∀ n i, o.2.1 n i = 0 := by
  have hst := qStart_undeformed c s0
  have hloop : ∃ s, qLoop c p c.numSteps (qStart c s0) = .ok s ∧ s.displacement = (fun _ _ => 0) ∧
      ∀ o ∈ s.outputs, o.2.1 = fun _ _ => 0 := by
    have hout : ∀ o ∈ (qStart c s0).outputs, o.2.1 = fun _ _ => 0 := by
      intro o ho
      have : o = (c.initialTime, (qStart c s0).displacement, s0) := List.mem_singleton.mp ho
      rw [this]
      exact hst
    rcases Nat.eq_zero_or_pos c.numSteps with h0 | hpos
    · rw [h0]
      exact ⟨qStart c s0, rfl, hst, hout⟩
    · have hdt : 0 < c.dt := div_pos (sub_pos.mpr hlt) (Nat.cast_pos.mpr hpos)
      obtain ⟨s, h1, h2, -, later, h3, h4⟩ := equilibrium_kept c p hc hd hsqrt hmax hdt (qStart c s0) (qStart c s0) 0 rfl
        I (by rw [hst]; exact hp) hI
        (fun t _ bc hbc n l _ _ => ⟨fun _ => by rw [hst]; exact hzero bc hbc n t, fun _ => hzero bc hbc n t⟩) c.numSteps
      rw [Nat.zero_add] at h1
      refine ⟨s, h1, h2.trans hst, ?_⟩
      intro o ho
      rw [h3] at ho
      rcases List.mem_append.mp ho with ho | ho
      · exact hout o ho
      · rw [h4 o ho]; exact hst
  obtain ⟨s, h1, h2, h3⟩ := hloop
  refine ⟨s, ?_, fun n i => by rw [h2], fun o ho n i => by rw [h3 o ho]⟩
  unfold qIntegrate
  rw [if_neg (by omega), if_neg (not_lt.mpr hlt.le), h1]

/-! ## Concrete cases -/

/-- The forces of two nodes on a line joined by a hardening spring, `d + d³`. -/
def hardening (u : Nodal ℚ) : Nodal ℚ := fun n _ =>
  let d := u 1 0 - u 0 0
  if n = 0 then d + d ^ 3 else -(d + d ^ 3)

/-- Node 0 is moved to `ramp t`. -/
def restConfig (ramp : ℚ → ℚ) : QConfig ℚ where
  manager :=
    { sets := fun i => if i = 7 then some [0, 0] else none
      bcs := [⟨.prescribedDisplacement, 7, 0, .inr fun _ _ _ t => ramp t⟩], dim := 1, scheme := .quasistatic }
  X := fun n _ => n
  mass := fun _ => 1
  initialTime := 0
  finalTime := 3
  numSteps := 3
  frequency := 1
  numRanks := 1
  ids := [1, 0]
  relTol := 1 / 1000
  maxIter := 10
  cgTol := 1 / 10000000000000000
  cgMax := 1000
  sqrt := ratSqrt

/-- The state counts finished steps; the stiffness cannot be assembled. -/
def restPhysics : QPhysics ℚ ℕ where
  internal := fun s _ _ _ u => some (hardening u, s)
  tangent := fun _ _ => none
  updateStates := fun s => s + 1
  scratch := fun _ _ => CgScratch.fresh

theorem restConfig_consistent (ramp : ℚ → ℚ) : Consistent (restConfig ramp) where
  ids := by constructor <;> simp [restConfig]
  posed := by
    intro bc hbc
    rw [List.mem_singleton.mp hbc]
    exact ⟨[0, 0], rfl, by simp [restConfig]⟩
  coord := by
    intro bc hbc
    rw [List.mem_singleton.mp hbc]
    show 0 < 1
    omega

/-- Non-vacuity of (b): a non-linear spring whose stiffness cannot be assembled. -/
example : ∃ s, qIntegrate (restConfig fun _ => 0) restPhysics 0 = .finished s ∧ s.state = 3 ∧
    ∀ o ∈ s.outputs, ∀ n i, o.2.1 n i = 0 := by
  obtain ⟨s, h1, h2, h3⟩ := stays_at_rest (restConfig fun _ => 0) restPhysics (restConfig_consistent _) (by decide)
    (by decide +kernel) (by decide) (by decide) (by decide +kernel) 0 (fun _ => True)
    ⟨fun s _ tp tc out => ⟨_, s, rfl, trivial, fun n _ i _ _ => by simp [hardening]⟩, fun _ _ => trivial⟩ trivial
    (by
      intro bc hbc n t
      rw [List.mem_singleton.mp hbc]
      simp [prescribed])
  refine ⟨s, h1, ?_, h3⟩
  have : (match qIntegrate (restConfig fun _ => 0) restPhysics 0 with
    | .finished s => s.state | _ => 0) = 3 := by decide +kernel
  rw [h1] at this
  exact this

/-- The spring of `springMatrix`, over the rationals. -/
def movedPhysics : QPhysics ℚ ℕ where
  internal := fun s _ _ _ u => some (fun n _ => if n = 0 then u 1 0 - u 0 0 else u 0 0 - u 1 0, s)
  tangent := fun _ _ => some
    { allocated (Crs.empty : Crs ℚ) [(0, 0), (0, 1), (1, 0), (1, 1)] with data := [1, -1, -1, 1] }
  updateStates := fun s => s + 1
  scratch := fun _ _ => CgScratch.fresh

/-- Moved by 5 in the first step and kept there. -/
def moved : QConfig ℚ := restConfig fun t => if t ≤ 1 then 5 * t else 5

/-- Node 0, node 1 and the state after the first step. -/
def afterOne : Option (ℚ × ℚ × ℚ × ℚ) :=
  match qLoop moved movedPhysics 1 (qStart moved 0) with
  | .ok s => some (s.displacement 0 0, s.displacement 1 0, s.time, moved.dt)
  | _ => none

/-- Non-vacuity of (a): the deformed state after one step is an equilibrium and is kept for any number of steps. -/
example : ∃ s, qLoop moved movedPhysics 1 (qStart moved 0) = .ok s ∧ s.displacement 1 0 = 5 ∧
    ∀ j, ∃ s', qLoop moved movedPhysics (1 + j) (qStart moved 0) = .ok s' ∧ s'.displacement = s.displacement := by
  have h : afterOne = some (5, 5, 1, 1) := by decide +kernel
  unfold afterOne at h
  cases hq : qLoop moved movedPhysics 1 (qStart moved 0) with
  | error e => rw [hq] at h; simp at h
  | ok s =>
    rw [hq] at h
    simp only [Option.some.injEq, Prod.mk.injEq] at h
    obtain ⟨h0, h1, ht, hdt⟩ := h
    refine ⟨s, rfl, h1, fun j => ?_⟩
    obtain ⟨s', g1, g2, -⟩ := equilibrium_kept moved movedPhysics (restConfig_consistent _) (by decide)
      (by decide +kernel) (by decide) (by rw [hdt]; norm_num) (qStart moved 0) s 1 hq (fun _ => True)
      ⟨fun st _ tp tc out => ⟨_, st, rfl, trivial, fun n _ i _ _ => by simp [h0, h1]⟩, fun _ _ => trivial⟩ trivial
      (by
        intro t htt bc hbc n l hl hin
        rw [List.mem_singleton.mp hbc] at hl ⊢
        have h7 : moved.manager.sets 7 = some [0, 0] := rfl
        rw [← Option.some.inj (h7.symm.trans hl)] at hin
        have hn : n = 0 := by simpa using hin
        refine ⟨fun _ => ?_, fun hx => by simp at hx⟩
        rw [hn, h0]
        simp only [prescribed]
        rw [ht] at htt
        split_ifs <;> first | rfl | (exfalso; linarith)) j
    exact ⟨s', g1, g2⟩

end NimbleSM.Integrate
