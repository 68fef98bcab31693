import Verif.Integrate.StabilityProps

/-!
# C147: superposition

Three explicit runs (src/integrators/explicit_time_integrator.cc:60-325, with
src/nimble_boundary_condition_manager.h:93-205) of a body with linear forces: the loads, prescribed values and
initial velocities of the third are `α` times those of the first plus `β` times those of the second.
-/

namespace NimbleSM.Integrate

open NimbleSM.Bc

variable {K S : Type*} [Field K] [LinearOrder K]

/-! ## Specification -/

/-- `α u + β w`. -/
def comb (α β : K) (u w : Nodal K) : Nodal K := fun n i => α * u n i + β * w n i

/-- The same condition with the combined value, at every node and time. -/
structure CombinedBc (α β : K) (X : Nodal K) (m₁ m₂ m₃ : Manager K) (b₁ b₂ b₃ : BoundaryCondition K) : Prop where
  type : b₁.type = b₃.type ∧ b₂.type = b₃.type
  set : b₁.nodeSetId = b₃.nodeSetId ∧ b₂.nodeSetId = b₃.nodeSetId
  coordinate : b₁.coordinate = b₃.coordinate ∧ b₂.coordinate = b₃.coordinate
  value : ∀ n t, prescribed m₃ b₃ X n t = α * prescribed m₁ b₁ X n t + β * prescribed m₂ b₂ X n t

/-- The same problem with the combined loads. -/
structure Superposed (α β : K) (c₁ c₂ c₃ : Config K) : Prop where
  sets : c₁.manager.sets = c₃.manager.sets ∧ c₂.manager.sets = c₃.manager.sets
  scheme : c₁.manager.scheme = c₃.manager.scheme ∧ c₂.manager.scheme = c₃.manager.scheme
  X : c₁.X = c₃.X ∧ c₂.X = c₃.X
  mass : c₁.mass = c₃.mass ∧ c₂.mass = c₃.mass
  times : (c₁.initialTime = c₃.initialTime ∧ c₂.initialTime = c₃.initialTime) ∧
    c₁.finalTime = c₃.finalTime ∧ c₂.finalTime = c₃.finalTime
  steps : c₁.numSteps = c₃.numSteps ∧ c₂.numSteps = c₃.numSteps
  frequency : c₁.frequency = c₃.frequency ∧ c₂.frequency = c₃.frequency
  bcs : ∃ l : List (BoundaryCondition K × BoundaryCondition K × BoundaryCondition K),
    c₁.manager.bcs = l.map (·.1) ∧ c₂.manager.bcs = l.map (·.2.1) ∧ c₃.manager.bcs = l.map (·.2.2) ∧
    ∀ b ∈ l, CombinedBc α β c₃.X c₁.manager c₂.manager c₃.manager b.1 b.2.1 b.2.2

/-- No contact, loads that depend on the time only, internal forces that depend on the displacement only. -/
structure LoadedBody (p : Physics K S) (load : K → K → Nodal K) (force : Nodal K → Nodal K) : Prop where
  contact : p.contact = none
  external : ∀ s tp tc o, p.external s tp tc o = load tp tc
  internal : ∀ s tp tc o u, ∃ s', p.internal s tp tc o u = some (force u, s')

/-- The fields of the third run are the combination of those of the others. -/
structure CombinedSim (α β : K) (s₁ s₂ s₃ : Sim K S) : Prop where
  time : s₁.time = s₃.time ∧ s₂.time = s₃.time
  displacement : s₃.displacement = comb α β s₁.displacement s₂.displacement
  velocity : s₃.velocity = comb α β s₁.velocity s₂.velocity
  acceleration : s₃.acceleration = comb α β s₁.acceleration s₂.acceleration
  /-- and so is everything written -/
  outputs : s₁.outputs.length = s₃.outputs.length ∧ s₂.outputs.length = s₃.outputs.length ∧
    ∀ (k : ℕ) (o₁ o₂ o₃ : Output K), s₁.outputs[k]? = some o₁ → s₂.outputs[k]? = some o₂ → s₃.outputs[k]? = some o₃ →
      o₁.time = o₃.time ∧ o₂.time = o₃.time ∧ o₃.displacement = comb α β o₁.displacement o₂.displacement ∧
      o₃.velocity = comb α β o₁.velocity o₂.velocity ∧
      o₃.acceleration = comb α β o₁.acceleration o₂.acceleration

/-! ## The kinematic conditions are linear -/

omit [LinearOrder K] in
theorem setAt_comb (α β : K) (u w : Nodal K) (n i : ℕ) (x y : K) :
    setAt (comb α β u w) n i (α * x + β * y) = comb α β (setAt u n i x) (setAt w n i y) := by
  funext m j
  by_cases h : m = n ∧ j = i <;> simp [setAt, comb, h]

omit [LinearOrder K] in
theorem axpy_comb (α β a : K) (u w v z : Nodal K) :
    axpy (comb α β u w) a (comb α β v z) = comb α β (axpy u a v) (axpy w a z) := by
  funext n i
  unfold axpy comb
  ring

/-- Displacements and velocities are combined. -/
def CombinedKin (α β : K) (s₁ s₂ s₃ : Kin K) : Prop :=
  s₃.displacement = comb α β s₁.displacement s₂.displacement ∧ s₃.velocity = comb α β s₁.velocity s₂.velocity

theorem combined_bc {α β : K} {c₁ c₂ c₃ : Config K} (h : Superposed α β c₁ c₂ c₃) (tc dt : K)
    {b₁ b₂ b₃ : BoundaryCondition K} (hb : CombinedBc α β c₃.X c₁.manager c₂.manager c₃.manager b₁ b₂ b₃)
    {s₁ s₂ s₃ : Kin K} (hs : CombinedKin α β s₁ s₂ s₃) :
    CombinedKin α β (kinematicBc c₁.manager c₁.X tc dt s₁ b₁) (kinematicBc c₂.manager c₂.X tc dt s₂ b₂)
      (kinematicBc c₃.manager c₃.X tc dt s₃ b₃) := by
  have hn1 : c₁.manager.nodeSet b₁ = c₃.manager.nodeSet b₃ := by
    unfold Manager.nodeSet; rw [h.sets.1, hb.set.1]
  have hn2 : c₂.manager.nodeSet b₂ = c₃.manager.nodeSet b₃ := by
    unfold Manager.nodeSet; rw [h.sets.2, hb.set.2]
  have hval : ∀ n, c₃.manager.value b₃ c₃.X n tc
      = α * c₁.manager.value b₁ c₁.X n tc + β * c₂.manager.value b₂ c₂.X n tc := by
    intro n
    rw [value_eq, value_eq, value_eq, h.X.1, h.X.2]
    exact hb.value n tc
  unfold kinematicBc
  rw [hb.type.1, hb.type.2, hn1, hn2]
  split_ifs with h1 h2
  · generalize c₃.manager.nodeSet b₃ = l
    induction l generalizing s₁ s₂ s₃ with
    | nil => exact hs
    | cons n l ih =>
      apply ih
      obtain ⟨hd, hv⟩ := hs
      unfold velocityNode CombinedKin
      simp only
      rw [hval n, hv, hd, hb.coordinate.1, hb.coordinate.2, h.scheme.1, h.scheme.2]
      refine ⟨?_, setAt_comb _ _ _ _ _ _ _ _⟩
      split_ifs
      · rw [← setAt_comb]
        congr 1
        unfold comb
        ring
      · rfl
  · generalize c₃.manager.nodeSet b₃ = l
    induction l generalizing s₁ s₂ s₃ with
    | nil => exact hs
    | cons n l ih =>
      apply ih
      obtain ⟨hd, hv⟩ := hs
      unfold displacementNode CombinedKin
      simp only
      rw [hval n, hv, hd, hb.coordinate.1, hb.coordinate.2, h.scheme.1, h.scheme.2]
      constructor
      · split_ifs
        · exact setAt_comb _ _ _ _ _ _ _ _
        · rfl
      · rw [← setAt_comb]
        congr 1
        unfold comb
        ring
  · exact hs

theorem combined_kinematic {α β : K} {c₁ c₂ c₃ : Config K} (h : Superposed α β c₁ c₂ c₃) (tc tp : K)
    (u₁ u₂ v₁ v₂ : Nodal K) :
    (kinematic c₃ tc tp (comb α β u₁ u₂) (comb α β v₁ v₂)).1
        = comb α β (kinematic c₁ tc tp u₁ v₁).1 (kinematic c₂ tc tp u₂ v₂).1 ∧
      (kinematic c₃ tc tp (comb α β u₁ u₂) (comb α β v₁ v₂)).2
        = comb α β (kinematic c₁ tc tp u₁ v₁).2 (kinematic c₂ tc tp u₂ v₂).2 := by
  obtain ⟨l, h1, h2, h3, hl⟩ := h.bcs
  unfold kinematic applyKinematicBC
  simp only
  rw [h1, h2, h3]
  have key : ∀ (l : List (BoundaryCondition K × BoundaryCondition K × BoundaryCondition K)),
      (∀ b ∈ l, CombinedBc α β c₃.X c₁.manager c₂.manager c₃.manager b.1 b.2.1 b.2.2) →
      ∀ s₁ s₂ s₃ : Kin K, CombinedKin α β s₁ s₂ s₃ →
      CombinedKin α β ((l.map (·.1)).foldl (kinematicBc c₁.manager c₁.X tc (tc - tp)) s₁)
        ((l.map (·.2.1)).foldl (kinematicBc c₂.manager c₂.X tc (tc - tp)) s₂)
        ((l.map (·.2.2)).foldl (kinematicBc c₃.manager c₃.X tc (tc - tp)) s₃) := by
    intro l
    induction l with
    | nil => intro _ s₁ s₂ s₃ hs; exact hs
    | cons b l ih =>
      intro hl s₁ s₂ s₃ hs
      simp only [List.map_cons, List.foldl_cons]
      exact ih (fun b hb => hl b (List.mem_cons_of_mem _ hb)) _ _ _
        (combined_bc h tc (tc - tp) (hl b List.mem_cons_self) hs)
  exact key l hl _ _ _ ⟨rfl, rfl⟩

theorem combined_initial {α β : K} {c₁ c₂ c₃ : Config K} (h : Superposed α β c₁ c₂ c₃) :
    (applyInitialConditions c₃.manager c₃.X (fun _ _ => 0) []).1
      = comb α β (applyInitialConditions c₁.manager c₁.X (fun _ _ => 0) []).1
          (applyInitialConditions c₂.manager c₂.X (fun _ _ => 0) []).1 := by
  obtain ⟨l, h1, h2, h3, hl⟩ := h.bcs
  unfold applyInitialConditions
  rw [h1, h2, h3]
  have key : ∀ (l : List (BoundaryCondition K × BoundaryCondition K × BoundaryCondition K)),
      (∀ b ∈ l, CombinedBc α β c₃.X c₁.manager c₂.manager c₃.manager b.1 b.2.1 b.2.2) →
      ∀ s₁ s₂ s₃ : Nodal K × List (Nodal K), s₃.1 = comb α β s₁.1 s₂.1 →
      ((l.map (·.2.2)).foldl (fun st bc => if bc.type = .initialVelocity then
          (c₃.manager.nodeSet bc).foldl (fun (st : Nodal K × List (Nodal K)) n =>
            (setAt st.1 n bc.coordinate (c₃.manager.value bc c₃.X n 0),
              st.2.map fun o => setAt o n bc.coordinate (c₃.manager.value bc c₃.X n 0))) st else st) s₃).1
        = comb α β
          ((l.map (·.1)).foldl (fun st bc => if bc.type = .initialVelocity then
            (c₁.manager.nodeSet bc).foldl (fun (st : Nodal K × List (Nodal K)) n =>
            (setAt st.1 n bc.coordinate (c₁.manager.value bc c₁.X n 0),
              st.2.map fun o => setAt o n bc.coordinate (c₁.manager.value bc c₁.X n 0))) st else st) s₁).1
          ((l.map (·.2.1)).foldl (fun st bc => if bc.type = .initialVelocity then
            (c₂.manager.nodeSet bc).foldl (fun (st : Nodal K × List (Nodal K)) n =>
            (setAt st.1 n bc.coordinate (c₂.manager.value bc c₂.X n 0),
              st.2.map fun o => setAt o n bc.coordinate (c₂.manager.value bc c₂.X n 0))) st else st) s₂).1 := by
    intro l
    induction l with
    | nil => intro _ s₁ s₂ s₃ hs; exact hs
    | cons b l ih =>
      intro hl s₁ s₂ s₃ hs
      simp only [List.map_cons, List.foldl_cons]
      apply ih (fun b hb => hl b (List.mem_cons_of_mem _ hb))
      have hb := hl b List.mem_cons_self
      have hn1 : c₁.manager.nodeSet b.1 = c₃.manager.nodeSet b.2.2 := by
        unfold Manager.nodeSet; rw [h.sets.1, hb.set.1]
      have hn2 : c₂.manager.nodeSet b.2.1 = c₃.manager.nodeSet b.2.2 := by
        unfold Manager.nodeSet; rw [h.sets.2, hb.set.2]
      rw [hb.type.1, hb.type.2, hn1, hn2]
      split_ifs
      · generalize c₃.manager.nodeSet b.2.2 = ns
        induction ns generalizing s₁ s₂ s₃ with
        | nil => exact hs
        | cons n ns ihn =>
          simp only [List.foldl_cons]
          apply ihn
          simp only
          rw [hs, hb.coordinate.1, hb.coordinate.2, value_eq, value_eq, value_eq, h.X.1, h.X.2, hb.value]
          exact setAt_comb _ _ _ _ _ _ _ _
      · exact hs
  exact key l hl _ _ _ (by funext n i; simp [comb])

/-! ## Superposition -/

theorem combined_step {α β : K} {c₁ c₂ c₃ : Config K} (h : Superposed α β c₁ c₂ c₃) {p₁ p₂ p₃ : Physics K S}
    {load₁ load₂ load₃ : K → K → Nodal K} {force : Nodal K → Nodal K}
    (h₁ : LoadedBody p₁ load₁ force) (h₂ : LoadedBody p₂ load₂ force) (h₃ : LoadedBody p₃ load₃ force)
    (hload : ∀ tp tc, load₃ tp tc = comb α β (load₁ tp tc) (load₂ tp tc))
    (hforce : ∀ u w, force (comb α β u w) = comb α β (force u) (force w)) (k : ℕ) (s₁ s₂ s₃ : Sim K S)
    (hs : CombinedSim α β s₁ s₂ s₃) :
    ∃ t₁ t₂ t₃, step c₁ p₁ k s₁ = some t₁ ∧ step c₂ p₂ k s₂ = some t₂ ∧ step c₃ p₃ k s₃ = some t₃ ∧
      CombinedSim α β t₁ t₂ t₃ := by
  have hdt1 : c₁.dt = c₃.dt := by unfold Config.dt; rw [h.times.1.1, h.times.2.1, h.steps.1]
  have hdt2 : c₂.dt = c₃.dt := by unfold Config.dt; rw [h.times.1.2, h.times.2.2, h.steps.2]
  have ho1 : c₁.isOutputStep k = c₃.isOutputStep k := by
    unfold Config.isOutputStep; rw [h.frequency.1, h.steps.1]
  have ho2 : c₂.isOutputStep k = c₃.isOutputStep k := by
    unfold Config.isOutputStep; rw [h.frequency.2, h.steps.2]
  unfold step
  simp only [hdt1, hdt2, ho1, ho2, hs.time.1, hs.time.2, hs.displacement, hs.velocity, hs.acceleration]
  set tp := s₃.time
  set tc := tp + c₃.dt
  set hf := (0.5 : K) * (tc - tp)
  rw [axpy_comb]
  set w₁ := axpy s₁.velocity hf s₁.acceleration
  set w₂ := axpy s₂.velocity hf s₂.acceleration
  obtain ⟨e1, e2⟩ := combined_kinematic h tc tp s₁.displacement s₂.displacement w₁ w₂
  rw [e1, e2, axpy_comb]
  set u₁ := axpy (kinematic c₁ tc tp s₁.displacement w₁).1 (tc - tp) (kinematic c₁ tc tp s₁.displacement w₁).2
  set u₂ := axpy (kinematic c₂ tc tp s₂.displacement w₂).1 (tc - tp) (kinematic c₂ tc tp s₂.displacement w₂).2
  set v₁ := (kinematic c₁ tc tp s₁.displacement w₁).2
  set v₂ := (kinematic c₂ tc tp s₂.displacement w₂).2
  obtain ⟨e3, e4⟩ := combined_kinematic h tc tp u₁ u₂ v₁ v₂
  rw [e3, e4]
  set d₁ := (kinematic c₁ tc tp u₁ v₁).1
  set d₂ := (kinematic c₂ tc tp u₂ v₂).1
  set x₁ := (kinematic c₁ tc tp u₁ v₁).2
  set x₂ := (kinematic c₂ tc tp u₂ v₂).2
  obtain ⟨r₁, i₁⟩ := h₁.internal s₁.state tp tc (c₃.isOutputStep k) d₁
  obtain ⟨r₂, i₂⟩ := h₂.internal s₂.state tp tc (c₃.isOutputStep k) d₂
  obtain ⟨r₃, i₃⟩ := h₃.internal s₃.state tp tc (c₃.isOutputStep k) (comb α β d₁ d₂)
  rw [i₁, i₂, i₃, h₁.external, h₂.external, h₃.external]
  simp only [Option.bind_eq_bind, Option.bind_some, contactForce, h₁.contact, h₂.contact, h₃.contact]
  have hacc : accel c₃ (force (comb α β d₁ d₂)) (load₃ tp tc) none
      = comb α β (accel c₁ (force d₁) (load₁ tp tc) none) (accel c₂ (force d₂) (load₂ tp tc) none) := by
    rw [hload, hforce]
    funext n i
    unfold accel comb
    simp only [h.mass.1, h.mass.2]
    ring
  rw [hacc, axpy_comb]
  set a₁ := accel c₁ (force d₁) (load₁ tp tc) none
  set a₂ := accel c₂ (force d₂) (load₂ tp tc) none
  obtain ⟨e5, e6⟩ := combined_kinematic h tc tp d₁ d₂ (axpy x₁ hf a₁) (axpy x₂ hf a₂)
  obtain ⟨l1, l2, hall⟩ := hs.outputs
  have happ : ∀ (o₁ o₂ o₃ : Output K), (o₁.time = o₃.time ∧ o₂.time = o₃.time ∧
        o₃.displacement = comb α β o₁.displacement o₂.displacement ∧
        o₃.velocity = comb α β o₁.velocity o₂.velocity ∧ o₃.acceleration = comb α β o₁.acceleration o₂.acceleration) →
      (s₁.outputs ++ [o₁]).length = (s₃.outputs ++ [o₃]).length ∧
      (s₂.outputs ++ [o₂]).length = (s₃.outputs ++ [o₃]).length ∧
      ∀ (k : ℕ) (q₁ q₂ q₃ : Output K), (s₁.outputs ++ [o₁])[k]? = some q₁ → (s₂.outputs ++ [o₂])[k]? = some q₂ →
        (s₃.outputs ++ [o₃])[k]? = some q₃ →
        q₁.time = q₃.time ∧ q₂.time = q₃.time ∧ q₃.displacement = comb α β q₁.displacement q₂.displacement ∧
        q₃.velocity = comb α β q₁.velocity q₂.velocity ∧ q₃.acceleration = comb α β q₁.acceleration q₂.acceleration := by
    intro o₁ o₂ o₃ ho
    refine ⟨by simp [l1], by simp [l2], ?_⟩
    intro j q₁ q₂ q₃ hq1 hq2 hq3
    by_cases hj : j < s₃.outputs.length
    · rw [List.getElem?_append_left (by omega)] at hq1 hq2 hq3
      exact hall j q₁ q₂ q₃ hq1 hq2 hq3
    · have hj2 : j = s₃.outputs.length := by
        obtain ⟨hlt, -⟩ := List.getElem?_eq_some_iff.mp hq3
        rw [List.length_append, List.length_singleton] at hlt
        omega
      rw [List.getElem?_append_right (by omega)] at hq1 hq2 hq3
      rw [hj2, l1, Nat.sub_self, List.getElem?_cons_zero, Option.some.injEq] at hq1
      rw [hj2, l2, Nat.sub_self, List.getElem?_cons_zero, Option.some.injEq] at hq2
      rw [hj2, Nat.sub_self, List.getElem?_cons_zero, Option.some.injEq] at hq3
      rw [← hq1, ← hq2, ← hq3]
      exact ho
  refine ⟨_, _, _, rfl, rfl, rfl, ?_⟩
  cases hout : c₃.isOutputStep k with
  | false =>
    simp only [Bool.false_eq_true, if_false]
    exact ⟨⟨rfl, rfl⟩, rfl, rfl, rfl, l1, l2, hall⟩
  | true =>
    simp only [if_true]
    exact ⟨⟨rfl, rfl⟩, e5, e6, rfl, happ _ _ _ ⟨rfl, rfl, e5, e6, rfl⟩⟩

theorem combined_start {α β : K} {c₁ c₂ c₃ : Config K} (h : Superposed α β c₁ c₂ c₃) (s₁ s₂ s₃ : S) :
    CombinedSim α β (start c₁ s₁) (start c₂ s₂) (start c₃ s₃) := by
  have hz : (fun _ _ => 0 : Nodal K) = comb α β (fun _ _ => 0) (fun _ _ => 0) := by
    funext n i; simp [comb]
  obtain ⟨e1, e2⟩ := combined_kinematic h 0 0 (fun _ _ => 0) (fun _ _ => 0)
    (applyInitialConditions c₁.manager c₁.X (fun _ _ => 0) []).1
    (applyInitialConditions c₂.manager c₂.X (fun _ _ => 0) []).1
  rw [← hz, ← combined_initial h] at e1 e2
  refine ⟨h.times.1, e1, e2, hz, rfl, rfl, ?_⟩
  intro k o₁ o₂ o₃ h1 h2 h3
  have hk : k = 0 := by
    obtain ⟨hlt, -⟩ := List.getElem?_eq_some_iff.mp h3
    have : (start c₃ s₃).outputs.length = 1 := rfl
    omega
  subst hk
  unfold start at h1 h2 h3
  simp only [List.getElem?_cons_zero, Option.some.injEq] at h1 h2 h3
  subst h1 h2 h3
  exact ⟨h.times.1.1, h.times.1.2, e1, e2, hz⟩

/-- **C147**.  If the loads, prescribed values and initial velocities of a run are `α` times those of a first run
plus `β` times those of a second, and the internal forces are linear, then all three runs finish, and every field
of every output and at the end is `α` times that of the first plus `β` times that of the second. -/
theorem superposition {α β : K} {c₁ c₂ c₃ : Config K} (h : Superposed α β c₁ c₂ c₃) {p₁ p₂ p₃ : Physics K S}
    {load₁ load₂ load₃ : K → K → Nodal K} {force : Nodal K → Nodal K}
    (h₁ : LoadedBody p₁ load₁ force) (h₂ : LoadedBody p₂ load₂ force) (h₃ : LoadedBody p₃ load₃ force)
    (hload : ∀ tp tc, load₃ tp tc = comb α β (load₁ tp tc) (load₂ tp tc))
    (hforce : ∀ u w, force (comb α β u w) = comb α β (force u) (force w)) (s₁ s₂ s₃ : S)
    (htime : c₃.initialTime ≤ c₃.finalTime) (rank : ℕ) :
    ∃ t₁ t₂ t₃, integrate c₁ p₁ s₁ rank = .finished t₁ ∧ integrate c₂ p₂ s₂ rank = .finished t₂ ∧
      integrate c₃ p₃ s₃ rank = .finished t₃ ∧ CombinedSim α β t₁ t₂ t₃ := by
  have hloop : ∀ n, ∃ t₁ t₂ t₃, loop c₁ p₁ n (start c₁ s₁) = some t₁ ∧ loop c₂ p₂ n (start c₂ s₂) = some t₂ ∧
      loop c₃ p₃ n (start c₃ s₃) = some t₃ ∧ CombinedSim α β t₁ t₂ t₃ := by
    intro n
    induction n with
    | zero => exact ⟨_, _, _, rfl, rfl, rfl, combined_start h s₁ s₂ s₃⟩
    | succ n ih =>
      obtain ⟨t₁, t₂, t₃, l₁, l₂, l₃, hc⟩ := ih
      obtain ⟨q₁, q₂, q₃, m₁, m₂, m₃, hc'⟩ := combined_step h h₁ h₂ h₃ hload hforce n t₁ t₂ t₃ hc
      refine ⟨q₁, q₂, q₃, ?_, ?_, ?_, hc'⟩ <;> unfold loop at * <;> rw [List.range_succ, List.foldlM_append]
      · rw [l₁]; simpa using m₁
      · rw [l₂]; simpa using m₂
      · rw [l₃]; simpa using m₃
  obtain ⟨t₁, t₂, t₃, l₁, l₂, l₃, hc⟩ := hloop c₃.numSteps
  refine ⟨t₁, t₂, t₃, ?_, ?_, ?_, hc⟩ <;> unfold integrate
  · rw [h.times.1.1, h.times.2.1, h.steps.1, if_neg (fun hx => absurd hx.2 (not_lt.mpr htime)), l₁]
  · rw [h.times.1.2, h.times.2.2, h.steps.2, if_neg (fun hx => absurd hx.2 (not_lt.mpr htime)), l₂]
  · rw [if_neg (fun hx => absurd hx.2 (not_lt.mpr htime)), l₃]

/-- With `α` times the loads, prescribed values and initial velocities, everything is `α` times as large. -/
theorem proportional_response {α : K} {c₁ c₃ : Config K} (h : Superposed α 0 c₁ c₁ c₃) {p₁ p₃ : Physics K S}
    {load₁ load₃ : K → K → Nodal K} {force : Nodal K → Nodal K} (h₁ : LoadedBody p₁ load₁ force)
    (h₃ : LoadedBody p₃ load₃ force) (hload : ∀ tp tc n i, load₃ tp tc n i = α * load₁ tp tc n i)
    (hforce : ∀ u n i, force (fun n i => α * u n i) n i = α * force u n i) (s₁ s₃ : S)
    (htime : c₃.initialTime ≤ c₃.finalTime) (rank : ℕ) :
    ∃ t₁ t₃, integrate c₁ p₁ s₁ rank = .finished t₁ ∧ integrate c₃ p₃ s₃ rank = .finished t₃ ∧
      (∀ n i, t₃.displacement n i = α * t₁.displacement n i ∧ t₃.velocity n i = α * t₁.velocity n i ∧
        t₃.acceleration n i = α * t₁.acceleration n i) ∧
      t₁.outputs.length = t₃.outputs.length ∧
      ∀ (k : ℕ) (o₁ o₃ : Output K), t₁.outputs[k]? = some o₁ → t₃.outputs[k]? = some o₃ →
        o₁.time = o₃.time ∧ ∀ n i, o₃.displacement n i = α * o₁.displacement n i ∧
          o₃.velocity n i = α * o₁.velocity n i ∧ o₃.acceleration n i = α * o₁.acceleration n i := by
  have hc : ∀ u w : Nodal K, comb α 0 u w = fun n i => α * u n i := by
    intro u w; funext n i; simp [comb]
  obtain ⟨t₁, t₂, t₃, i₁, i₂, i₃, hs⟩ := superposition h h₁ h₁ h₃
    (fun tp tc => by rw [hc]; funext n i; exact hload tp tc n i)
    (fun u w => by rw [hc, hc]; funext n i; exact hforce u n i) s₁ s₁ s₃ htime rank
  have ht : t₂ = t₁ := by
    rw [i₁] at i₂
    simpa using i₂.symm
  subst ht
  refine ⟨t₂, t₃, i₁, i₃, fun n i => ⟨?_, ?_, ?_⟩, hs.outputs.1, ?_⟩
  · rw [hs.displacement, hc]
  · rw [hs.velocity, hc]
  · rw [hs.acceleration, hc]
  · intro k o₁ o₃ e₁ e₃
    obtain ⟨a, -, b, c, d⟩ := hs.outputs.2.2 k o₁ o₁ o₃ e₁ e₁ e₃
    refine ⟨a, fun n i => ⟨?_, ?_, ?_⟩⟩
    · rw [b, hc]
    · rw [c, hc]
    · rw [d, hc]

/-- Without loads, prescribed values and initial velocities nothing ever moves. -/
theorem unloaded_stays_at_rest (c : Config K) (p : Physics K S) {force : Nodal K → Nodal K}
    (hp : LoadedBody p (fun _ _ _ _ => 0) force) (hforce : force (fun _ _ => 0) = fun _ _ => 0)
    (hbc : ∀ b ∈ c.manager.bcs, ∀ n t, prescribed c.manager b c.X n t = 0) (s : S)
    (htime : c.initialTime ≤ c.finalTime) (rank : ℕ) :
    ∃ t, integrate c p s rank = .finished t ∧
      (∀ n i, t.displacement n i = 0 ∧ t.velocity n i = 0 ∧ t.acceleration n i = 0) ∧
      ∀ o ∈ t.outputs, ∀ n i, o.displacement n i = 0 ∧ o.velocity n i = 0 ∧ o.acceleration n i = 0 := by
  have hz : ∀ u w : Nodal K, comb 0 0 u w = fun _ _ => 0 := by
    intro u w; funext n i; simp [comb]
  have h : Superposed (0 : K) 0 c c c := by
    refine ⟨⟨rfl, rfl⟩, ⟨rfl, rfl⟩, ⟨rfl, rfl⟩, ⟨rfl, rfl⟩, ⟨⟨rfl, rfl⟩, rfl, rfl⟩, ⟨rfl, rfl⟩, ⟨rfl, rfl⟩,
      c.manager.bcs.map fun b => (b, b, b), ?_, ?_, ?_, ?_⟩
    · simp [List.map_map, Function.comp_def]
    · simp [List.map_map, Function.comp_def]
    · simp [List.map_map, Function.comp_def]
    · intro b hb
      obtain ⟨b', hb', rfl⟩ := List.mem_map.mp hb
      refine ⟨⟨rfl, rfl⟩, ⟨rfl, rfl⟩, ⟨rfl, rfl⟩, ?_⟩
      intro n t
      rw [hbc b' hb']; ring
  obtain ⟨t₁, t₂, t₃, i₁, i₂, i₃, hs⟩ := superposition h hp hp hp
    (fun tp tc => by rw [hz]) (fun u w => by rw [hz, hz]; exact hforce) s s s htime rank
  have e₁ : t₁ = t₃ := by rw [i₃] at i₁; simpa using i₁.symm
  have e₂ : t₂ = t₃ := by rw [i₃] at i₂; simpa using i₂.symm
  subst e₁ e₂
  refine ⟨t₂, i₁, fun n i => ⟨?_, ?_, ?_⟩, ?_⟩
  · rw [hs.displacement, hz]
  · rw [hs.velocity, hz]
  · rw [hs.acceleration, hz]
  · intro o ho n i
    obtain ⟨k, hk⟩ := List.mem_iff_getElem?.mp ho
    obtain ⟨-, -, a, b, d⟩ := hs.outputs.2.2 k o o o hk hk hk
    refine ⟨?_, ?_, ?_⟩
    · rw [a, hz]
    · rw [b, hz]
    · rw [d, hz]

/-! ## Non-vacuity -/

/-- Unit springs to the reference position, under loads `c t` along the first axis. -/
def loadedSprings (c : ℚ) : Physics ℚ Unit where
  external := fun _ _ tc _ => fun _ i => if i = 0 then c * tc else 0
  internal := fun _ _ _ _ u => some (fun n i => -u n i, ())
  contact := none
  updateStates := id

/-- Velocity `a` on the first set, displacement `b x t` on the second, initial velocity `d` on the first. -/
def superDemo (a b d : ℚ) : Config ℚ :=
  { driven with frequency := 1, manager := { demoManager with
      bcs := [⟨.prescribedVelocity, 1, 0, .inl a⟩, ⟨.prescribedDisplacement, 2, 2, .inr fun x _ _ t => b * x * t⟩,
        ⟨.initialVelocity, 1, 1, .inl d⟩] } }

theorem superDemo_superposed :
    Superposed 2 (-3) (superDemo 5 1 7) (superDemo 1 4 (-2)) (superDemo 7 (-10) 20) := by
  refine ⟨⟨rfl, rfl⟩, ⟨rfl, rfl⟩, ⟨rfl, rfl⟩, ⟨rfl, rfl⟩, ⟨⟨rfl, rfl⟩, rfl, rfl⟩, ⟨rfl, rfl⟩, ⟨rfl, rfl⟩,
    [(⟨.prescribedVelocity, 1, 0, .inl 5⟩, ⟨.prescribedVelocity, 1, 0, .inl 1⟩, ⟨.prescribedVelocity, 1, 0, .inl 7⟩),
     (⟨.prescribedDisplacement, 2, 2, .inr fun x _ _ t => 1 * x * t⟩,
      ⟨.prescribedDisplacement, 2, 2, .inr fun x _ _ t => 4 * x * t⟩,
      ⟨.prescribedDisplacement, 2, 2, .inr fun x _ _ t => -10 * x * t⟩),
     (⟨.initialVelocity, 1, 1, .inl 7⟩, ⟨.initialVelocity, 1, 1, .inl (-2)⟩, ⟨.initialVelocity, 1, 1, .inl 20⟩)],
    rfl, rfl, rfl, ?_⟩
  intro b hb
  simp only [List.mem_cons, List.not_mem_nil, or_false] at hb
  rcases hb with rfl | rfl | rfl <;> refine ⟨⟨rfl, rfl⟩, ⟨rfl, rfl⟩, ⟨rfl, rfl⟩, ?_⟩ <;> intro n t
  · simp only [prescribed]; norm_num
  · simp only [prescribed, superDemo, demoManager, if_true]; ring
  · simp only [prescribed]; norm_num

theorem loadedSprings_body (c : ℚ) :
    LoadedBody (loadedSprings c) (fun _ tc _ i => if i = 0 then c * tc else 0) fun u n i => -u n i :=
  ⟨rfl, fun _ _ _ _ => rfl, fun _ _ _ _ _ => ⟨(), rfl⟩⟩

/-- What a run shows: free displacement, prescribed displacement and velocities, accelerations at the end. -/
def superShow (c : Config ℚ) (p : Physics ℚ Unit) : Option (List ℚ) :=
  match integrate c p () 0 with
  | .finished s => some [s.displacement 3 0, s.displacement 1 2, s.displacement 0 1, s.velocity 2 0,
      s.velocity 1 0, s.acceleration 1 2]
  | _ => none

/-- Three different runs, with conditions, loads and initial velocities: the hypotheses hold and the response is
the combination. -/
example : (∃ t₁ t₂ t₃, integrate (superDemo 5 1 7) (loadedSprings 1) () 0 = .finished t₁ ∧
      integrate (superDemo 1 4 (-2)) (loadedSprings 6) () 0 = .finished t₂ ∧
      integrate (superDemo 7 (-10) 20) (loadedSprings (-16)) () 0 = .finished t₃ ∧
      CombinedSim 2 (-3) t₁ t₂ t₃) ∧
    (∀ x ∈ superShow (superDemo 5 1 7) (loadedSprings 1), ∀ v ∈ x, v ≠ 0) ∧
    superShow (superDemo 5 1 7) (loadedSprings 1) ≠ none := by
  refine ⟨?_, by decide +kernel, by decide +kernel⟩
  refine superposition superDemo_superposed (loadedSprings_body 1) (loadedSprings_body 6) (loadedSprings_body (-16))
    ?_ ?_ () () () ?_ 0
  · intro tp tc; funext n i; unfold comb; simp only; split_ifs <;> ring
  · intro u w; funext n i; unfold comb; ring
  · change (1 : ℚ) ≤ 2; norm_num

/-- Doubling. -/
example : ∃ t₁ t₃, integrate (superDemo 5 1 7) (loadedSprings 1) () 0 = .finished t₁ ∧
    integrate (superDemo 10 2 14) (loadedSprings 2) () 0 = .finished t₃ ∧
    t₃.displacement 3 0 = 2 * t₁.displacement 3 0 := by
  have h : Superposed (2 : ℚ) 0 (superDemo 5 1 7) (superDemo 5 1 7) (superDemo 10 2 14) := by
    refine ⟨⟨rfl, rfl⟩, ⟨rfl, rfl⟩, ⟨rfl, rfl⟩, ⟨rfl, rfl⟩, ⟨⟨rfl, rfl⟩, rfl, rfl⟩, ⟨rfl, rfl⟩, ⟨rfl, rfl⟩,
      [(⟨.prescribedVelocity, 1, 0, .inl 5⟩, ⟨.prescribedVelocity, 1, 0, .inl 5⟩,
        ⟨.prescribedVelocity, 1, 0, .inl 10⟩),
       (⟨.prescribedDisplacement, 2, 2, .inr fun x _ _ t => 1 * x * t⟩,
        ⟨.prescribedDisplacement, 2, 2, .inr fun x _ _ t => 1 * x * t⟩,
        ⟨.prescribedDisplacement, 2, 2, .inr fun x _ _ t => 2 * x * t⟩),
       (⟨.initialVelocity, 1, 1, .inl 7⟩, ⟨.initialVelocity, 1, 1, .inl 7⟩, ⟨.initialVelocity, 1, 1, .inl 14⟩)],
      rfl, rfl, rfl, ?_⟩
    intro b hb
    simp only [List.mem_cons, List.not_mem_nil, or_false] at hb
    rcases hb with rfl | rfl | rfl <;> refine ⟨⟨rfl, rfl⟩, ⟨rfl, rfl⟩, ⟨rfl, rfl⟩, ?_⟩ <;> intro n t
    · simp only [prescribed]; norm_num
    · simp only [prescribed, superDemo, demoManager, if_true]; ring
    · simp only [prescribed]; norm_num
  obtain ⟨t₁, t₃, i₁, i₃, hd, -⟩ := proportional_response h (loadedSprings_body 1) (loadedSprings_body 2)
    (fun tp tc n i => by split_ifs <;> ring) (fun u n i => by ring) () ()
    (by change (1 : ℚ) ≤ 2; norm_num) 0
  exact ⟨t₁, t₃, i₁, i₃, (hd 3 0).1⟩

/-- Rest, with conditions that prescribe zero. -/
example : ∃ t, integrate (superDemo 0 0 0) (loadedSprings 0) () 0 = .finished t ∧ t.outputs.length = 3 ∧
    ∀ o ∈ t.outputs, o.velocity 1 2 = 0 := by
  obtain ⟨t, ht, -, ho⟩ := unloaded_stays_at_rest (superDemo 0 0 0) (loadedSprings 0)
    (force := fun u n i => -u n i) ⟨rfl, fun _ _ _ _ => by funext n i; simp [loadedSprings], fun _ _ _ _ _ => ⟨(), rfl⟩⟩
    (by funext n i; simp)
    (by
      intro b hb n t
      simp only [superDemo, List.mem_cons, List.not_mem_nil, or_false] at hb
      rcases hb with rfl | rfl | rfl <;> simp [prescribed])
    () (by change (1 : ℚ) ≤ 2; norm_num) 0
  refine ⟨t, ht, ?_, fun o h => (ho o h 1 2).2.1⟩
  have : (match integrate (superDemo 0 0 0) (loadedSprings 0) () 0 with
    | .finished s => s.outputs.length | _ => 0) = 3 := by decide +kernel
  rw [ht] at this
  exact this

end NimbleSM.Integrate
