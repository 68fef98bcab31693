import Verif.Integrate.FrequencyProps

/-!
# C156: the order of the boundary conditions

Explicit runs (src/integrators/explicit_time_integrator.cc) with the boundary condition lines of the deck in another
order (src/nimble_boundary_condition_manager.h:93-205).
-/

namespace NimbleSM.Integrate

open NimbleSM.Bc

variable {K S : Type*} [Field K] [LinearOrder K] [IsStrictOrderedRing K]

/-! ## Specification -/

/-- The condition sets the initial velocity of the degree of freedom. -/
def StartsAt (m : Manager K) (bc : BoundaryCondition K) (n i : ℕ) : Prop :=
  bc.type = .initialVelocity ∧ bc.coordinate = i ∧ n ∈ m.nodeSet bc

/-- No two prescribed velocities or displacements act on the same degree of freedom, and no two initial velocities. -/
def Apart (m : Manager K) : Prop :=
  m.bcs.Pairwise fun a b => ∀ n i, ¬ (Acts m a n i ∧ Acts m b n i) ∧ ¬ (StartsAt m a n i ∧ StartsAt m b n i)

/-- The same input with the conditions in the order `l`. -/
def Config.withBcs (c : Config K) (l : List (BoundaryCondition K)) : Config K :=
  { c with manager := { c.manager with bcs := l } }

/-! ## One application -/

omit [Field K] [LinearOrder K] [IsStrictOrderedRing K] in
/-- A list of which no two members have the property has at most one place with it. -/
theorem split_unique {A : Type*} (P : A → Prop) (l : List A) (h : l.Pairwise fun a b => ¬ (P a ∧ P b)) {x : A}
    (hx : x ∈ l) (hp : P x) : ∃ pre post, l = pre ++ x :: post ∧ (∀ a ∈ pre, ¬ P a) ∧ ∀ a ∈ post, ¬ P a := by
  obtain ⟨pre, post, rfl⟩ := List.append_of_mem hx
  rw [List.pairwise_append, List.pairwise_cons] at h
  exact ⟨pre, post, rfl, fun a ha q => h.2.2 a ha x List.mem_cons_self ⟨q, hp⟩, fun a ha q => h.2.1.1 a ha ⟨hp, q⟩⟩

omit [IsStrictOrderedRing K] in
/-- Where a single condition acts, the result is that of this condition alone. -/
theorem fold_single (m : Manager K) (hm : m.scheme ≠ .quasistatic) (X : Nodal K) (tc dt : K)
    (pre post : List (BoundaryCondition K)) (b : BoundaryCondition K) (n i : ℕ) (hpre : ∀ a ∈ pre, ¬ Acts m a n i)
    (hpost : ∀ a ∈ post, ¬ Acts m a n i) (s : Kin K) :
    ((pre ++ b :: post).foldl (kinematicBc m X tc dt) s).velocity n i = (kinematicBc m X tc dt s b).velocity n i := by
  rw [List.foldl_append, List.foldl_cons]
  have h1 := foldl_not_acts m X tc dt post n i hpost (kinematicBc m X tc dt (pre.foldl (kinematicBc m X tc dt) s) b)
  have h2 := foldl_not_acts m X tc dt pre n i hpre s
  simp only [Kin.dof, Prod.mk.injEq] at h1 h2
  rw [h1.2.1]
  rcases bc_dichotomy m hm X dt b n i with h | h
  · rw [h, h, h2.2.1]
  · exact h tc _ _ (fold_displacement m hm X tc dt pre s)

omit [IsStrictOrderedRing K] in
theorem kinematic_order (c : Config K) (hm : c.manager.scheme ≠ .quasistatic) (ha : Apart c.manager)
    (l : List (BoundaryCondition K)) (hl : l.Perm c.manager.bcs) (tc tp : K) (u v : Nodal K) :
    kinematic (c.withBcs l) tc tp u v = kinematic c tc tp u v := by
  have hpw : ∀ n i, c.manager.bcs.Pairwise fun a b => ¬ (Acts c.manager a n i ∧ Acts c.manager b n i) :=
    fun n i => ha.imp fun h => (h n i).1
  have hpl : ∀ n i, l.Pairwise fun a b => ¬ (Acts c.manager a n i ∧ Acts c.manager b n i) :=
    fun n i => (hl.pairwise_iff fun {a b} h => by rwa [and_comm]).mpr (hpw n i)
  have key : (l.foldl (kinematicBc c.manager c.X tc (tc - tp)) { displacement := u, velocity := v, offnom := [] }).velocity
      = (c.manager.bcs.foldl (kinematicBc c.manager c.X tc (tc - tp))
        { displacement := u, velocity := v, offnom := [] }).velocity := by
    funext n i
    by_cases hb : ∃ b ∈ c.manager.bcs, Acts c.manager b n i
    · obtain ⟨b, hb, hact⟩ := hb
      obtain ⟨pre, post, e, h1, h2⟩ := split_unique (fun a => Acts c.manager a n i) _ (hpw n i) hb hact
      obtain ⟨pre', post', e', h1', h2'⟩ := split_unique (fun a => Acts c.manager a n i) _ (hpl n i)
        (hl.mem_iff.mpr hb) hact
      rw [e, e', fold_single c.manager hm _ _ _ _ _ _ _ _ h1 h2, fold_single c.manager hm _ _ _ _ _ _ _ _ h1' h2']
    · push Not at hb
      have g1 := foldl_not_acts c.manager c.X tc (tc - tp) _ n i hb { displacement := u, velocity := v, offnom := [] }
      have g2 := foldl_not_acts c.manager c.X tc (tc - tp) l n i (fun b hbl => hb b (hl.mem_iff.mp hbl))
        { displacement := u, velocity := v, offnom := [] }
      simp only [Kin.dof, Prod.mk.injEq] at g1 g2
      rw [g1.2.1, g2.2.1]
  refine Prod.ext ?_ key
  have e1 := applyKinematicBC_displacement c.manager hm tc tp c.X { displacement := u, velocity := v, offnom := [] }
  have e2 := applyKinematicBC_displacement (c.withBcs l).manager hm tc tp c.X
    { displacement := u, velocity := v, offnom := [] }
  exact e2.trans e1.symm

omit [LinearOrder K] [IsStrictOrderedRing K] in
theorem initial_order [LinearOrder K] (m : Manager K) (X : Nodal K) (ha : Apart m) (l : List (BoundaryCondition K))
    (hl : l.Perm m.bcs) (v : Nodal K) :
    (applyInitialConditions { m with bcs := l } X v []).1 = (applyInitialConditions m X v []).1 := by
  funext n i
  have hpw : m.bcs.Pairwise fun a b => ¬ (StartsAt m a n i ∧ StartsAt m b n i) := ha.imp fun h => (h n i).2
  have hpl : l.Pairwise fun a b => ¬ (StartsAt m a n i ∧ StartsAt m b n i) :=
    (hl.pairwise_iff fun {a b} h => by rwa [and_comm]).mpr hpw
  by_cases hb : ∃ b ∈ m.bcs, StartsAt m b n i
  · obtain ⟨b, hb, hact⟩ := hb
    obtain ⟨pre, post, e, -, h2⟩ := split_unique (fun a => StartsAt m a n i) _ hpw hb hact
    obtain ⟨pre', post', e', -, h2'⟩ := split_unique (fun a => StartsAt m a n i) _ hpl (hl.mem_iff.mpr hb) hact
    rw [(initial_velocity_spec m X v [] n i).1 b ⟨pre, post, e, hact, h2⟩,
      (initial_velocity_spec { m with bcs := l } X v [] n i).1 b ⟨pre', post', e', hact, h2'⟩]
    rfl
  · push Not at hb
    rw [(initial_velocity_spec m X v [] n i).2 hb,
      (initial_velocity_spec { m with bcs := l } X v [] n i).2 fun b hbl => hb b (hl.mem_iff.mp hbl)]

/-! ## Runs -/

/-- **C156 (a)**.  When no two conditions of the same kind of pass act on the same degree of freedom, the order of the
conditions in the deck does not matter: the run has the same result, whatever the forces. -/
theorem order_irrelevant (c : Config K) (hm : c.manager.scheme ≠ .quasistatic) (ha : Apart c.manager)
    (l : List (BoundaryCondition K)) (hl : l.Perm c.manager.bcs) (p : Physics K S) (s0 : S) (rank : ℕ) :
    integrate (c.withBcs l) p s0 rank = integrate c p s0 rank := by
  have hk : kinematic (c.withBcs l) = kinematic c := by
    funext tc tp u v
    exact kinematic_order c hm ha l hl tc tp u v
  have hstep : step (c.withBcs l) p = step c p := by
    funext k s
    unfold step
    rw [hk]
    rfl
  have hi := initial_order c.manager c.X ha l hl fun _ _ => 0
  have hstart : start (c.withBcs l) s0 = start c s0 := by
    unfold start
    rw [hk]
    simp only [Config.withBcs]
    rw [hi]
  unfold integrate loop
  rw [hstep, hstart]
  rfl

/-! ## Concrete cases -/

/-- Node 0 is moved and its `y` velocity is prescribed; node 1 is thrown. -/
def ordered : Config ℚ where
  manager :=
    { sets := fun i => if i = 7 then some [0] else if i = 8 then some [1, 0] else none
      bcs := [⟨.prescribedDisplacement, 7, 0, .inr fun _ _ _ t => t * t⟩, ⟨.initialVelocity, 8, 0, .inl 3⟩,
        ⟨.prescribedVelocity, 7, 1, .inl 2⟩]
      dim := 2, scheme := .explicit }
  X := fun n _ => n
  mass := fun _ => 1
  initialTime := 0
  finalTime := 4
  numSteps := 4
  frequency := 2

theorem ordered_apart : Apart ordered.manager := by
  unfold Apart
  simp only [ordered, List.pairwise_cons, List.mem_cons, List.not_mem_nil, or_false, forall_eq_or_imp, forall_eq,
    List.Pairwise.nil, and_true, IsEmpty.forall_iff, implies_true]
  refine ⟨⟨?_, ?_⟩, ?_⟩ <;> intro n i <;> constructor <;> rintro ⟨h1, h2⟩ <;>
    simp [Acts, StartsAt, BoundaryCondition.isKinematic] at h1 h2
  omega

/-- Non-vacuity of (a). -/
example (p : Physics ℚ S) (s0 : S) : integrate (ordered.withBcs ordered.manager.bcs.reverse) p s0 0
    = integrate ordered p s0 0 :=
  order_irrelevant ordered (by decide) ordered_apart _ (List.reverse_perm _) p s0 0

/-- **C156 (b)**.  Two conditions on the same degree of freedom: the last one wins, and the order matters. -/
theorem order_relevant : ∃ (c : Config ℚ) (l : List (BoundaryCondition ℚ)), l.Perm c.manager.bcs ∧
    c.manager.scheme ≠ .quasistatic ∧ (start (c.withBcs l) 0).velocity 0 0 = (5 : ℚ) ∧ (start c 0).velocity 0 0 = 2 :=
  ⟨{ ordered with manager := { ordered.manager with
      bcs := [⟨.prescribedVelocity, 7, 0, .inl 5⟩, ⟨.prescribedVelocity, 8, 0, .inl 2⟩] } },
    [⟨.prescribedVelocity, 8, 0, .inl 2⟩, ⟨.prescribedVelocity, 7, 0, .inl 5⟩], List.Perm.swap _ _ _, by decide,
    by decide +kernel, by decide +kernel⟩

end NimbleSM.Integrate
