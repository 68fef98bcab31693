import Verif.Bc.Kinematic
import Mathlib.Tactic.Ring
import Mathlib.Tactic.FieldSimp
import Mathlib.Tactic.Linarith
import Mathlib.Tactic.NormNum
import Mathlib.Data.Fin.VecNotation

/-!
# What boundary conditions do to one degree of freedom
-/

namespace NimbleSM.Bc

variable {K : Type*} [Field K] [LinearOrder K]

/-- Specification: condition `bc` acts on the degree of freedom (node `n`, coordinate `i`). -/
def Acts (m : Manager K) (bc : BoundaryCondition K) (n i : ℕ) : Prop :=
  bc.isKinematic = true ∧ bc.coordinate = i ∧ ∃ l, m.sets bc.nodeSetId = some l ∧ n ∈ l

/-- Specification: the degree of freedom is not constrained. -/
def Free (m : Manager K) (n i : ℕ) : Prop := ∀ bc ∈ m.bcs, ¬ Acts m bc n i

/-- Specification: `bc` is the condition that governs the degree of freedom: it acts on it and none
given later in the input does. -/
def Governs (m : Manager K) (bc : BoundaryCondition K) (n i : ℕ) : Prop :=
  ∃ pre post, m.bcs = pre ++ bc :: post ∧ Acts m bc n i ∧ ∀ b ∈ post, ¬ Acts m b n i

/-- Specification: the value that the input prescribes for node `n` at time `t`: the constant, or the
expression at the reference position of the node (`z = 0` unless in three dimensions). -/
def prescribed (m : Manager K) (bc : BoundaryCondition K) (X : Nodal K) (n : ℕ) (t : K) : K :=
  match bc.magnitude with
  | .inl c => c
  | .inr f => if m.dim = 3 then f (X n 0) (X n 1) (X n 2) t else f (X n 0) (X n 1) 0 t

theorem value_eq (m : Manager K) (bc : BoundaryCondition K) (X : Nodal K) (n : ℕ) (t : K) :
    m.value bc X n t = prescribed m bc X n t := by
  unfold Manager.value prescribed
  cases bc.magnitude with
  | inl c => rfl
  | inr f => by_cases h : m.dim = 3 <;> simp [h]

theorem mem_nodeSet {m : Manager K} {bc : BoundaryCondition K} {n : ℕ} :
    n ∈ m.nodeSet bc ↔ ∃ l, m.sets bc.nodeSetId = some l ∧ n ∈ l := by
  unfold Manager.nodeSet
  cases h : m.sets bc.nodeSetId <;> simp

@[simp] theorem setAt_same (f : Nodal K) (n i : ℕ) (x : K) : setAt f n i x n i = x := by simp [setAt]

theorem setAt_other (f : Nodal K) {n i a j : ℕ} (x : K) (h : ¬ (a = n ∧ j = i)) :
    setAt f n i x a j = f a j := by simp [setAt, h]

omit [LinearOrder K] in
/-- A fold of one-node updates that each leave entry `(a, j)` alone leaves it alone. -/
theorem foldl_keep {S A : Type*} (g : S → ℕ → S) (read : S → A) (l : List ℕ)
    (h : ∀ n ∈ l, ∀ s, read (g s n) = read s) (s : S) : read (l.foldl g s) = read s := by
  induction l generalizing s with
  | nil => rfl
  | cons n l ih =>
    rw [List.foldl_cons, ih (fun n hn => h n (List.mem_cons_of_mem _ hn)),
      h n List.mem_cons_self]

/-- Reading the state of one degree of freedom: displacement, velocity, off-nominal velocities. -/
def Kin.dof (s : Kin K) (n i : ℕ) : K × K × List K :=
  (s.displacement n i, s.velocity n i, s.offnom.map fun o => o n i)

theorem velocityNode_other (m : Manager K) (bc : BoundaryCondition K) (X : Nodal K) (tc dt : K)
    (s : Kin K) (n a j : ℕ) (h : ¬ (a = n ∧ j = bc.coordinate)) :
    (velocityNode m bc X tc dt s n).dof a j = s.dof a j := by
  unfold velocityNode Kin.dof
  simp only [Prod.mk.injEq, setAt_other _ _ h, List.map_map, true_and]
  constructor
  · split_ifs <;> simp [setAt_other _ _ h]
  · congr 1; funext o; simp [setAt_other _ _ h]

theorem displacementNode_other (m : Manager K) (bc : BoundaryCondition K) (X : Nodal K) (tc dt : K)
    (s : Kin K) (n a j : ℕ) (h : ¬ (a = n ∧ j = bc.coordinate)) :
    (displacementNode m bc X tc dt s n).dof a j = s.dof a j := by
  unfold displacementNode Kin.dof
  simp only [Prod.mk.injEq, setAt_other _ _ h, true_and, and_true]
  split_ifs <;> simp [setAt_other _ _ h]

/-- A condition that does not act on a degree of freedom leaves it alone. -/
theorem kinematicBc_not_acts (m : Manager K) (X : Nodal K) (tc dt : K) (s : Kin K)
    (bc : BoundaryCondition K) (n i : ℕ) (h : ¬ Acts m bc n i) :
    (kinematicBc m X tc dt s bc).dof n i = s.dof n i := by
  unfold kinematicBc
  have hk : bc.isKinematic = true → ∀ a ∈ m.nodeSet bc, ¬ (n = a ∧ i = bc.coordinate) := by
    rintro hk a ha ⟨rfl, rfl⟩
    exact h ⟨hk, rfl, mem_nodeSet.mp ha⟩
  split_ifs with h1 h2
  · have := hk (by simp [BoundaryCondition.isKinematic, h1])
    exact foldl_keep _ (fun s => s.dof n i) _
      (fun a ha s => velocityNode_other m bc X tc dt s a n i (this a ha)) s
  · have := hk (by simp [BoundaryCondition.isKinematic, h2.1])
    exact foldl_keep _ (fun s => s.dof n i) _
      (fun a ha s => displacementNode_other m bc X tc dt s a n i (this a ha)) s
  · rfl

theorem foldl_not_acts (m : Manager K) (X : Nodal K) (tc dt : K) (l : List (BoundaryCondition K))
    (n i : ℕ) (h : ∀ b ∈ l, ¬ Acts m b n i) (s : Kin K) :
    (l.foldl (kinematicBc m X tc dt) s).dof n i = s.dof n i := by
  induction l generalizing s with
  | nil => rfl
  | cons b l ih =>
    rw [List.foldl_cons, ih (fun b hb => h b (List.mem_cons_of_mem _ hb)),
      kinematicBc_not_acts _ _ _ _ _ _ _ _ (h b List.mem_cons_self)]

/-- **C41.**  Kinematic conditions never modify an unconstrained degree of freedom: neither its
displacement, nor its velocity, nor the off-nominal velocities, under either scheme. -/
theorem free_dof_untouched (m : Manager K) (tc tp : K) (X : Nodal K) (s : Kin K) (n i : ℕ)
    (h : Free m n i) :
    (applyKinematicBC m tc tp X s).displacement n i = s.displacement n i ∧
    (applyKinematicBC m tc tp X s).velocity n i = s.velocity n i ∧
    ((applyKinematicBC m tc tp X s).offnom.map fun o => o n i) = s.offnom.map fun o => o n i := by
  have := foldl_not_acts m X tc (tc - tp) m.bcs n i h s
  simpa only [applyKinematicBC, Kin.dof, Prod.mk.injEq] using this

/-- The displacement entry is only written under the quasistatic scheme. -/
theorem applyKinematicBC_displacement (m : Manager K) (hm : m.scheme ≠ .quasistatic) (tc tp : K)
    (X : Nodal K) (s : Kin K) : (applyKinematicBC m tc tp X s).displacement = s.displacement := by
  unfold applyKinematicBC
  have h1 : ∀ bc s, (kinematicBc m X tc (tc - tp) s bc).displacement = s.displacement := by
    intro bc s
    unfold kinematicBc
    split_ifs
    · exact foldl_keep _ Kin.displacement _ (fun n _ s => by simp [velocityNode, hm]) s
    · exact foldl_keep _ Kin.displacement _ (fun n _ s => by simp [displacementNode, hm]) s
    · rfl
  generalize m.bcs = l
  simp only
  induction l generalizing s with
  | nil => rfl
  | cons b l ih => rw [List.foldl_cons, ih, h1]

/-- Splits a fold at the last element with property `P`. -/
theorem exists_last {A : Type*} (l : List A) (x : A) (hx : x ∈ l) :
    ∃ pre post, l = pre ++ x :: post ∧ x ∉ post := by
  classical
  obtain ⟨as, bs, h, hn⟩ := List.eq_append_cons_of_mem (List.mem_reverse.mpr hx)
  refine ⟨bs.reverse, as.reverse, ?_, by simpa using hn⟩
  have := congrArg List.reverse h
  simpa using this

/-- What the governing condition leaves in the velocity entry, explicit scheme. -/
theorem governs_velocity (m : Manager K) (hm : m.scheme ≠ .quasistatic) (tc tp : K) (X : Nodal K)
    (s : Kin K) (bc : BoundaryCondition K) (n i : ℕ) (h : Governs m bc n i) :
    (bc.type = .prescribedVelocity →
      (applyKinematicBC m tc tp X s).velocity n i = prescribed m bc X n tc ∧
      ∀ o ∈ (applyKinematicBC m tc tp X s).offnom, o n i = prescribed m bc X n tc) ∧
    (bc.type = .prescribedDisplacement → 0 < tc - tp →
      (applyKinematicBC m tc tp X s).velocity n i
        = (prescribed m bc X n tc - s.displacement n i) / (tc - tp)) := by
  simp only [← value_eq]
  obtain ⟨pre, post, hb, ⟨hk, rfl, hs⟩, hpost⟩ := h
  rw [← mem_nodeSet] at hs
  have hfold : ∀ s : Kin K, (applyKinematicBC m tc tp X s).dof n bc.coordinate
      = (kinematicBc m X tc (tc - tp) (pre.foldl (kinematicBc m X tc (tc - tp)) s) bc).dof n
          bc.coordinate := by
    intro s
    unfold applyKinematicBC
    rw [hb]
    simp only [List.foldl_append, List.foldl_cons]
    exact foldl_not_acts m X tc (tc - tp) post n bc.coordinate hpost _
  have hd : (pre.foldl (kinematicBc m X tc (tc - tp)) s).displacement = s.displacement :=
    applyKinematicBC_displacement { m with bcs := pre } hm tc tp X s
  generalize hs1 : pre.foldl (kinematicBc m X tc (tc - tp)) s = s1 at *
  obtain ⟨a, b, hl, hnb⟩ := exists_last (m.nodeSet bc) n hs
  constructor
  · intro hty
    have hd1 := hfold s
    rw [hs1] at hd1
    unfold kinematicBc at hd1
    have hkeep : ∀ s, (b.foldl (velocityNode m bc X tc (tc - tp)) s).dof n bc.coordinate
        = s.dof n bc.coordinate := foldl_keep _ (fun s : Kin K => s.dof n bc.coordinate) b (by
      intro a ha s
      apply velocityNode_other
      rintro ⟨rfl, -⟩; exact hnb ha)
    rw [if_pos hty, hl, List.foldl_append, List.foldl_cons, hkeep] at hd1
    · simp only [Kin.dof, Prod.mk.injEq] at hd1
      refine ⟨by rw [hd1.2.1]; simp [velocityNode], ?_⟩
      intro o ho
      have : o n bc.coordinate ∈ (applyKinematicBC m tc tp X s).offnom.map fun o => o n bc.coordinate :=
        List.mem_map_of_mem ho
      rw [hd1.2.2] at this
      simp only [velocityNode, List.map_map, List.mem_map] at this
      obtain ⟨_, _, h⟩ := this
      rw [← h]; simp
  · intro hty hpos
    have hd1 := hfold s
    rw [hs1] at hd1
    unfold kinematicBc at hd1
    have hkeep : ∀ s, (b.foldl (displacementNode m bc X tc (tc - tp)) s).dof n bc.coordinate
        = s.dof n bc.coordinate := foldl_keep _ (fun s : Kin K => s.dof n bc.coordinate) b (by
      intro a ha s
      apply displacementNode_other
      rintro ⟨rfl, -⟩; exact hnb ha)
    rw [if_neg (by rw [hty]; decide), if_pos ⟨hty, hpos⟩, hl, List.foldl_append, List.foldl_cons,
      hkeep] at hd1
    · simp only [Kin.dof, Prod.mk.injEq] at hd1
      rw [hd1.2.1]
      have : (a.foldl (displacementNode m bc X tc (tc - tp)) s1).displacement = s1.displacement :=
        foldl_keep _ Kin.displacement _ (fun n _ s => by simp [displacementNode, hm]) s1
      simp [displacementNode, this, hd]

/-- Quasistatic scheme: a degree of freedom governed by a prescribed displacement has exactly that
displacement after the call, whatever the other conditions. -/
theorem governs_displacement_quasistatic (m : Manager K) (hm : m.scheme = .quasistatic) (tc tp : K)
    (X : Nodal K) (s : Kin K) (bc : BoundaryCondition K) (n i : ℕ) (h : Governs m bc n i)
    (hty : bc.type = .prescribedDisplacement) (hpos : 0 < tc - tp) :
    (applyKinematicBC m tc tp X s).displacement n i = prescribed m bc X n tc := by
  simp only [← value_eq]
  obtain ⟨pre, post, hb, ⟨hk, rfl, hs⟩, hpost⟩ := h
  rw [← mem_nodeSet] at hs
  have hd1 : (applyKinematicBC m tc tp X s).dof n bc.coordinate
      = (kinematicBc m X tc (tc - tp) (pre.foldl (kinematicBc m X tc (tc - tp)) s) bc).dof n
          bc.coordinate := by
    unfold applyKinematicBC
    rw [hb]
    simp only [List.foldl_append, List.foldl_cons]
    exact foldl_not_acts m X tc (tc - tp) post n bc.coordinate hpost _
  obtain ⟨a, b, hl, hnb⟩ := exists_last (m.nodeSet bc) n hs
  have hkeep : ∀ s, (b.foldl (displacementNode m bc X tc (tc - tp)) s).dof n bc.coordinate
      = s.dof n bc.coordinate := foldl_keep _ (fun s : Kin K => s.dof n bc.coordinate) b (by
    intro a ha s
    apply displacementNode_other
    rintro ⟨rfl, -⟩; exact hnb ha)
  unfold kinematicBc at hd1
  rw [if_neg (by rw [hty]; decide), if_pos ⟨hty, hpos⟩, hl, List.foldl_append, List.foldl_cons,
    hkeep] at hd1
  simp only [Kin.dof, Prod.mk.injEq] at hd1
  rw [hd1.1]
  simp [displacementNode, hm]

/-- Quasistatic scheme: a degree of freedom on which exactly one condition acts, a prescribed velocity
whose node set lists the node once, moves by velocity times step. -/
theorem velocity_increment_quasistatic (m : Manager K) (hm : m.scheme = .quasistatic) (tc tp : K)
    (X : Nodal K) (s : Kin K) (bc : BoundaryCondition K) (n i : ℕ) (pre post : List (BoundaryCondition K))
    (hb : m.bcs = pre ++ bc :: post) (hact : Acts m bc n i) (hpre : ∀ b ∈ pre, ¬ Acts m b n i)
    (hpost : ∀ b ∈ post, ¬ Acts m b n i) (hty : bc.type = .prescribedVelocity)
    (honce : (m.nodeSet bc).Nodup) :
    (applyKinematicBC m tc tp X s).displacement n i
      = s.displacement n i + prescribed m bc X n tc * (tc - tp) := by
  simp only [← value_eq]
  obtain ⟨hk, rfl, hs⟩ := hact
  rw [← mem_nodeSet] at hs
  have hp := foldl_not_acts m X tc (tc - tp) pre n bc.coordinate hpre s
  have hd1 : (applyKinematicBC m tc tp X s).dof n bc.coordinate
      = (kinematicBc m X tc (tc - tp) (pre.foldl (kinematicBc m X tc (tc - tp)) s) bc).dof n
          bc.coordinate := by
    unfold applyKinematicBC
    rw [hb]
    simp only [List.foldl_append, List.foldl_cons]
    exact foldl_not_acts m X tc (tc - tp) post n bc.coordinate hpost _
  obtain ⟨a, b, hl, hnb⟩ := exists_last (m.nodeSet bc) n hs
  have hna : n ∉ a := by
    rw [hl] at honce
    intro ha
    exact (List.nodup_append.mp honce).2.2 n ha n List.mem_cons_self rfl
  have hkeep : ∀ l : List ℕ, n ∉ l → ∀ s, (l.foldl (velocityNode m bc X tc (tc - tp)) s).dof n
      bc.coordinate = s.dof n bc.coordinate := fun l hl =>
    foldl_keep _ (fun s : Kin K => s.dof n bc.coordinate) l (by
    intro a ha s
    apply velocityNode_other
    rintro ⟨rfl, -⟩; exact hl ha)
  unfold kinematicBc at hd1
  rw [if_pos hty, hl, List.foldl_append, List.foldl_cons, hkeep b hnb] at hd1
  have ha := hkeep a hna (pre.foldl (kinematicBc m X tc (tc - tp)) s)
  rw [hp] at ha
  simp only [Kin.dof, Prod.mk.injEq] at hd1 ha
  rw [hd1.1]
  unfold kinematicBc at ha
  simp [velocityNode, hm, ha.1]

/-! ## Initial velocities -/

/-- Specification: `bc` is the last initial-velocity condition on the degree of freedom. -/
def GovernsInitial (m : Manager K) (bc : BoundaryCondition K) (n i : ℕ) : Prop :=
  ∃ pre post, m.bcs = pre ++ bc :: post ∧
    (bc.type = .initialVelocity ∧ bc.coordinate = i ∧ n ∈ m.nodeSet bc) ∧
    ∀ b ∈ post, ¬ (b.type = .initialVelocity ∧ b.coordinate = i ∧ n ∈ m.nodeSet b)

/-- One node of `ApplyInitialConditions`. -/
def initialNode (m : Manager K) (bc : BoundaryCondition K) (X : Nodal K)
    (st : Nodal K × List (Nodal K)) (n : ℕ) : Nodal K × List (Nodal K) :=
  (setAt st.1 n bc.coordinate (m.value bc X n 0),
    st.2.map fun o => setAt o n bc.coordinate (m.value bc X n 0))

/-- One condition of `ApplyInitialConditions`. -/
def initialBc (m : Manager K) (X : Nodal K) (st : Nodal K × List (Nodal K))
    (bc : BoundaryCondition K) : Nodal K × List (Nodal K) :=
  if bc.type = .initialVelocity then (m.nodeSet bc).foldl (initialNode m bc X) st else st

omit [LinearOrder K] in
theorem applyInitialConditions_eq (m : Manager K) (X v : Nodal K) (o : List (Nodal K)) :
    applyInitialConditions m X v o = m.bcs.foldl (initialBc m X) (v, o) := rfl

theorem initialNode_other (m : Manager K) (bc : BoundaryCondition K) (X : Nodal K)
    (st : Nodal K × List (Nodal K)) (n a j : ℕ) (h : ¬ (a = n ∧ j = bc.coordinate)) :
    (initialNode m bc X st n).1 a j = st.1 a j := setAt_other _ _ h

theorem initialBc_other (m : Manager K) (X : Nodal K) (st : Nodal K × List (Nodal K))
    (b : BoundaryCondition K) (n i : ℕ)
    (h : ¬ (b.type = .initialVelocity ∧ b.coordinate = i ∧ n ∈ m.nodeSet b)) :
    (initialBc m X st b).1 n i = st.1 n i := by
  unfold initialBc
  split_ifs with ht
  · refine foldl_keep _ (fun s : Nodal K × List (Nodal K) => s.1 n i) _ (fun a ha s => ?_) st
    apply initialNode_other
    rintro ⟨rfl, rfl⟩; exact h ⟨ht, rfl, ha⟩
  · rfl

theorem initial_foldl_other (m : Manager K) (X : Nodal K) (l : List (BoundaryCondition K)) (n i : ℕ)
    (h : ∀ b ∈ l, ¬ (b.type = .initialVelocity ∧ b.coordinate = i ∧ n ∈ m.nodeSet b))
    (st : Nodal K × List (Nodal K)) : (l.foldl (initialBc m X) st).1 n i = st.1 n i := by
  induction l generalizing st with
  | nil => rfl
  | cons b l ih =>
    rw [List.foldl_cons, ih (fun b hb => h b (List.mem_cons_of_mem _ hb)),
      initialBc_other _ _ _ _ _ _ (h b List.mem_cons_self)]

/-- Initial velocities: the last condition on a degree of freedom gives its value (with `t = 0`);
degrees of freedom without one keep theirs. -/
theorem initial_velocity_spec (m : Manager K) (X v : Nodal K) (o : List (Nodal K)) (n i : ℕ) :
    (∀ bc, GovernsInitial m bc n i →
      (applyInitialConditions m X v o).1 n i = prescribed m bc X n 0) ∧
    ((∀ b ∈ m.bcs, ¬ (b.type = .initialVelocity ∧ b.coordinate = i ∧ n ∈ m.nodeSet b)) →
      (applyInitialConditions m X v o).1 n i = v n i) := by
  simp only [← value_eq]
  constructor
  · rintro bc ⟨pre, post, hb, ⟨ht, rfl, hn⟩, hpost⟩
    rw [applyInitialConditions_eq, hb, List.foldl_append, List.foldl_cons,
      initial_foldl_other _ _ _ _ _ hpost]
    obtain ⟨a, b, hl, hnb⟩ := exists_last (m.nodeSet bc) n hn
    unfold initialBc
    rw [if_pos ht, hl, List.foldl_append, List.foldl_cons]
    have hkeep : ∀ s, (b.foldl (initialNode m bc X) s).1 n bc.coordinate = s.1 n bc.coordinate :=
      foldl_keep _ (fun s : Nodal K × List (Nodal K) => s.1 n bc.coordinate) b (by
        intro a ha s
        apply initialNode_other
        rintro ⟨rfl, -⟩; exact hnb ha)
    rw [hkeep]
    simp [initialNode]
  · intro h
    rw [applyInitialConditions_eq, initial_foldl_other _ _ _ _ _ h]

/-! ## A concrete manager -/

/-- Three conditions on overlapping node sets; the second governs node 1, coordinate 0. -/
def demoManager : Manager ℚ where
  sets := fun i => if i = 1 then some [0, 1] else if i = 2 then some [1, 2] else none
  bcs := [⟨.prescribedVelocity, 1, 0, .inl 5⟩,
    ⟨.prescribedDisplacement, 2, 0, .inr fun x _ _ t => x + 3 * t⟩,
    ⟨.initialVelocity, 1, 1, .inl 7⟩]
  dim := 3
  scheme := .explicit

theorem demo_governs : Governs demoManager
    ⟨.prescribedDisplacement, 2, 0, .inr fun x _ _ t => x + 3 * t⟩ 1 0 := by
  refine ⟨[⟨.prescribedVelocity, 1, 0, .inl 5⟩], [⟨.initialVelocity, 1, 1, .inl 7⟩], rfl,
    ⟨by decide, rfl, [1, 2], by decide, by decide⟩, ?_⟩
  intro b hb
  rw [List.mem_singleton.mp hb]
  rintro ⟨h, -⟩
  exact absurd h (by decide)

/-- Non-vacuity: node 0 is governed by the velocity, node 1 by the displacement, node 2 coordinate 1 is
free. -/
example : Governs demoManager ⟨.prescribedVelocity, 1, 0, .inl 5⟩ 0 0 ∧ Free demoManager 2 1 := by
  refine ⟨⟨[], _, rfl, ⟨by decide, rfl, [0, 1], by decide, by decide⟩, ?_⟩, ?_⟩
  · intro b hb
    simp only [List.mem_cons, List.not_mem_nil, or_false] at hb
    rcases hb with rfl | rfl
    · rintro ⟨-, -, l, hl, hn⟩
      have : l = [1, 2] := by
        have h2 : demoManager.sets 2 = some [1, 2] := by decide
        rw [h2] at hl
        exact (Option.some.inj hl).symm
      rw [this] at hn
      exact absurd hn (by decide)
    · rintro ⟨h, -⟩
      exact absurd h (by decide)
  · intro b hb
    simp only [demoManager, List.mem_cons, List.not_mem_nil, or_false] at hb
    rcases hb with rfl | rfl | rfl
    · rintro ⟨-, h, -⟩; exact absurd h (by decide)
    · rintro ⟨-, h, -⟩; exact absurd h (by decide)
    · rintro ⟨h, -⟩; exact absurd h (by decide)

end NimbleSM.Bc
