import Verif.Contact.ProjectionProps
import Mathlib.Order.Interval.Finset.Defs
import Mathlib.Data.Int.Interval
import Mathlib.Algebra.BigOperators.Group.List.Basic
import Mathlib.Algebra.BigOperators.Intervals
import Mathlib.Algebra.Order.BigOperators.Group.List
import Mathlib.Tactic.Abel
import Mathlib.Data.List.GetD

/-! # Lemmas: atomic additions, virtual work of the enforcement, maps between mesh and contact submodel -/

namespace NimbleSM.Contact

open NimbleSM.Tensor

section ops
variable {K : Type*} [Field K]

theorem addAt_apply (f : ℤ → K) (op : ℤ × K) (a : ℤ) : addAt f op a = f a + if op.1 = a then op.2 else 0 := by
  unfold addAt
  by_cases h : op.1 = a
  · subst h; simp
  · rw [Function.update_of_ne (Ne.symm h), if_neg h, add_zero]

theorem runOps_apply (ops : List (ℤ × K)) (f : ℤ → K) (a : ℤ) :
    runOps f ops a = f a + (ops.map fun op => if op.1 = a then op.2 else 0).sum := by
  induction ops generalizing f with
  | nil => simp [runOps]
  | cons op ops ih =>
    show runOps (addAt f op) ops a = _
    rw [ih, addAt_apply, List.map_cons, List.sum_cons, add_assoc]

/-- The order of atomic additions does not matter. -/
theorem runOps_perm {ops ops' : List (ℤ × K)} (h : ops.Perm ops') (f : ℤ → K) : runOps f ops = runOps f ops' := by
  funext a
  rw [runOps_apply, runOps_apply]
  congr 1
  exact (h.map _).sum_eq

/-- Virtual work of a list of additions. -/
def pair (w : ℤ → K) (ops : List (ℤ × K)) : K := (ops.map fun op => w op.1 * op.2).sum

theorem pair_append (w : ℤ → K) (a b : List (ℤ × K)) : pair w (a ++ b) = pair w a + pair w b := by
  simp [pair]

theorem pair_nil (w : ℤ → K) : pair w [] = 0 := rfl

theorem pair_perm {ops ops' : List (ℤ × K)} (h : ops.Perm ops') (w : ℤ → K) : pair w ops = pair w ops' :=
  (h.map _).sum_eq

theorem sum_runOps (S : Finset ℤ) (w : ℤ → K) (ops : List (ℤ × K)) (f : ℤ → K) (h : ∀ op ∈ ops, op.1 ∈ S) :
    ∑ a ∈ S, w a * runOps f ops a = ∑ a ∈ S, w a * f a + pair w ops := by
  induction ops generalizing f with
  | nil => simp [runOps, pair]
  | cons op ops ih =>
    show ∑ a ∈ S, w a * runOps (addAt f op) ops a = _
    rw [ih _ fun o ho => h o (List.mem_cons_of_mem _ ho)]
    have hm : op.1 ∈ S := h op List.mem_cons_self
    have : ∑ a ∈ S, w a * addAt f op a = ∑ a ∈ S, w a * f a + w op.1 * op.2 := by
      simp_rw [addAt_apply, mul_add, Finset.sum_add_distrib]
      congr 1
      rw [Finset.sum_eq_single op.1]
      · simp
      · intro b _ hb
        rw [if_neg (Ne.symm hb), mul_zero]
      · intro hn; exact absurd hm hn
    rw [this]
    simp only [pair, List.map_cons, List.sum_cons]
    ring

/-- The three components of a flat array at one node. -/
def nodeVec (w : ℤ → K) (id : ℤ) : Fin 3 → K := fun d => w (3 * id + d)

theorem pair_addVec (w : ℤ → K) (id : ℤ) (v : Fin 3 → K) : pair w (addVec id v) = dot (nodeVec w id) v := by
  simp [pair, addVec, dot, nodeVec]
  ring

end ops

/-- The virtual velocity of the point of the face with coordinates `N`. -/
def facePoint {K : Type*} [Field K] (w : ℤ → K) (face : Entity K) (N : Fin 3 → K) : Fin 3 → K := fun d =>
  N 0 * nodeVec w face.node1 d + N 1 * nodeVec w face.node2 d +
    N 2 * ((nodeVec w (face.fict 0) d + nodeVec w (face.fict 1) d + nodeVec w (face.fict 2) d + nodeVec w (face.fict 3) d) / 4)

variable {K : Type*} [Field K] [LinearOrder K]

theorem enforceOps_isSome (penalty : K) (node face : Entity K) (gap : K) (normal N : Fin 3 → K) :
    ∃ ops, enforceOps penalty node face gap normal N = some ops := by
  unfold enforceOps setNodalContactForces
  cases hf : face.type <;> simp

/-- Virtual work of one node-face interaction. -/
theorem enforce_pair (penalty : K) (node face : Entity K) (gap : K) (normal N : Fin 3 → K) (hf : face.type = .triangle)
    (ops : List (ℤ × K)) (h : enforceOps penalty node face gap normal N = some ops) (w : ℤ → K) :
    pair w ops = dot (getContactForce penalty gap normal) (facePoint w face N)
      - dot (getContactForce penalty gap normal) (nodeVec w node.node1) := by
  unfold enforceOps setNodalContactForces at h
  simp only [hf, Option.pure_def, Option.bind_eq_bind, Option.bind_some, Option.some.injEq] at h
  subst h
  simp only [scatterOps, if_true, reduceCtorEq, if_false, List.append_nil, List.flatMap_cons, List.flatMap_nil, pair_append,
    pair_addVec, dot, facePoint, pair_nil]
  ring

/-- The additions of one interaction only touch the nodes of the interaction. -/
theorem enforceOps_support (penalty : K) (node face : Entity K) (gap : K) (normal N : Fin 3 → K) (hf : face.type = .triangle)
    (ops : List (ℤ × K)) (h : enforceOps penalty node face gap normal N = some ops) (op : ℤ × K) (ho : op ∈ ops) :
    ∃ id d, (id = node.node1 ∨ id = face.node1 ∨ id = face.node2 ∨ ∃ i, id = face.fict i) ∧
      (d = 0 ∨ d = 1 ∨ d = 2) ∧ op.1 = 3 * id + d := by
  unfold enforceOps setNodalContactForces at h
  simp only [hf, Option.pure_def, Option.bind_eq_bind, Option.bind_some, Option.some.injEq] at h
  subst h
  have hv : ∀ (id : ℤ) (v : Fin 3 → K), op ∈ addVec id v → ∃ d, (d = 0 ∨ d = 1 ∨ d = 2) ∧ op.1 = 3 * id + d := by
    intro id v hm
    simp only [addVec, List.mem_cons, List.not_mem_nil, or_false] at hm
    rcases hm with rfl | rfl | rfl
    · exact ⟨0, by simp⟩
    · exact ⟨1, by simp⟩
    · exact ⟨2, by simp⟩
  simp only [scatterOps, if_true, reduceCtorEq, if_false, List.append_nil, List.mem_append, List.mem_flatMap, List.mem_cons,
    List.not_mem_nil, or_false] at ho
  rcases ho with (hm | (hm | ⟨id, hid, hm⟩)) | hm
  · obtain ⟨d, hd, he⟩ := hv _ _ hm
    exact ⟨_, d, Or.inr (Or.inl rfl), hd, he⟩
  · obtain ⟨d, hd, he⟩ := hv _ _ hm
    exact ⟨_, d, Or.inr (Or.inr (Or.inl rfl)), hd, he⟩
  · obtain ⟨d, hd, he⟩ := hv _ _ hm
    refine ⟨id, d, Or.inr (Or.inr (Or.inr ?_)), hd, he⟩
    rcases hid with rfl | rfl | rfl | rfl
    · exact ⟨0, rfl⟩
    · exact ⟨1, rfl⟩
    · exact ⟨2, rfl⟩
    · exact ⟨3, rfl⟩
  · obtain ⟨d, hd, he⟩ := hv _ _ hm
    exact ⟨_, d, Or.inl rfl, hd, he⟩

/-! ## Well-formed managers -/

/-- What `CreateContactEntities` establishes: the submodel nodes are distinct mesh nodes with reference coordinates
`X`, contact nodes are node entities, contact faces are triangle entities, and all refer to submodel nodes. -/
structure WellFormed (m : Manager K) (X : ℕ → Fin 3 → K) : Prop where
  nodup : m.nodeIds.Nodup
  coords : ∀ i (hi : i < m.nodeIds.length) (d : Fin 3), m.modelCoord (3 * (i : ℤ) + d) = X (m.nodeIds[i]) d
  nodeType : ∀ e ∈ m.nodes, e.type = .node ∧ 0 ≤ e.node1 ∧ e.node1 < m.nodeIds.length
  faceType : ∀ e ∈ m.faces, e.type = .triangle ∧ (0 ≤ e.node1 ∧ e.node1 < m.nodeIds.length) ∧
    (0 ≤ e.node2 ∧ e.node2 < m.nodeIds.length) ∧ ∀ i, 0 ≤ e.fict i ∧ e.fict i < m.nodeIds.length

/-- The mesh node of a submodel node. -/
def meshNode (m : Manager K) (id : ℤ) : ℕ := m.nodeIds.getD id.toNat 0

theorem meshNode_nat (m : Manager K) (i : ℕ) (hi : i < m.nodeIds.length) : meshNode m (i : ℤ) = m.nodeIds[i] := by
  exact List.getD_eq_getElem _ _ hi

/-- The loop of `ApplyDisplacements`. -/
theorem applyCoord (X' : ℤ → K) (ids : List ℕ) (disp : ℕ → Fin 3 → K) (c0 : ℤ → K) (k : ℕ) :
    let c := (List.range k).foldl (fun (c : ℤ → K) (i : ℕ) =>
      let nodeId := ids.getD i 0
      let c := Function.update c (3 * (i : ℤ)) (X' (3 * (i : ℤ)) + disp nodeId 0)
      let c := Function.update c (3 * (i : ℤ) + 1) (X' (3 * (i : ℤ) + 1) + disp nodeId 1)
      Function.update c (3 * (i : ℤ) + 2) (X' (3 * (i : ℤ) + 2) + disp nodeId 2)) c0
    (∀ i < k, ∀ d : Fin 3, c (3 * (i : ℤ) + d) = X' (3 * (i : ℤ) + d) + disp (ids.getD i 0) d) ∧
    (∀ a : ℤ, (a < 0 ∨ 3 * (k : ℤ) ≤ a) → c a = c0 a) := by
  induction k with
  | zero => exact ⟨fun i hi => absurd hi (Nat.not_lt_zero i), fun a _ => rfl⟩
  | succ k ih =>
    rw [List.range_succ, List.foldl_append]
    simp only [List.foldl_cons, List.foldl_nil]
    obtain ⟨ih1, ih2⟩ := ih
    refine ⟨fun i hi d => ?_, fun a ha => ?_⟩
    · rcases Nat.lt_succ_iff_lt_or_eq.mp hi with h | h
      · rw [Function.update_of_ne, Function.update_of_ne, Function.update_of_ne]
        · exact ih1 i h d
        all_goals have := d.isLt; omega
      · subst h
        fin_cases d
        · simp
        · simp
        · simp
    · rw [Function.update_of_ne, Function.update_of_ne, Function.update_of_ne]
      · exact ih2 a (by push_cast at ha; omega)
      all_goals push_cast at ha; omega

theorem applyDisplacements_coord (disp : ℕ → Fin 3 → K) (m : Manager K) (i : ℕ) (hi : i < m.nodeIds.length) (d : Fin 3) :
    (applyDisplacements disp m).coord (3 * (i : ℤ) + d) = m.modelCoord (3 * (i : ℤ) + d) + disp (m.nodeIds[i]) d := by
  have h := (applyCoord m.modelCoord m.nodeIds disp m.coord m.nodeIds.length).1 i hi d
  rw [List.getD_eq_getElem _ _ hi] at h
  exact h

/-- Fields of entities that `SetCoordinates` keeps. -/
theorem setCoordinates_type (c : ℤ → K) (e : Entity K) : (setCoordinates c e).type = e.type := by
  unfold setCoordinates setBoundingBox; simp only []; split <;> rfl
theorem setCoordinates_node1 (c : ℤ → K) (e : Entity K) : (setCoordinates c e).node1 = e.node1 := by
  unfold setCoordinates setBoundingBox; simp only []; split <;> rfl
theorem setCoordinates_node2 (c : ℤ → K) (e : Entity K) : (setCoordinates c e).node2 = e.node2 := by
  unfold setCoordinates setBoundingBox; simp only []; split <;> rfl
theorem setCoordinates_fict (c : ℤ → K) (e : Entity K) : (setCoordinates c e).fict = e.fict := by
  unfold setCoordinates setBoundingBox; simp only []; split <;> rfl
theorem setCoordinates_charLen (c : ℤ → K) (e : Entity K) : (setCoordinates c e).charLen = e.charLen := by
  unfold setCoordinates setBoundingBox; simp only []; split <;> rfl
theorem setCoordinates_coord1 (c : ℤ → K) (e : Entity K) : (setCoordinates c e).coord1 = nodeVec c e.node1 := by
  unfold setCoordinates setBoundingBox; simp only []; split <;> rfl
theorem setCoordinates_coord2 (c : ℤ → K) (e : Entity K) (h : e.type = .triangle) :
    (setCoordinates c e).coord2 = nodeVec c e.node2 := by
  unfold setCoordinates setBoundingBox; simp only [h, if_true]; rfl
theorem setCoordinates_coord3 (c : ℤ → K) (e : Entity K) (h : e.type = .triangle) :
    (setCoordinates c e).coord3 = fun d => (nodeVec c (e.fict 0) d + nodeVec c (e.fict 1) d + nodeVec c (e.fict 2) d
      + nodeVec c (e.fict 3) d) / 4 := by
  unfold setCoordinates setBoundingBox; simp only [h, if_true]; rfl

/-- The loop of `GetForces`. -/
theorem getForces_loop (ids : List ℕ) (hn : ids.Nodup) (force : ℤ → K) (o0 : ℕ → Fin 3 → K) (k : ℕ) (hk : k ≤ ids.length) :
    let o := (List.range k).foldl (fun o (i : ℕ) =>
      Function.update o (ids.getD i 0) ![force (3 * (i : ℤ)), force (3 * (i : ℤ) + 1), force (3 * (i : ℤ) + 2)]) o0
    (∀ i (hi : i < k), o (ids[i]'(by omega)) = nodeVec force i) ∧ (∀ a, a ∉ ids → o a = o0 a) := by
  induction k with
  | zero => exact ⟨fun i hi => absurd hi (Nat.not_lt_zero i), fun a _ => rfl⟩
  | succ k ih =>
    rw [List.range_succ, List.foldl_append]
    simp only [List.foldl_cons, List.foldl_nil]
    obtain ⟨ih1, ih2⟩ := ih (by omega)
    have hg : ids.getD k 0 = ids[k] := List.getD_eq_getElem _ _ (by omega)
    refine ⟨fun i hi => ?_, fun a ha => ?_⟩
    · rcases Nat.lt_succ_iff_lt_or_eq.mp hi with h | h
      · rw [Function.update_of_ne, ih1 i h]
        rw [hg]
        intro e
        have := (List.Nodup.getElem_inj_iff hn).mp e
        omega
      · subst h
        rw [hg, Function.update_self]
        funext d
        fin_cases d
        · simp [nodeVec]
        · simp [nodeVec]
        · simp [nodeVec]
    · rw [Function.update_of_ne, ih2 a ha]
      rw [hg]
      rintro rfl
      exact ha (List.getElem_mem _)

theorem getForces_at (m : Manager K) (hn : m.nodeIds.Nodup) (force : ℤ → K) (o0 : ℕ → Fin 3 → K) (i : ℕ)
    (hi : i < m.nodeIds.length) : getForces m force o0 (m.nodeIds[i]) = nodeVec force i :=
  (getForces_loop m.nodeIds hn force o0 m.nodeIds.length le_rfl).1 i hi

theorem getForces_other (m : Manager K) (hn : m.nodeIds.Nodup) (force : ℤ → K) (o0 : ℕ → Fin 3 → K) (a : ℕ)
    (ha : a ∉ m.nodeIds) : getForces m force o0 a = o0 a :=
  (getForces_loop m.nodeIds hn force o0 m.nodeIds.length le_rfl).2 a ha

/-- Sum over flat addresses, node by node. -/
theorem sum_flat (g : ℤ → K) (n : ℕ) :
    ∑ a ∈ Finset.Ico (0 : ℤ) (3 * (n : ℤ)), g a
      = ∑ i ∈ Finset.range n, (g (3 * (i : ℤ)) + g (3 * (i : ℤ) + 1) + g (3 * (i : ℤ) + 2)) := by
  induction n with
  | zero => simp
  | succ n ih =>
    rw [Finset.sum_range_succ, ← ih]
    have : Finset.Ico (0 : ℤ) (3 * ((n + 1 : ℕ) : ℤ))
        = insert (3 * (n : ℤ) + 2) (insert (3 * (n : ℤ) + 1) (insert (3 * (n : ℤ)) (Finset.Ico (0 : ℤ) (3 * (n : ℤ))))) := by
      ext a
      simp only [Finset.mem_Ico, Finset.mem_insert]
      push_cast
      omega
    rw [this, Finset.sum_insert, Finset.sum_insert, Finset.sum_insert]
    · ring
    · simp
    · simp
    · simp

/-- A mesh field as flat submodel array. -/
def flat (m : Manager K) (V : ℕ → Fin 3 → K) : ℤ → K := fun a =>
  V (meshNode m (a / 3)) ⟨(a % 3).toNat, by omega⟩

theorem nodeVec_flat (m : Manager K) (V : ℕ → Fin 3 → K) (id : ℤ) : nodeVec (flat m V) id = V (meshNode m id) := by
  funext d
  unfold nodeVec flat
  have h1 : (3 * id + (d : ℕ)) / 3 = id := by have := d.isLt; omega
  have h2 : ((3 * id + (d : ℕ)) % 3).toNat = (d : ℕ) := by have := d.isLt; omega
  simp only [h1, h2]

/-- Virtual work of the forces returned by `GetForces`, over any set of mesh nodes containing the submodel. -/
theorem getForces_work (m : Manager K) (hn : m.nodeIds.Nodup) (ops : List (ℤ × K))
    (hops : ∀ op ∈ ops, op.1 ∈ Finset.Ico (0 : ℤ) (3 * (m.nodeIds.length : ℤ)))
    (V : ℕ → Fin 3 → K) (T : Finset ℕ) (hT : ∀ a ∈ m.nodeIds, a ∈ T) :
    ∑ a ∈ T, dot (V a) (getForces m (runOps (fun _ => 0) ops) (fun _ => 0) a) = pair (flat m V) ops := by
  have h1 : ∑ a ∈ T, dot (V a) (getForces m (runOps (fun _ => 0) ops) (fun _ => 0) a)
      = ∑ a ∈ m.nodeIds.toFinset, dot (V a) (getForces m (runOps (fun _ => 0) ops) (fun _ => 0) a) := by
    symm
    apply Finset.sum_subset
    · intro a ha
      exact hT a (List.mem_toFinset.mp ha)
    · intro a _ ha
      rw [getForces_other m hn _ _ a (fun h => ha (List.mem_toFinset.mpr h))]
      simp [dot]
  have h2 : ∑ a ∈ m.nodeIds.toFinset, dot (V a) (getForces m (runOps (fun _ => 0) ops) (fun _ => 0) a)
      = ∑ i ∈ Finset.range m.nodeIds.length, dot (nodeVec (flat m V) i) (nodeVec (runOps (fun _ => 0) ops) i) := by
    symm
    refine Finset.sum_bij' (fun i _ => m.nodeIds.getD i 0) (fun a _ => m.nodeIds.idxOf a) ?_ ?_ ?_ ?_ ?_
    · intro i hi
      have hi' := Finset.mem_range.mp hi
      rw [List.getD_eq_getElem _ _ hi']
      exact List.mem_toFinset.mpr (List.getElem_mem _)
    · intro a ha
      exact Finset.mem_range.mpr (List.idxOf_lt_length_iff.mpr (List.mem_toFinset.mp ha))
    · intro i hi
      have hi' := Finset.mem_range.mp hi
      simp only [List.getD_eq_getElem _ _ hi']
      exact hn.idxOf_getElem i hi'
    · intro a ha
      have := List.idxOf_lt_length_iff.mpr (List.mem_toFinset.mp ha)
      rw [List.getD_eq_getElem _ _ this]
      exact List.getElem_idxOf this
    · intro i hi
      have hi' := Finset.mem_range.mp hi
      rw [List.getD_eq_getElem _ _ hi', getForces_at m hn _ _ i hi', nodeVec_flat, meshNode_nat m i hi']
  rw [h1, h2]
  have h3 := sum_runOps (Finset.Ico (0 : ℤ) (3 * (m.nodeIds.length : ℤ))) (flat m V) ops (fun _ => 0) hops
  simp only [mul_zero, Finset.sum_const_zero, zero_add] at h3
  rw [← h3, sum_flat]
  apply Finset.sum_congr rfl
  intro i _
  simp [dot, nodeVec]

end NimbleSM.Contact
