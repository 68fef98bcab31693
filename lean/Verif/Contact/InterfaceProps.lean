import Verif.Contact.Interface
import Verif.Contact.ForceProps

/-!
# C124: interactions reported by contact search extensions

What calls of `EnforceNodeFaceInteraction` add to the contact forces, executed by any schedule of their memory accesses.
-/

open scoped BigOperators

namespace NimbleSM.Contact

open NimbleSM.Tensor

/-! ## Specification -/

/-- What a call is to add to the contact force vector: minus the force to the node of the contact node; the shares of the force to the two
first vertices of the face, and the share of the third, which is the centre of the quadrilateral, in quarters to its four nodes. -/
noncomputable def Call.additions (penalty : ℝ) (nodes faces : ℕ → Entity ℝ) (c : Call) : List (ℤ × ℝ) :=
  if c.gap < 0 then
    let F := c.force penalty
    let N := shares (faces c.face) c.closest
    addVec (nodes c.node).node1 (fun d => - F d) ++ (addVec (faces c.face).node1 (fun d => N 0 * F d) ++
      (addVec (faces c.face).node2 (fun d => N 1 * F d) ++
        [(faces c.face).fict 0, (faces c.face).fict 1, (faces c.face).fict 2, (faces c.face).fict 3].flatMap fun id =>
          addVec id (fun d => N 2 * F d / 4)))
  else []

/-- Two calls conflict if they are about the same node or the same face. -/
def Call.Conflict (c c' : Call) : Prop := c.node = c'.node ∨ c.face = c'.face

/-- No call makes an access while a conflicting call is in progress. -/
def Serialized (program : ℕ → List Access) (conflict : ℕ → ℕ → Prop) : List ℕ → Threads → Prop
  | [], _ => True
  | i :: rest, t => (∀ j, j ≠ i → conflict i j → ¬ (0 < t.done j ∧ t.done j < (program j).length)) ∧
      Serialized program conflict rest (t.step program i)

/-! ## Programs that store, then add -/

/-- A program that makes the assignments `stores` and then the additions `adds`. -/
def Shaped (stores : List (Slot × ℝ)) (adds : List (Slot × Bool × ℤ)) (p : List Access) : Prop :=
  p = stores.map (fun s => .store s.1 s.2) ++ adds.map (fun a => .add a.1 a.2.1 a.2.2) ∧ (stores.map Prod.fst).Nodup ∧
    ∀ a ∈ adds, a.1 ∈ stores.map Prod.fst

/-- The value a list of assignments leaves in a field. -/
noncomputable def storedValue (stores : List (Slot × ℝ)) (s : Slot) : ℝ := ((stores.find? fun x => x.1 = s).map Prod.snd).getD 0

/-- The addition made by an access, if the fields hold the values of `stores`. -/
noncomputable def additionOf (stores : List (Slot × ℝ)) (a : Slot × Bool × ℤ) : ℤ × ℝ :=
  (a.2.2, if a.2.1 then storedValue stores a.1 / 4 else storedValue stores a.1)

theorem storedValue_mem {stores : List (Slot × ℝ)} (h : (stores.map Prod.fst).Nodup) {x : Slot × ℝ} (hx : x ∈ stores) :
    storedValue stores x.1 = x.2 := by
  induction stores with
  | nil => exact absurd hx (by simp)
  | cons y l ih =>
    rw [List.map_cons, List.nodup_cons] at h
    unfold storedValue
    by_cases hy : y.1 = x.1
    · rcases List.mem_cons.mp hx with rfl | hx'
      · simp
      · exact absurd (hy ▸ List.mem_map_of_mem (f := Prod.fst) hx') h.1
    · rcases List.mem_cons.mp hx with rfl | hx'
      · exact absurd rfl hy
      · rw [List.find?_cons_of_neg (by simpa using hy)]
        exact ih h.2 hx'

section Schedule

variable {program : ℕ → List Access} {stores : ℕ → List (Slot × ℝ)} {adds : ℕ → List (Slot × Bool × ℤ)}
  (hprog : ∀ i, Shaped (stores i) (adds i) (program i)) {conflict : ℕ → ℕ → Prop}
  (hconf : ∀ i j, i ≠ j → ∀ s, s ∈ (stores i).map Prod.fst → s ∈ (stores j).map Prod.fst → conflict i j)
  (n : ℕ) (hn : ∀ i, n ≤ i → program i = [])

/-- The value added at `a` by the first `k` accesses of thread `i`. -/
noncomputable def addedBy (stores : List (Slot × ℝ)) (adds : List (Slot × Bool × ℤ)) (k : ℕ) (a : ℤ) : ℝ :=
  (((adds.take (k - stores.length)).map (additionOf stores)).map fun op => if op.1 = a then op.2 else 0).sum

/-- What holds during a serialized execution: fields of calls in progress hold what the call stored, and the force vector is the sum
of the additions made. -/
structure Consistent (stores : ℕ → List (Slot × ℝ)) (adds : ℕ → List (Slot × Bool × ℤ)) (program : ℕ → List Access) (n : ℕ) (f : ℤ → ℝ)
    (t : Threads) : Prop where
  bound : ∀ i, t.done i ≤ (program i).length
  fields : ∀ i, t.done i < (program i).length → ∀ q (x : Slot × ℝ), q < t.done i → (stores i)[q]? = some x → t.memory.field x.1 = x.2
  force : ∀ a, t.memory.force a = f a + ∑ i ∈ Finset.range n, addedBy (stores i) (adds i) (t.done i) a

include hprog hconf hn in
theorem consistent_step {f : ℤ → ℝ} {t : Threads} (h : Consistent stores adds program n f t) (i : ℕ)
    (hs : ∀ j, j ≠ i → conflict i j → ¬ (0 < t.done j ∧ t.done j < (program j).length)) :
    Consistent stores adds program n f (t.step program i) := by
  unfold Threads.step
  cases hacc : (program i)[t.done i]? with
  | none => exact h
  | some acc =>
    obtain ⟨hlt, hget⟩ := List.getElem?_eq_some_iff.mp hacc
    have hin : i < n := by
      by_contra hge
      rw [hn i (by omega)] at hlt
      simp at hlt
    obtain ⟨hp, hnd, hsub⟩ := hprog i
    have hb : ∀ j, Function.update t.done i (t.done i + 1) j ≤ (program j).length := by
      intro j
      by_cases hj : j = i
      · subst hj; simpa using hlt
      · rw [Function.update_of_ne hj]; exact h.bound j
    -- the sum changes only at `i`
    have hsum : ∀ a, ∑ j ∈ Finset.range n, addedBy (stores j) (adds j) (Function.update t.done i (t.done i + 1) j) a
        = (∑ j ∈ Finset.range n, addedBy (stores j) (adds j) (t.done j) a)
          + (addedBy (stores i) (adds i) (t.done i + 1) a - addedBy (stores i) (adds i) (t.done i) a) := by
      intro a
      rw [← Finset.add_sum_erase _ _ (Finset.mem_range.mpr hin), ← Finset.add_sum_erase (Finset.range n)
        (fun j => addedBy (stores j) (adds j) (t.done j) a) (Finset.mem_range.mpr hin), Function.update_self]
      rw [Finset.sum_congr rfl (g := fun j => addedBy (stores j) (adds j) (t.done j) a)
        (fun j hj => by rw [Function.update_of_ne (Finset.ne_of_mem_erase hj)])]
      ring
    by_cases hk : t.done i < (stores i).length
    · -- an assignment
      have hx : acc = .store (stores i)[t.done i].1 (stores i)[t.done i].2 := by
        rw [← hget]
        simp only [hp]
        rw [List.getElem_append_left (by simpa using hk)]
        simp
      subst hx
      set x := (stores i)[t.done i] with hxdef
      have hxm : x ∈ stores i := List.getElem_mem hk
      refine ⟨hb, ?_, ?_⟩
      · intro j hj q y hq hy
        have hym : y ∈ stores j := List.mem_of_getElem? hy
        simp only [Access.run] at hj hq ⊢
        by_cases hji : j = i
        · subst hji
          rw [Function.update_self] at hj hq
          by_cases hxy : y.1 = x.1
          · rw [hxy, Function.update_self, ← storedValue_mem hnd hxm, ← hxy, storedValue_mem hnd hym]
          · rw [Function.update_of_ne hxy]
            refine h.fields j hlt q y ?_ hy
            rcases Nat.lt_succ_iff_lt_or_eq.mp hq with h1 | h1
            · exact h1
            · subst h1
              rw [List.getElem?_eq_getElem hk] at hy
              exact absurd (congrArg Prod.fst (Option.some.inj hy)).symm hxy
        · rw [Function.update_of_ne hji] at hj hq
          have hne : y.1 ≠ x.1 := by
            intro hxy
            refine hs j hji (hconf i j (Ne.symm hji) x.1 (List.mem_map_of_mem hxm) ?_) ⟨by omega, hj⟩
            rw [← hxy]; exact List.mem_map_of_mem hym
          rw [Function.update_of_ne hne]
          exact h.fields j hj q y hq hy
      · intro a
        simp only [Access.run]
        rw [hsum, h.force a]
        have : ∀ k ≤ (stores i).length, addedBy (stores i) (adds i) k a = 0 := by
          intro k hk
          unfold addedBy
          rw [Nat.sub_eq_zero_of_le hk]; simp
        rw [this _ (by omega), this _ (by omega)]
        ring
    · -- an addition
      have hk' : t.done i - (stores i).length < (adds i).length := by
        have := hlt
        rw [hp, List.length_append, List.length_map, List.length_map] at this
        omega
      set b := (adds i)[t.done i - (stores i).length] with hbdef
      have hx : acc = .add b.1 b.2.1 b.2.2 := by
        rw [← hget]
        simp only [hp]
        rw [List.getElem_append_right (by simpa using hk)]
        simp [hbdef]
      subst hx
      have hbm : b ∈ adds i := List.getElem_mem hk'
      obtain ⟨x, hxm, hxb⟩ := List.mem_map.mp (hsub b hbm)
      have hfield : t.memory.field b.1 = storedValue (stores i) b.1 := by
        obtain ⟨q, hq, hqx⟩ := List.getElem_of_mem hxm
        have := h.fields i hlt q x (by omega) (by rw [List.getElem?_eq_getElem hq, hqx])
        rw [← hxb, this, storedValue_mem hnd hxm]
      refine ⟨hb, ?_, ?_⟩
      · intro j hj q y hq hy
        simp only [Access.run] at hj hq ⊢
        by_cases hji : j = i
        · subst hji
          refine h.fields j hlt q y ?_ hy
          have := (List.getElem?_eq_some_iff.mp hy).1
          omega
        · rw [Function.update_of_ne hji] at hj hq
          exact h.fields j hj q y hq hy
      · intro a
        simp only [Access.run]
        rw [hsum, addAt_apply, h.force a]
        have hadd : addedBy (stores i) (adds i) (t.done i + 1) a = addedBy (stores i) (adds i) (t.done i) a
            + if (additionOf (stores i) b).1 = a then (additionOf (stores i) b).2 else 0 := by
          unfold addedBy
          rw [show t.done i + 1 - (stores i).length = (t.done i - (stores i).length) + 1 by omega, List.take_succ_eq_append_getElem hk',
            List.map_append, List.map_append, List.sum_append]
          simp [hbdef]
        rw [hadd]
        simp only [additionOf, hfield]
        rw [add_sub_cancel_left, add_assoc]
        congr

include hprog hconf hn in
theorem consistent_run {f : ℤ → ℝ} (schedule : List ℕ) (t : Threads) (h : Consistent stores adds program n f t)
    (hs : Serialized program conflict schedule t) : Consistent stores adds program n f (runSchedule program schedule t) := by
  induction schedule generalizing t with
  | nil => exact h
  | cons i rest ih => exact ih _ (consistent_step hprog hconf n hn h i hs.1) hs.2

theorem consistent_start (m : Memory) : Consistent stores adds program n m.force ⟨fun _ => 0, m⟩ := by
  refine ⟨fun i => Nat.zero_le _, fun i _ q x hq => absurd hq (Nat.not_lt_zero _), fun a => ?_⟩
  simp [addedBy]

end Schedule

/-! ## Calls -/

/-- The assignments of the three components of one vertex. -/
def vertexStores (face : Bool) (index : ℕ) (v : Fin 3) (x : Fin 3 → ℝ) : List (Slot × ℝ) :=
  [(⟨face, index, v, 0⟩, x 0), (⟨face, index, v, 1⟩, x 1), (⟨face, index, v, 2⟩, x 2)]

/-- The additions of the three components of one vertex. -/
def vertexAdds (face : Bool) (index : ℕ) (v : Fin 3) (quarter : Bool) (id : ℤ) : List (Slot × Bool × ℤ) :=
  [(⟨face, index, v, 0⟩, quarter, 3 * id), (⟨face, index, v, 1⟩, quarter, 3 * id + 1), (⟨face, index, v, 2⟩, quarter, 3 * id + 2)]

/-- The assignments of a call. -/
noncomputable def Call.stores (penalty : ℝ) (faces : ℕ → Entity ℝ) (c : Call) : List (Slot × ℝ) :=
  if c.gap < 0 then
    let N := shares (faces c.face) c.closest
    vertexStores true c.face 0 (fun d => N 0 * c.force penalty d) ++ (vertexStores true c.face 1 (fun d => N 1 * c.force penalty d) ++
      (vertexStores true c.face 2 (fun d => N 2 * c.force penalty d) ++
        vertexStores false c.node 0 (fun d => 1 * (c.force penalty d * -1))))
  else []

/-- The additions of a call. -/
noncomputable def Call.adds (nodes faces : ℕ → Entity ℝ) (c : Call) : List (Slot × Bool × ℤ) :=
  if c.gap < 0 then
    vertexAdds false c.node 0 false (nodes c.node).node1 ++ (vertexAdds true c.face 0 false (faces c.face).node1 ++
      (vertexAdds true c.face 1 false (faces c.face).node2 ++
        [(faces c.face).fict 0, (faces c.face).fict 1, (faces c.face).fict 2, (faces c.face).fict 3].flatMap
          (vertexAdds true c.face 2 true)))
  else []

section Calls

variable (penalty : ℝ) (nodes faces : ℕ → Entity ℝ) (c : Call)

theorem call_shaped (hnode : (nodes c.node).type = .node) (hface : (faces c.face).type = .triangle) :
    Shaped (c.stores penalty faces) (c.adds nodes faces) (c.accesses penalty nodes faces) := by
  unfold Shaped Call.stores Call.adds Call.accesses
  by_cases hg : c.gap < 0
  · rw [if_pos hg, if_pos hg, if_pos hg]
    refine ⟨?_, ?_, ?_⟩
    · have hN : shares (nodes c.node) c.closest = ![1, 0, 0] := by unfold shares; rw [hnode]
      simp [computeNodalAccesses, scatterAccesses, hnode, hface, hN, storeVertex, addVertex, vertexStores, vertexAdds]
    · simp [vertexStores]
    · simp [vertexStores, vertexAdds]
  · simp [hg]

theorem call_additions : (c.adds nodes faces).map (additionOf (c.stores penalty faces)) = c.additions penalty nodes faces := by
  unfold Call.adds Call.stores Call.additions
  by_cases hg : c.gap < 0
  · rw [if_pos hg, if_pos hg, if_pos hg]
    simp [vertexStores, vertexAdds, additionOf, storedValue, addVec]
  · simp [hg]

theorem call_stores_conflict (c' : Call) (s : Slot) (h : s ∈ (c.stores penalty faces).map Prod.fst)
    (h' : s ∈ (c'.stores penalty faces).map Prod.fst) : c.Conflict c' := by
  have key : ∀ c : Call, s ∈ (c.stores penalty faces).map Prod.fst → s.index = if s.face then c.face else c.node := by
    intro c hs
    unfold Call.stores at hs
    by_cases hg : c.gap < 0
    · rw [if_pos hg] at hs
      simp only [vertexStores, List.map_append, List.map_cons, List.map_nil, List.mem_append, List.mem_cons, List.not_mem_nil,
        or_false] at hs
      rcases hs with (rfl | rfl | rfl) | (rfl | rfl | rfl) | (rfl | rfl | rfl) | (rfl | rfl | rfl) <;> rfl
    · simp [hg] at hs
  have h1 := key c h
  have h2 := key c' h'
  unfold Call.Conflict
  by_cases hf : s.face = true
  · rw [if_pos hf] at h1 h2; right; rw [← h1, h2]
  · rw [if_neg hf] at h1 h2; left; rw [← h1, h2]

theorem call_perm (hface : (faces c.face).type = .triangle) :
    (c.additions penalty nodes faces).Perm (if c.gap < 0 then (enforceOps 1 (nodes c.node) (faces c.face)
      (penalty * c.gap / c.numNodeFaces) c.direction (shares (faces c.face) c.closest)).getD [] else []) := by
  unfold Call.additions
  by_cases hg : c.gap < 0
  · rw [if_pos hg, if_pos hg]
    simp only [enforceOps, setNodalContactForces, hface, defaultEntity, scatterOps, getContactForce, one_mul, Call.force,
      Option.bind_eq_bind, Option.bind_some, Option.pure_def, Option.getD_some, if_true]
    simp only [reduceCtorEq, if_false, List.append_nil]
    exact List.perm_append_comm
  · rw [if_neg hg, if_neg hg]

end Calls

theorem sum_range_list {α : Type*} (l : List α) (g : Option α → ℝ) :
    ∑ i ∈ Finset.range l.length, g l[i]? = (l.map fun x => g (some x)).sum := by
  induction l with
  | nil => simp
  | cons x l ih =>
    rw [List.length_cons, Finset.sum_range_succ', List.map_cons, List.sum_cons, add_comm]
    simp only [List.getElem?_cons_succ, List.getElem?_cons_zero]
    rw [ih]

theorem runOps_flatMap {α : Type*} (l : List α) (g : α → List (ℤ × ℝ)) (f : ℤ → ℝ) (a : ℤ) :
    runOps f (l.flatMap g) a = f a + (l.map fun x => ((g x).map fun op => if op.1 = a then op.2 else 0).sum).sum := by
  rw [runOps_apply]
  congr 1
  induction l with
  | nil => simp
  | cons x l ih => simp [List.flatMap_cons, ih]

/-- The schedule lets every call finish. -/
def Completes (penalty : ℝ) (nodes faces : ℕ → Entity ℝ) (calls : List Call) (schedule : List ℕ) (field : Slot → ℝ) : Prop :=
  ∀ (i : ℕ) (c : Call), calls[i]? = some c →
    (computeContact penalty nodes faces calls schedule field).done i = (c.accesses penalty nodes faces).length

/-- In the schedule, no call makes an access while a call about the same node or the same face is in progress. -/
def KeepsApart (penalty : ℝ) (nodes faces : ℕ → Entity ℝ) (calls : List Call) (schedule : List ℕ) (field : Slot → ℝ) : Prop :=
  Serialized (fun i => (calls[i]?.map (Call.accesses penalty nodes faces)).getD [])
    (fun i j => ∀ c c', calls[i]? = some c → calls[j]? = some c' → c.Conflict c') schedule
    { done := fun _ => 0, memory := { field := field, force := fun _ => 0 } }

/-- **C124, the part that holds.**  Executed by any schedule that keeps calls about the same node or the same face apart, the calls leave
in the force vector the sum of their additions, whatever the order of the calls and the interleaving of the others. -/
theorem interactions_add_up_partial (penalty : ℝ) (nodes faces : ℕ → Entity ℝ) (calls : List Call)
    (hnode : ∀ c ∈ calls, (nodes c.node).type = .node) (hface : ∀ c ∈ calls, (faces c.face).type = .triangle) (schedule : List ℕ)
    (field : Slot → ℝ) (hs : KeepsApart penalty nodes faces calls schedule field) (hc : Completes penalty nodes faces calls schedule field) :
    (computeContact penalty nodes faces calls schedule field).memory.force
      = runOps (fun _ => 0) (calls.flatMap (Call.additions penalty nodes faces)) := by
  have hshape : ∀ i : ℕ, Shaped ((calls[i]?.map (Call.stores penalty faces)).getD []) ((calls[i]?.map (Call.adds nodes faces)).getD [])
      ((calls[i]?.map (Call.accesses penalty nodes faces)).getD []) := by
    intro i
    cases h : calls[i]? with
    | none => exact ⟨rfl, by simp, by simp⟩
    | some c =>
      have hm := List.mem_of_getElem? h
      exact call_shaped penalty nodes faces c (hnode c hm) (hface c hm)
  have hcons := consistent_run hshape (conflict := fun i j : ℕ => ∀ c c', calls[i]? = some c → calls[j]? = some c' → c.Conflict c')
    (by
      intro i j _ s h1 h2 c c' hc hc'
      rw [hc] at h1
      rw [hc'] at h2
      exact call_stores_conflict penalty faces c c' s h1 h2)
    calls.length (by intro i hi; rw [List.getElem?_eq_none hi]; rfl) schedule _
    (consistent_start calls.length { field := field, force := fun _ => 0 }) hs
  funext a
  have h1 : (computeContact penalty nodes faces calls schedule field).memory.force a = _ := hcons.force a
  rw [h1, runOps_flatMap]
  simp only
  congr 1
  rw [Finset.sum_congr rfl (g := fun i : ℕ => (calls[i]?.map fun c =>
      ((c.additions penalty nodes faces).map fun op => if op.1 = a then op.2 else 0).sum).getD 0)]
  · rw [sum_range_list calls fun c => (c.map fun c => ((c.additions penalty nodes faces).map fun op => if op.1 = a then op.2 else 0).sum).getD 0]
    rfl
  · intro i _
    cases h : calls[i]? with
    | none => simp [addedBy]
    | some c =>
      have hm := List.mem_of_getElem? h
      have h2 := hc i c h
      have h3 := (call_shaped penalty nodes faces c (hnode c hm) (hface c hm)).1
      have h4 : (runSchedule (fun i : ℕ => (calls[i]?.map (Call.accesses penalty nodes faces)).getD []) schedule
          { done := fun _ => 0, memory := { field := field, force := fun _ => 0 } }).done i
          = (c.stores penalty faces).length + (c.adds nodes faces).length := by
        have : _ = (c.accesses penalty nodes faces).length := h2
        rw [h3, List.length_append, List.length_map, List.length_map] at this
        exact this
      rw [h4]
      unfold addedBy
      simp only [Option.map_some, Option.getD_some]
      rw [Nat.add_sub_cancel_left, List.take_length, call_additions]

theorem shares_sum (e : Entity ℝ) (h : e.type = .triangle) (q : Fin 3 → ℝ) : shares e q 0 + shares e q 1 + shares e q 2 = 1 := by
  unfold shares
  rw [h]
  simp

/-- The nodes of the contact force vector that a call is about. -/
def Call.ids (nodes faces : ℕ → Entity ℝ) (c : Call) : List ℤ :=
  [(nodes c.node).node1, (faces c.face).node1, (faces c.face).node2, (faces c.face).fict 0, (faces c.face).fict 1, (faces c.face).fict 2,
    (faces c.face).fict 3]

/-- **C124, the part that holds.**  With such a schedule the contact forces have no resultant, wherever the closest points are. -/
theorem interactions_resultant_partial (penalty : ℝ) (nodes faces : ℕ → Entity ℝ) (calls : List Call)
    (hnode : ∀ c ∈ calls, (nodes c.node).type = .node) (hface : ∀ c ∈ calls, (faces c.face).type = .triangle) (schedule : List ℕ)
    (field : Slot → ℝ) (hs : KeepsApart penalty nodes faces calls schedule field) (hc : Completes penalty nodes faces calls schedule field)
    (n : ℕ) (hids : ∀ c ∈ calls, ∀ id ∈ c.ids nodes faces, 0 ≤ id ∧ id < n) (d : Fin 3) :
    ∑ i ∈ Finset.range n, (computeContact penalty nodes faces calls schedule field).memory.force (3 * (i : ℤ) + d) = 0 := by
  rw [interactions_add_up_partial penalty nodes faces calls hnode hface schedule field hs hc]
  let inter : Call → Interaction ℝ := fun c =>
    ⟨nodes c.node, faces c.face, penalty * c.gap / c.numNodeFaces, c.direction, shares (faces c.face) c.closest⟩
  have hperm : (calls.flatMap (Call.additions penalty nodes faces)).Perm
      (enforceAll 1 ((calls.filter fun c => decide (c.gap < 0)).map inter)) := by
    clear hs hc
    induction calls with
    | nil => exact List.Perm.refl _
    | cons c l ih =>
      have ih' := ih (fun c hc => hnode c (List.mem_cons_of_mem _ hc)) (fun c hc => hface c (List.mem_cons_of_mem _ hc))
        (fun c hc => hids c (List.mem_cons_of_mem _ hc))
      have h1 := call_perm penalty nodes faces c (hface c List.mem_cons_self)
      rw [List.flatMap_cons]
      by_cases hg : c.gap < 0
      · rw [List.filter_cons_of_pos (by simpa using hg), List.map_cons]
        unfold enforceAll
        rw [List.flatMap_cons]
        rw [if_pos hg] at h1
        exact h1.append ih'
      · rw [List.filter_cons_of_neg (by simpa using hg)]
        rw [if_neg hg] at h1
        rw [h1.eq_nil]
        exact ih'
  have := enforce_resultant 1 ((calls.filter fun c => decide (c.gap < 0)).map inter) n
    (by
      intro i hi
      obtain ⟨c, hc, rfl⟩ := List.mem_map.mp hi
      exact hface c (List.mem_of_mem_filter hc))
    (by
      intro i hi
      obtain ⟨c, hc, rfl⟩ := List.mem_map.mp hi
      exact shares_sum _ (hface c (List.mem_of_mem_filter hc)) _)
    (by
      intro i hi
      obtain ⟨c, hc, rfl⟩ := List.mem_map.mp hi
      exact hids c (List.mem_of_mem_filter hc))
    (fun _ => 0) _ hperm d
  rw [this]
  simp

end NimbleSM.Contact
