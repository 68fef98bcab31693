import Verif.Contact.InterfaceRace

/-!
# C124: serial execution, and cases
-/

open scoped BigOperators

namespace NimbleSM.Contact

open NimbleSM.Tensor

/-! ## One call after the other -/

/-- The schedule that completes the threads of `order`, one after the other. -/
def serialSchedule (program : ℕ → List Access) (order : List ℕ) : List ℕ := order.flatMap fun i => List.replicate (program i).length i

theorem run_serial (program : ℕ → List Access) (conflict : ℕ → ℕ → Prop) (order : List ℕ) (hnd : order.Nodup) (t : Threads)
    (h0 : ∀ i ∈ order, t.done i = 0) (hrest : ∀ j, ¬ (0 < t.done j ∧ t.done j < (program j).length)) :
    Serialized program conflict (serialSchedule program order) t ∧
      ∀ j, (runSchedule program (serialSchedule program order) t).done j = if j ∈ order then (program j).length else t.done j := by
  have block : ∀ (i k : ℕ) (rest : List ℕ) (t : Threads), (∀ j, j ≠ i → ¬ (0 < t.done j ∧ t.done j < (program j).length)) →
      t.done i + k ≤ (program i).length → Serialized program conflict rest (runSchedule program (List.replicate k i) t) →
      Serialized program conflict (List.replicate k i ++ rest) t := by
    intro i k rest
    induction k with
    | zero => intro t _ _ h; exact h
    | succ k ih =>
      intro t hj hk h
      have hlt : t.done i < (program i).length := by omega
      have hstep : t.step program i = Threads.mk (Function.update t.done i (t.done i + 1)) ((program i)[t.done i].run t.memory) := by
        unfold Threads.step
        rw [List.getElem?_eq_getElem hlt]
      refine ⟨fun j hji _ => hj j hji, ?_⟩
      refine ih _ ?_ ?_ h
      · intro j hji
        rw [hstep]
        simp only
        rw [Function.update_of_ne hji]
        exact hj j hji
      · rw [hstep]; simp only [Function.update_self]; omega
  induction order generalizing t with
  | nil => exact ⟨trivial, fun j => by simp [serialSchedule, runSchedule]⟩
  | cons i order ih =>
    rw [List.nodup_cons] at hnd
    have hi0 := h0 i List.mem_cons_self
    have hrun := run_block program i (program i).length t (by omega)
    have ih' := ih hnd.2 (runSchedule program (List.replicate (program i).length i) t)
      (by
        intro j hj
        have hji : j ≠ i := fun h => hnd.1 (h ▸ hj)
        rw [hrun]; simp only
        rw [Function.update_of_ne hji]
        exact h0 j (List.mem_cons_of_mem _ hj))
      (by
        intro j
        rw [hrun]; simp only
        by_cases hji : j = i
        · subst hji; simp [hi0]
        · rw [Function.update_of_ne hji]; exact hrest j)
    have hsched : serialSchedule program (i :: order) = List.replicate (program i).length i ++ serialSchedule program order := rfl
    rw [hsched]
    refine ⟨block i _ _ t (fun j _ => hrest j) (by omega) ih'.1, fun j => ?_⟩
    have : runSchedule program (List.replicate (program i).length i ++ serialSchedule program order) t
        = runSchedule program (serialSchedule program order) (runSchedule program (List.replicate (program i).length i) t) :=
      List.foldl_append
    rw [this, ih'.2 j, hrun]
    simp only
    by_cases hji : j = i
    · subst hji
      rw [if_neg hnd.1, if_pos List.mem_cons_self]; simp [hi0]
    · rw [Function.update_of_ne hji]
      by_cases hj : j ∈ order
      · rw [if_pos hj, if_pos (List.mem_cons_of_mem _ hj)]
      · rw [if_neg hj, if_neg (by simp [hji, hj])]

/-- **C124, the part that holds.**  Executed one after the other, in any order, as by a search with one thread, the calls leave the sum of
their additions. -/
theorem interactions_serial_partial (penalty : ℝ) (nodes faces : ℕ → Entity ℝ) (calls : List Call)
    (hnode : ∀ c ∈ calls, (nodes c.node).type = .node) (hface : ∀ c ∈ calls, (faces c.face).type = .triangle) (order : List ℕ)
    (horder : order.Perm (List.range calls.length)) (field : Slot → ℝ) :
    let schedule := serialSchedule (fun i => (calls[i]?.map (Call.accesses penalty nodes faces)).getD []) order
    KeepsApart penalty nodes faces calls schedule field ∧ Completes penalty nodes faces calls schedule field ∧
      (computeContact penalty nodes faces calls schedule field).memory.force
        = runOps (fun _ => 0) (calls.flatMap (Call.additions penalty nodes faces)) := by
  intro schedule
  have hnd : order.Nodup := horder.nodup_iff.mpr List.nodup_range
  obtain ⟨h1, h2⟩ := run_serial (fun i => (calls[i]?.map (Call.accesses penalty nodes faces)).getD [])
    (fun i j => ∀ c c', calls[i]? = some c → calls[j]? = some c' → c.Conflict c') order hnd
    { done := fun _ => 0, memory := { field := field, force := fun _ => 0 } } (fun _ _ => rfl) (by simp)
  have hc : Completes penalty nodes faces calls schedule field := by
    intro i c hic
    refine (h2 i).trans ?_
    have : i ∈ order := horder.mem_iff.mpr (List.mem_range.mpr (List.getElem?_eq_some_iff.mp hic).1)
    rw [if_pos this, hic]
    rfl
  exact ⟨h1, hc, interactions_add_up_partial penalty nodes faces calls hnode hface schedule field h1 hc⟩

/-! ## A case: two nodes on one face -/

theorem third_of_three {α : Type*} (a b c : α) : ![a, b, c] 2 = c := rfl

theorem third_of_four {α : Type*} (a b c d : α) : ![a, b, c, d] 2 = c := rfl

theorem fourth_of_four {α : Type*} (a b c d : α) : ![a, b, c, d] 3 = d := rfl

/-- Contact nodes 0 and 1. -/
noncomputable def demoNodes : ℕ → Entity ℝ := fun i => { (defaultEntity : Entity ℝ) with type := .node, node1 := i }

/-- The face: a triangle of the quadrilateral of nodes 2, 3, 4, 5. -/
noncomputable def demoFaces : ℕ → Entity ℝ := fun _ =>
  { (defaultEntity : Entity ℝ) with
    type := .triangle, node1 := 2, node2 := 3, fict := ![2, 3, 4, 5],
    coord1 := ![0, 0, 0], coord2 := ![1, 0, 0], coord3 := ![0, 1, 0] }

/-- Node `i` is `i + 1` below the face. -/
noncomputable def demoCall (i : ℕ) : Call :=
  { node := i, face := 0, numNodeFaces := 1, gap := -(i + 1), direction := ![1, 0, 0], closest := ![0, 0, 0] }

theorem demo_ids : ∀ c ∈ [demoCall 0, demoCall 1], ∀ id ∈ c.ids demoNodes demoFaces, 0 ≤ id ∧ id < ((6 : ℕ) : ℤ) := by
  intro c hc id hid
  simp only [List.mem_cons, List.not_mem_nil, or_false] at hc
  rcases hc with rfl | rfl <;>
    (simp only [Call.ids, demoNodes, demoFaces, demoCall, List.mem_cons, List.not_mem_nil, or_false] at hid
     rcases hid with rfl | rfl | rfl | rfl | rfl | rfl | rfl <;> norm_num [third_of_three, third_of_four, fourth_of_four])

/-- **C124, refuted.**  There are calls and a schedule that executes all their accesses after which the contact forces are not the sum of
what the calls are to add and have a resultant. -/
theorem interactions_add_up_refuted : ¬ ∀ (penalty : ℝ) (nodes faces : ℕ → Entity ℝ) (calls : List Call),
    (∀ c ∈ calls, (nodes c.node).type = .node) → (∀ c ∈ calls, (faces c.face).type = .triangle) →
    ∀ (n : ℕ), (∀ c ∈ calls, ∀ id ∈ c.ids nodes faces, 0 ≤ id ∧ id < (n : ℤ)) →
    ∀ (schedule : List ℕ) (field : Slot → ℝ), Completes penalty nodes faces calls schedule field → ∀ d : Fin 3,
      ∑ i ∈ Finset.range n, (computeContact penalty nodes faces calls schedule field).memory.force (3 * (i : ℤ) + d) = 0 := by
  intro h
  obtain ⟨schedule, hc, hd⟩ := interactions_race 1 demoNodes demoFaces (demoCall 0) (demoCall 1) rfl rfl rfl
    (by norm_num [demoCall]) (by norm_num [demoCall]) rfl (by decide +kernel) (fun _ => 0) 6 demo_ids
  have h0 := h 1 demoNodes demoFaces [demoCall 0, demoCall 1] (fun c _ => rfl) (fun c _ => rfl) 6 demo_ids schedule (fun _ => 0) hc 0
  rw [hd 0] at h0
  norm_num [Call.force, demoCall] at h0

/-- Not vacuous: with one thread the two calls have no resultant, and their forces are not zero. -/
example :
    let schedule := serialSchedule (fun i => (([demoCall 0, demoCall 1] : List Call)[i]?.map (Call.accesses 1 demoNodes demoFaces)).getD [])
      [1, 0]
    (∀ d : Fin 3, ∑ i ∈ Finset.range 6,
      (computeContact 1 demoNodes demoFaces [demoCall 0, demoCall 1] schedule (fun _ => 0)).memory.force (3 * (i : ℤ) + d) = 0) ∧
    (computeContact 1 demoNodes demoFaces [demoCall 0, demoCall 1] schedule (fun _ => 0)).memory.force 3 = 2 := by
  intro schedule
  obtain ⟨h1, h2, h3⟩ := interactions_serial_partial 1 demoNodes demoFaces [demoCall 0, demoCall 1] (fun c _ => rfl) (fun c _ => rfl)
    [1, 0] (by decide) (fun _ => 0)
  refine ⟨fun d => interactions_resultant_partial 1 demoNodes demoFaces [demoCall 0, demoCall 1] (fun c _ => rfl) (fun c _ => rfl) _ _ h1 h2
    6 demo_ids d, ?_⟩
  rw [h3, runOps_flatMap]
  simp only [List.map_cons, List.map_nil, Call.additions, if_pos (show (demoCall 0).gap < 0 by norm_num [demoCall]),
    if_pos (show (demoCall 1).gap < 0 by norm_num [demoCall])]
  norm_num [addVec, demoNodes, demoFaces, demoCall, Call.force, third_of_three, third_of_four, fourth_of_four]

theorem demo_area : LinearIndependent ℝ ![(demoFaces 0).coord2 - (demoFaces 0).coord1, (demoFaces 0).coord3 - (demoFaces 0).coord1] := by
  rw [LinearIndependent.pair_iff]
  intro a b h
  have h0 := congrFun h 0
  have h1 := congrFun h 1
  have h2 := congrFun h 2
  simp [demoFaces, third_of_three, third_of_four, fourth_of_four] at h0 h1 h2
  constructor <;> linarith

/-- Inside the triangle the force acts at the closest point; for a point beyond the edge opposite the first vertex it does not. -/
example : shares (demoFaces 0) (trianglePoint (demoFaces 0) ![1 / 2, 1 / 4, 1 / 4]) = ![1 / 2, 1 / 4, 1 / 4] ∧
    shares (demoFaces 0) (trianglePoint (demoFaces 0) ![-1, 1, 1]) ≠ ![-1, 1, 1] := by
  refine ⟨(force_acts_at_closest_iff _ rfl demo_area _ (by norm_num [third_of_three])).mpr ⟨by norm_num, by norm_num⟩, fun h => ?_⟩
  have := (force_acts_at_closest_iff _ rfl demo_area _ (by norm_num [third_of_three, third_of_four, fourth_of_four])).mp h
  norm_num at this

end NimbleSM.Contact
