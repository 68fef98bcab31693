import Verif.Contact.Parallel

/-! # Lemmas: virtual work of the parallel contact manager -/

namespace NimbleSM.Contact

open NimbleSM.Tensor

variable {R : ℕ}

theorem travellingNode_coord1 (e : Entity ℝ) : (travellingNode e).coord1 = e.coord1 := by
  funext d
  unfold travellingNode mkEntity setBoundingBox
  simp only [reduceCtorEq, if_false]
  congr 1
  exact Fin.ext (Nat.mod_eq_of_lt d.isLt)

/-- Shipping the coordinates of the node and the geometry of the face is enough for the projection. -/
theorem remoteProjection_eq {ms : Fin R → Manager ℝ} (p : PairData ms) :
    remoteProjection p = projection (pairNode p) (pairFace p) projection0 projectionTol := by
  unfold remoteProjection projection
  rw [travellingNode_coord1]
  rfl

theorem mem_firsts {α : Type*} [DecidableEq α] (l : List α) : ∀ seen (p : α), p ∈ firsts seen l ↔ p ∈ l ∧ p ∉ seen := by
  induction l with
  | nil => intro seen p; simp [firsts]
  | cons a l ih =>
    intro seen p
    unfold firsts
    split
    · rename_i h
      rw [ih, List.mem_cons]
      constructor
      · rintro ⟨h1, h2⟩; exact ⟨Or.inr h1, h2⟩
      · rintro ⟨h1 | h1, h2⟩
        · subst h1; exact absurd h h2
        · exact ⟨h1, h2⟩
    · rename_i h
      rw [List.mem_cons, ih, List.mem_cons, List.mem_cons]
      constructor
      · rintro (h1 | ⟨h1, h2⟩)
        · subst h1; exact ⟨Or.inl rfl, h⟩
        · exact ⟨Or.inr h1, fun h3 => h2 (Or.inr h3)⟩
      · rintro ⟨h1 | h1, h2⟩
        · exact Or.inl h1
        · by_cases hpa : p = a
          · exact Or.inl hpa
          · exact Or.inr ⟨h1, fun h3 => h3.elim hpa h2⟩

theorem nodup_firsts {α : Type*} [DecidableEq α] (l : List α) : ∀ seen, (firsts seen l).Nodup := by
  induction l with
  | nil => intro seen; simp [firsts]
  | cons a l ih =>
    intro seen
    unfold firsts
    split
    · exact ih seen
    · rw [List.nodup_cons]
      refine ⟨fun h => ?_, ih _⟩
      exact ((mem_firsts l _ _).mp h).2 List.mem_cons_self

theorem nodup_winners {ms : Fin R → Manager ℝ} (calls : List (PairData ms)) : (winners calls).Nodup := nodup_firsts _ _

theorem mem_winners {ms : Fin R → Manager ℝ} (q : Query ms) (r : Fin R) (p : PairData ms) :
    p ∈ winners (q.calls r) ↔ p.2.1 = r ∧ InContact (pairNode p) (pairFace p) := by
  unfold winners
  rw [mem_firsts, List.mem_filter, q.calls_mem, remoteProjection_eq]
  unfold InContact
  simp [and_assoc]

theorem faceAccOps_eq {ms : Fin R → Manager ℝ} (p : PairData ms) (ht : (pairFace p).type = .triangle) :
    faceAccOps p = some (addVec (3 * (p.2.2 : ℕ)) (fun d => (remoteProjection p).bary 0 * remoteForce p d)
      ++ addVec (3 * (p.2.2 : ℕ) + 1) (fun d => (remoteProjection p).bary 1 * remoteForce p d)
      ++ addVec (3 * (p.2.2 : ℕ) + 2) (fun d => (remoteProjection p).bary 2 * remoteForce p d)) := by
  have h : (exportGeometry (pairFace p)).type = .triangle := ht
  simp [faceAccOps, setNodalContactForces, h]

theorem faceAccOps_isSome {ms : Fin R → Manager ℝ} (p : PairData ms) : ∃ l, faceAccOps p = some l := by
  unfold faceAccOps setNodalContactForces
  cases h : (exportGeometry (pairFace p)).type <;> simp

section sums
variable {K : Type*} [Field K]

theorem addVec_at (id id' : ℤ) (v : Fin 3 → K) (d : Fin 3) :
    ((addVec id v).map fun op => if op.1 = 3 * id' + (d : ℕ) then op.2 else 0).sum = if id = id' then v d else 0 := by
  by_cases h : id = id'
  · subst h
    fin_cases d <;> simp [addVec] <;> omega
  · have hd := d.isLt
    simp only [addVec, List.map_cons, List.map_nil, List.sum_cons, List.sum_nil, h, if_false]
    rw [if_neg (by omega), if_neg (by omega), if_neg (by omega)]
    simp

theorem sum_map_flatMap {α β : Type*} (l : List α) (g : α → List β) (f : β → K) :
    ((l.flatMap g).map f).sum = (l.map fun x => ((g x).map f).sum).sum := by
  induction l with
  | nil => rfl
  | cons x l ih => simp [List.flatMap_cons, ih]

theorem pair_flatMap {α : Type*} (w : ℤ → K) (l : List α) (g : α → List (ℤ × K)) :
    pair w (l.flatMap g) = (l.map fun x => pair w (g x)).sum := sum_map_flatMap l g _

theorem runOps_append (f : ℤ → K) (a b : List (ℤ × K)) : runOps (runOps f a) b = runOps f (a ++ b) := by
  simp [runOps, List.foldl_append]

end sums

/-- The accumulators of face `j` after the query, in any order of the atomic additions. -/
theorem acc_at {ms : Fin R → Manager ℝ} (l : List (PairData ms)) (ht : ∀ p ∈ l, (pairFace p).type = .triangle)
    (accOps accAll : List (ℤ × ℝ)) (h : (l.mapM faceAccOps).map List.flatten = some accAll) (hp : accOps.Perm accAll)
    (j : ℕ) (k d : Fin 3) :
    nodeVec (runOps (fun _ => 0) accOps) (3 * (j : ℤ) + (k : ℕ)) d
      = (l.map fun p => if (p.2.2 : ℕ) = j then (remoteProjection p).bary k * remoteForce p d else 0).sum := by
  rw [mapM_flatten _ faceAccOps_isSome] at h
  obtain rfl := Option.some.inj h
  rw [runOps_perm hp]
  unfold nodeVec
  rw [runOps_apply, zero_add, sum_map_flatMap]
  congr 1
  apply List.map_congr_left
  intro p hpm
  rw [faceAccOps_eq p (ht p hpm)]
  simp only [Option.getD_some, List.map_append, List.sum_append, addVec_at]
  have hk := k.isLt
  by_cases hj : (p.2.2 : ℕ) = j
  · simp only [hj, if_true]
    fin_cases k
    · simp
    · simp
    · simp
  · rw [if_neg hj, if_neg (by omega), if_neg (by omega), if_neg (by omega)]
    simp

theorem scatter_tri {K : Type*} [Field K] [LinearOrder K] (w : ℤ → K) (e : Entity K) (h : e.type = .triangle) :
    pair w (scatterOps e) = dot (nodeVec w e.node1) e.force1 + dot (nodeVec w e.node2) e.force2
      + dot (fun d => (nodeVec w (e.fict 0) d + nodeVec w (e.fict 1) d + nodeVec w (e.fict 2) d + nodeVec w (e.fict 3) d) / 4)
        e.force3 := by
  simp only [scatterOps, h, if_true, List.flatMap_cons, List.flatMap_nil, pair_append, pair_addVec, pair_nil, dot]
  ring

theorem scatter_node {K : Type*} [Field K] [LinearOrder K] (w : ℤ → K) (e : Entity K) (h : e.type = .node) :
    pair w (scatterOps e) = dot (nodeVec w e.node1) e.force1 := by
  simp [scatterOps, h, pair_addVec]

theorem list_sum_filter {α : Type*} (l : List α) (b : α → Bool) (f : α → ℝ) :
    ((l.filter b).map f).sum = (l.map fun x => if b x then f x else 0).sum := by
  induction l with
  | nil => rfl
  | cons x l ih =>
    rw [List.filter_cons]
    cases h : b x <;> simp [h, ih]

theorem list_sum_comm {α β : Type*} (l : List α) (l' : List β) (f : α → β → ℝ) :
    (l.map fun x => (l'.map fun y => f x y).sum).sum = (l'.map fun y => (l.map fun x => f x y).sum).sum := by
  induction l with
  | nil => simp
  | cons x l ih => simp [ih, List.sum_map_add]

/-- Work of the scattered faces of rank `r`. -/
theorem faces_pair {ms : Fin R → Manager ℝ} (q : Query ms) (r : Fin R) (ht : ∀ r, ∀ f ∈ (ms r).faces, f.type = .triangle)
    (accOps accAll : List (ℤ × ℝ)) (h : ((winners (q.calls r)).mapM faceAccOps).map List.flatten = some accAll)
    (hp : accOps.Perm accAll) (w : ℤ → ℝ) :
    pair w (((accumulatedFaces r (q.calls r) (runOps (fun _ => 0) accOps)).filter fun f => f.status).flatMap scatterOps)
      = ((winners (q.calls r)).map fun p => dot (remoteForce p) (facePoint w (pairFace p) (remoteProjection p).bary)).sum := by
  have htp : ∀ p : PairData ms, (pairFace p).type = .triangle := fun p => ht _ _ (List.getElem_mem _)
  rw [pair_flatMap, list_sum_filter]
  unfold accumulatedFaces
  rw [List.map_map]
  have hface : ∀ j : Fin (ms r).faces.length, ((fun f : Entity ℝ => if f.status = true then pair w (scatterOps f) else 0) ∘
      fun j : Fin (ms r).faces.length => ({ (ms r).faces[j] with
        force1 := nodeVec (runOps (fun _ => 0) accOps) (3 * (j : ℕ))
        force2 := nodeVec (runOps (fun _ => 0) accOps) (3 * (j : ℕ) + 1)
        force3 := nodeVec (runOps (fun _ => 0) accOps) (3 * (j : ℕ) + 2)
        status := (winners (q.calls r)).any fun p => decide (p.2 = ⟨r, j⟩) } : Entity ℝ)) j
      = ((winners (q.calls r)).map fun p => if p.2 = ⟨r, j⟩ then
          dot (remoteForce p) (facePoint w (pairFace p) (remoteProjection p).bary) else 0).sum := by
    intro j
    simp only [Function.comp]
    have hacc : ∀ k d : Fin 3, nodeVec (runOps (fun _ => 0) accOps) (3 * ((j : ℕ) : ℤ) + (k : ℕ)) d
        = ((winners (q.calls r)).map fun p => if p.2 = ⟨r, j⟩ then (remoteProjection p).bary k * remoteForce p d else 0).sum := by
      intro k d
      rw [acc_at _ (fun p _ => htp p) accOps accAll h hp j k d]
      congr 1
      apply List.map_congr_left
      intro p hpm
      have hr := ((mem_winners q r p).mp hpm).1
      obtain ⟨n, r', j'⟩ := p
      simp only at hr
      subst hr
      simp only [Sigma.mk.injEq, heq_eq_eq, true_and, Fin.ext_iff]
    have h0 := hacc 0
    have h1 := hacc 1
    have h2 := hacc 2
    simp only [Fin.val_zero, Nat.cast_zero, add_zero, Fin.val_one, Nat.cast_one, Fin.val_two, Nat.cast_ofNat] at h0 h1 h2
    by_cases hs : (winners (q.calls r)).any (fun p => decide (p.2 = ⟨r, j⟩)) = true
    · have htj : (ms r).faces[j].type = .triangle := ht r _ (List.getElem_mem j.isLt)
      rw [if_pos hs, scatter_tri w _ (by exact htj)]
      simp only [dot, h0, h1, h2, ← List.sum_map_mul_left, ← List.sum_map_add]
      congr 1
      apply List.map_congr_left
      intro p _
      split
      · rename_i he
        have hf : pairFace p = (ms r).faces[j] := by
          obtain ⟨n, f⟩ := p
          simp only at he
          subst he
          rfl
        rw [hf]
        simp only [facePoint]
        simp only [Fin.getElem_fin]
        ring
      · simp
    · rw [if_neg hs]
      symm
      apply List.sum_eq_zero
      intro x hx
      obtain ⟨p, hpm, rfl⟩ := List.mem_map.mp hx
      rw [if_neg]
      intro he
      apply hs
      rw [List.any_eq_true]
      exact ⟨p, hpm, by simpa using he⟩
  rw [List.map_congr_left fun j _ => hface j, list_sum_comm]
  congr 1
  apply List.map_congr_left
  intro p hpm
  have hr := ((mem_winners q r p).mp hpm).1
  obtain ⟨n, r', j'⟩ := p
  simp only at hr
  subst hr
  rw [← List.sum_toFinset _ (List.nodup_finRange _)]
  rw [Finset.sum_eq_single j']
  · simp
  · intro b _ hb
    rw [if_neg]
    intro he
    simp only [Sigma.mk.injEq, heq_eq_eq, true_and] at he
    exact hb he.symm
  · intro hn
    exact absurd (by simp) hn

/-- Work of the node loop of rank `r`. -/
theorem nodes_pair {ms : Fin R → Manager ℝ} (q : Query ms) (r : Fin R) (ht : ∀ r, ∀ f ∈ (ms r).nodes, f.type = .node)
    (w : ℤ → ℝ) :
    pair w ((List.finRange (ms r).nodes.length).flatMap fun i => (q.results ⟨r, i⟩).flatMap nodeResultOps)
      = ∑ i : Fin (ms r).nodes.length, ((q.results ⟨r, i⟩).map fun p => if (remoteProjection p).inside then
          - dot (remoteForce p) (nodeVec w (pairNode p).node1) else 0).sum := by
  rw [pair_flatMap, ← List.sum_toFinset _ (List.nodup_finRange _)]
  rw [show (List.finRange (ms r).nodes.length).toFinset = Finset.univ by ext; simp]
  apply Finset.sum_congr rfl
  intro i _
  rw [pair_flatMap]
  congr 1
  apply List.map_congr_left
  intro p _
  unfold nodeResultOps
  split
  · have htn : (pairNode p).type = .node := ht _ _ (List.getElem_mem _)
    rw [scatter_node w _ (by exact htn)]
    simp only [dot]
    ring
  · rfl

end NimbleSM.Contact
