import Verif.Contact.ParallelProps

/-!
# C94: the BVH contact manager, `src/contact/parallel/bvh_contact_manager.cc`

The collision detection (`bvh` library, patches distributed over ranks) is third party code and is specified: for every
pair of a contact node and a contact face with intersecting boxes it runs the narrow phase functor once, somewhere, and
delivers the face entry to the rank of the face and the node entry to the rank of the node, in any order.
-/

namespace NimbleSM.Contact

open NimbleSM.Tensor

variable {R : ℕ}

/-- `NarrowphaseResult` (bvh_contact_manager.h:61-68), with `gap` left out (it is not read after the narrow phase). -/
structure NarrowphaseResult where
  localIndex : ℤ
  node : Bool
  contactForce : Fin 3 → ℝ
  bary : Fin 3 → ℝ

/-- The entries pushed by the narrow phase for a pair that is inside (`NarrowphaseFunc`, bvh_contact_manager.cc:91-115 with
ArborX, 143-158 without): `isNode` selects the entry for the node or the one for the face. -/
noncomputable def narrowphase {ms : Fin R → Manager ℝ} (penalty : ℝ) (isNode : Bool) (p : PairData ms) : NarrowphaseResult :=
  let out := projection (pairNode p) (pairFace p) projection0 projectionTol
  { localIndex := if isNode then (pairNode p).localId else (pairFace p).localId
    node := isNode
    contactForce := getContactForce penalty out.gap out.normal
    bary := out.bary }

/-- The body of the enforcement loop of `ComputeParallelContactForce` (bvh_contact_manager.cc:291-308): the additions made for
one result.  `none` is an index out of bounds (the code prints a message and accesses the array anyway) or the exception of
`SetNodalContactForces`. -/
noncomputable def enforceResult (m : Manager ℝ) (res : NarrowphaseResult) : Option (List (ℤ × ℝ)) :=
  if res.node then do
    let node ← if 0 ≤ res.localIndex then m.nodes[res.localIndex.toNat]? else none
    let node ← setNodalContactForces res.contactForce none node
    pure (scatterOps { node with status := true })
  else do
    let face ← if 0 ≤ res.localIndex then m.faces[res.localIndex.toNat]? else none
    let face ← setNodalContactForces res.contactForce (some res.bary) face
    pure (scatterOps { face with status := true })

/-- A behaviour of the collision detection on displaced managers: the results delivered to each rank
(`for_each_result`, bvh_contact_manager.cc:283-285); the flag marks node entries. -/
structure BvhQuery (ms : Fin R → Manager ℝ) where
  results : Fin R → List (Bool × PairData ms)
  nodup : ∀ r, (results r).Nodup
  mem_node : ∀ r p, (true, p) ∈ results r ↔ p.1.1 = r ∧ InContact (pairNode p) (pairFace p)
  mem_face : ∀ r p, (false, p) ∈ results r ↔ p.2.1 = r ∧ InContact (pairNode p) (pairFace p)

/-- `BvhContactManager::ComputeParallelContactForce` (bvh_contact_manager.cc:249-313) on all ranks up to `VectorReduction`: `F r` is
a possible value of `contact_force` of rank `r`.  The loop over the results is sequential.  The narrow phase uses the penalty of
the rank it runs on; here it is that of the face's rank (in the code all ranks have the same). -/
def BvhForce (ms : Fin R → Manager ℝ) (disp : Fin R → ℕ → Fin 3 → ℝ) (F : Fin R → ℕ → Fin 3 → ℝ) : Prop :=
  ∃ q : BvhQuery (fun r => applyDisplacements (disp r) (ms r)), ∀ r, ∃ ops,
    ((q.results r).mapM fun x => enforceResult (applyDisplacements (disp r) (ms r))
      (narrowphase (ms x.2.2.1).penalty x.1 x.2)).map List.flatten = some ops ∧
    F r = getForces (applyDisplacements (disp r) (ms r)) (runOps (fun _ => 0) ops) (fun _ => 0)

theorem setCoordinates_localId (c : ℤ → ℝ) (e : Entity ℝ) : (setCoordinates c e).localId = e.localId := by
  unfold setCoordinates setBoundingBox; simp only []; split <;> rfl

/-- What `CreateContactNodesAndFaces` establishes (nimble_contact_manager.cc:1107-1203): local ids are array indices. -/
def LocalIds (m : Manager ℝ) : Prop :=
  (∀ i (h : i < m.nodes.length), m.nodes[i].localId = i) ∧ (∀ i (h : i < m.faces.length), m.faces[i].localId = i)

theorem localIds_displaced {m : Manager ℝ} (h : LocalIds m) (disp : ℕ → Fin 3 → ℝ) : LocalIds (applyDisplacements disp m) := by
  constructor
  · intro i hi
    obtain ⟨hi', e⟩ := getElem_of_eq_map (l' := (applyDisplacements disp m).nodes) (l := m.nodes)
      (g := setCoordinates (applyDisplacements disp m).coord) rfl i hi
    rw [e, setCoordinates_localId, h.1]
  · intro i hi
    obtain ⟨hi', e⟩ := getElem_of_eq_map (l' := (applyDisplacements disp m).faces) (l := m.faces)
      (g := setCoordinates (applyDisplacements disp m).coord) rfl i hi
    rw [e, setCoordinates_localId, h.2]

/-- The additions made for a delivered entry. -/
noncomputable def entryOps {ms : Fin R → Manager ℝ} (pen : Fin R → ℝ) (x : Bool × PairData ms) : List (ℤ × ℝ) :=
  let out := projection (pairNode x.2) (pairFace x.2) projection0 projectionTol
  let F := getContactForce (pen x.2.2.1) out.gap out.normal
  if x.1 then scatterOps { pairNode x.2 with force1 := fun d => - F d, status := true }
  else scatterOps { pairFace x.2 with
    force1 := fun d => out.bary 0 * F d
    force2 := fun d => out.bary 1 * F d
    force3 := fun d => out.bary 2 * F d
    status := true }

theorem mapM_eq_some {α β : Type*} (f : α → Option β) (g : α → β) (l : List α) (h : ∀ x ∈ l, f x = some (g x)) :
    l.mapM f = some (l.map g) := by
  induction l with
  | nil => rfl
  | cons x l ih =>
    rw [List.mapM_cons, h x List.mem_cons_self, ih fun y hy => h y (List.mem_cons_of_mem _ hy)]
    rfl

/-- Local ids lead each delivered entry back to its entity. -/
theorem enforceResult_eq {ms : Fin R → Manager ℝ} (q : BvhQuery ms) (hloc : ∀ r, LocalIds (ms r))
    (htn : ∀ r, ∀ e ∈ (ms r).nodes, e.type = .node) (htf : ∀ r, ∀ e ∈ (ms r).faces, e.type = .triangle) (pen : Fin R → ℝ)
    (r : Fin R) (x : Bool × PairData ms) (hx : x ∈ q.results r) :
    enforceResult (ms r) (narrowphase (pen x.2.2.1) x.1 x.2) = some (entryOps pen x) := by
  obtain ⟨b, ⟨⟨rn, i⟩, rf, j⟩⟩ := x
  cases b
  · have hr := ((q.mem_face r _).mp hx).1
    simp only at hr
    subst hr
    have hl : (pairFace (⟨⟨rn, i⟩, rf, j⟩ : PairData ms)).localId = ((j : ℕ) : ℤ) := (hloc rf).2 j j.isLt
    have ht : (pairFace (⟨⟨rn, i⟩, rf, j⟩ : PairData ms)).type = .triangle := htf rf _ (List.getElem_mem _)
    have hg : (ms rf).faces[(j : ℕ)]? = some (pairFace (⟨⟨rn, i⟩, rf, j⟩ : PairData ms)) := List.getElem?_eq_getElem j.isLt
    unfold enforceResult narrowphase entryOps
    simp only [Bool.false_eq_true, if_false, hl, Int.natCast_nonneg, if_true, Int.toNat_natCast, hg, Option.bind_eq_bind,
      Option.bind_some, setNodalContactForces, ht, Option.pure_def]
  · have hr := ((q.mem_node r _).mp hx).1
    simp only at hr
    subst hr
    have hl : (pairNode (⟨⟨rn, i⟩, rf, j⟩ : PairData ms)).localId = ((i : ℕ) : ℤ) := (hloc rn).1 i i.isLt
    have ht : (pairNode (⟨⟨rn, i⟩, rf, j⟩ : PairData ms)).type = .node := htn rn _ (List.getElem_mem _)
    have hg : (ms rn).nodes[(i : ℕ)]? = some (pairNode (⟨⟨rn, i⟩, rf, j⟩ : PairData ms)) := List.getElem?_eq_getElem i.isLt
    unfold enforceResult narrowphase entryOps
    simp only [if_true, hl, Int.natCast_nonneg, Int.toNat_natCast, hg, Option.bind_eq_bind,
      Option.bind_some, setNodalContactForces, ht, Option.pure_def]

theorem entry_pair {ms : Fin R → Manager ℝ} (pen : Fin R → ℝ) (x : Bool × PairData ms)
    (htn : (pairNode x.2).type = .node) (htf : (pairFace x.2).type = .triangle) (w : ℤ → ℝ) :
    let out := projection (pairNode x.2) (pairFace x.2) projection0 projectionTol
    let F := getContactForce (pen x.2.2.1) out.gap out.normal
    pair w (entryOps pen x) = if x.1 then - dot F (nodeVec w (pairNode x.2).node1)
      else dot F (facePoint w (pairFace x.2) out.bary) := by
  simp only []
  unfold entryOps
  simp only []
  split
  · rw [scatter_node w _ (by exact htn)]
    simp only [dot]
    ring
  · rw [scatter_tri w _ (by exact htf)]
    simp only [dot, facePoint]
    ring

/-- Virtual work of the BVH contact forces, summed over all ranks: the same as for the ArborX manager. -/
theorem bvh_work {ms : Fin R → Manager ℝ} {X disp : Fin R → ℕ → Fin 3 → ℝ} (hwf : ∀ r, WellFormed (ms r) (X r))
    (hloc : ∀ r, LocalIds (ms r))
    (F : Fin R → ℕ → Fin 3 → ℝ) (h : BvhForce ms disp F) (V : Fin R → ℕ → Fin 3 → ℝ) (T : Fin R → Finset ℕ)
    (hT : ∀ r, ∀ a ∈ (ms r).nodeIds, a ∈ T r) :
    ∑ r, ∑ a ∈ T r, dot (V r a) (F r a) = ∑ p : PairData (fun r => applyDisplacements (disp r) (ms r)),
      pairWork (ms p.2.1).penalty (pairNode p) (pairFace p) (V p.1.1 (meshNode (ms p.1.1) (pairNode p).node1))
        (faceVelocity (ms p.2.1) (V p.2.1) (pairFace p)) := by
  classical
  unfold BvhForce at h
  set ms' := fun r => applyDisplacements (disp r) (ms r) with hms
  obtain ⟨q, hq⟩ := h
  have htn : ∀ r, ∀ e ∈ (ms' r).nodes, e.type = .node ∧ 0 ≤ e.node1 ∧ e.node1 < (ms' r).nodeIds.length := by
    intro r e he
    obtain ⟨h1, h2, -⟩ := displaced_node (hwf r) e he
    exact ⟨h1, h2⟩
  have htf : ∀ r, ∀ e ∈ (ms' r).faces, e.type = .triangle ∧ (0 ≤ e.node1 ∧ e.node1 < (ms' r).nodeIds.length) ∧
      (0 ≤ e.node2 ∧ e.node2 < (ms' r).nodeIds.length) ∧ ∀ i, 0 ≤ e.fict i ∧ e.fict i < (ms' r).nodeIds.length := by
    intro r e he
    obtain ⟨h1, h2, h3, h4, -⟩ := displaced_face (hwf r) e he
    exact ⟨h1, h2, h3, h4⟩
  have hloc' : ∀ r, LocalIds (ms' r) := fun r => localIds_displaced (hloc r) (disp r)
  let pen : Fin R → ℝ := fun r => (ms r).penalty
  -- work of an entry
  let g : Bool × PairData ms' → ℝ := fun x =>
    let out := projection (pairNode x.2) (pairFace x.2) projection0 projectionTol
    let Fc := getContactForce (pen x.2.2.1) out.gap out.normal
    if x.1 then - dot Fc (V x.2.1.1 (meshNode (ms x.2.1.1) (pairNode x.2).node1))
      else dot Fc (faceVelocity (ms x.2.2.1) (V x.2.2.1) (pairFace x.2) out.bary)
  have hrank : ∀ r, ∑ a ∈ T r, dot (V r a) (F r a) = ((q.results r).map g).sum := by
    intro r
    obtain ⟨ops, ho, hF⟩ := hq r
    rw [mapM_eq_some _ (entryOps pen) _ (fun x hx =>
      enforceResult_eq q hloc' (fun r e he => (htn r e he).1) (fun r e he => (htf r e he).1) pen r x hx),
      Option.map_some, Option.some.injEq, ← List.flatMap_def] at ho
    have hvec : ∀ (id : ℤ) (v : Fin 3 → ℝ) (op : ℤ × ℝ), 0 ≤ id ∧ id < (ms' r).nodeIds.length → op ∈ addVec id v →
        op.1 ∈ Finset.Ico (0 : ℤ) (3 * ((ms' r).nodeIds.length : ℤ)) := by
      intro id v op hid hm
      simp only [addVec, List.mem_cons, List.not_mem_nil, or_false] at hm
      rw [Finset.mem_Ico]
      rcases hm with rfl | rfl | rfl <;> simp only <;> omega
    have hops : ∀ op ∈ ops, op.1 ∈ Finset.Ico (0 : ℤ) (3 * ((ms' r).nodeIds.length : ℤ)) := by
      intro op hop
      rw [← ho] at hop
      obtain ⟨x, hx, hop⟩ := List.mem_flatMap.mp hop
      obtain ⟨b, p⟩ := x
      cases b
      · have hr := ((q.mem_face r _).mp hx).1
        obtain ⟨ht, h1, h2, h3⟩ := htf r (pairFace p) (by
          obtain ⟨n, rf, j⟩ := p
          simp only at hr
          subst hr
          exact List.getElem_mem _)
        simp only [entryOps, Bool.false_eq_true, if_false, scatterOps, ht, if_true, List.mem_append, List.mem_flatMap,
          List.mem_cons, List.not_mem_nil, or_false] at hop
        rcases hop with hm | hm | ⟨id, hid, hm⟩
        · exact hvec _ _ _ h1 hm
        · exact hvec _ _ _ h2 hm
        · refine hvec id _ _ ?_ hm
          rcases hid with rfl | rfl | rfl | rfl
          all_goals exact h3 _
      · have hr := ((q.mem_node r _).mp hx).1
        obtain ⟨ht, h0⟩ := htn r (pairNode p) (by
          obtain ⟨⟨rn, i⟩, f⟩ := p
          simp only at hr
          subst hr
          exact List.getElem_mem _)
        simp only [entryOps, if_true, scatterOps, ht, reduceCtorEq, if_false, List.append_nil] at hop
        exact hvec _ _ _ h0 hop
    rw [hF, getForces_work (ms' r) (hwf r).nodup _ hops (V r) (T r) (hT r), ← ho, pair_flatMap]
    congr 1
    apply List.map_congr_left
    intro x hx
    rw [entry_pair pen x (htn _ _ (List.getElem_mem _)).1 (htf _ _ (List.getElem_mem _)).1]
    simp only [g]
    obtain ⟨b, p⟩ := x
    cases b
    · have hr := ((q.mem_face r _).mp hx).1
      simp only [Bool.false_eq_true, if_false]
      congr 1
      funext d
      rw [← hr]
      simp only [facePoint, faceVelocity, nodeVec_flat]
      rfl
    · have hr := ((q.mem_node r _).mp hx).1
      simp only [if_true]
      rw [← hr, nodeVec_flat]
      rfl
  rw [Finset.sum_congr rfl fun r _ => hrank r]
  -- split into node and face entries
  have hsplit : ∀ r, ((q.results r).map g).sum
      = (∑ p : PairData ms', if p.1.1 = r ∧ InContact (pairNode p) (pairFace p) then g (true, p) else 0)
        + ∑ p : PairData ms', if p.2.1 = r ∧ InContact (pairNode p) (pairFace p) then g (false, p) else 0 := by
    intro r
    rw [← List.sum_toFinset _ (q.nodup r)]
    have hset : (q.results r).toFinset = (Finset.univ : Finset (Bool × PairData ms')).filter (fun x =>
        if x.1 then x.2.1.1 = r ∧ InContact (pairNode x.2) (pairFace x.2)
        else x.2.2.1 = r ∧ InContact (pairNode x.2) (pairFace x.2)) := by
      ext ⟨b, p⟩
      rw [List.mem_toFinset, Finset.mem_filter]
      cases b
      · simp [q.mem_face]
      · simp [q.mem_node]
    rw [hset, Finset.sum_filter, Fintype.sum_prod_type, Fintype.sum_bool]
    refine congrArg₂ (· + ·) (Finset.sum_congr rfl fun p _ => ?_) (Finset.sum_congr rfl fun p _ => ?_)
    · by_cases h : p.1.1 = r ∧ InContact (pairNode p) (pairFace p)
      · rw [if_pos h, if_pos (by simpa using h)]
      · rw [if_neg h, if_neg (by simpa using h)]
    · by_cases h : p.2.1 = r ∧ InContact (pairNode p) (pairFace p)
      · rw [if_pos h, if_pos (by simpa using h)]
      · rw [if_neg h, if_neg (by simpa using h)]
  rw [Finset.sum_congr rfl fun r _ => hsplit r, Finset.sum_add_distrib, Finset.sum_comm,
    Finset.sum_comm (f := fun r (p : PairData ms') =>
      if p.2.1 = r ∧ InContact (pairNode p) (pairFace p) then g (false, p) else 0), ← Finset.sum_add_distrib]
  apply Finset.sum_congr rfl
  intro p _
  unfold pairWork
  by_cases hc : InContact (pairNode p) (pairFace p)
  · simp only [hc, and_true, if_true, Finset.sum_ite_eq, Finset.mem_univ, g, pen, Bool.false_eq_true, if_false]
    ring
  · simp [hc]

/-- **C94.**  The BVH manager and the ArborX manager compute the same forces on every rank. -/
theorem bvh_eq_arborx {ms : Fin R → Manager ℝ} {X disp : Fin R → ℕ → Fin 3 → ℝ} (hwf : ∀ r, WellFormed (ms r) (X r))
    (hloc : ∀ r, LocalIds (ms r)) (F F' : Fin R → ℕ → Fin 3 → ℝ) (h : BvhForce ms disp F) (h' : ParallelForce ms disp F') :
    F = F' := by
  funext r a d
  let V : Fin R → ℕ → Fin 3 → ℝ := fun r' b e => if r' = r ∧ b = a ∧ e = d then 1 else 0
  let T : Fin R → Finset ℕ := fun r' => insert a (ms r').nodeIds.toFinset
  have hT : ∀ r, ∀ b ∈ (ms r).nodeIds, b ∈ T r := fun r b hb => Finset.mem_insert_of_mem (List.mem_toFinset.mpr hb)
  have key : ∀ G : Fin R → ℕ → Fin 3 → ℝ, ∑ r', ∑ b ∈ T r', dot (V r' b) (G r' b) = G r a d := by
    intro G
    rw [Finset.sum_eq_single r]
    · rw [Finset.sum_eq_single a]
      · fin_cases d <;> simp [V, dot]
      · intro b _ hb
        simp [V, dot, hb]
      · intro hn; exact absurd (Finset.mem_insert_self _ _) hn
    · intro r' _ hr
      apply Finset.sum_eq_zero
      intro b _
      simp [V, dot, hr]
    · intro hn; exact absurd (Finset.mem_univ _) hn
  rw [← key F, ← key F', bvh_work hwf hloc F h V T hT, parallel_work hwf F' h' V T hT]

open Classical in
/-- The computation does not get stuck: no result has an index out of bounds. -/
theorem bvhForce_exists {ms : Fin R → Manager ℝ} {X : Fin R → ℕ → Fin 3 → ℝ} (disp : Fin R → ℕ → Fin 3 → ℝ)
    (hwf : ∀ r, WellFormed (ms r) (X r)) (hloc : ∀ r, LocalIds (ms r)) : ∃ F, BvhForce ms disp F := by
  let q : BvhQuery (fun r => applyDisplacements (disp r) (ms r)) :=
    { results := fun r => ((Finset.univ : Finset (Bool × PairData _)).filter (fun x =>
        if x.1 then x.2.1.1 = r ∧ InContact (pairNode x.2) (pairFace x.2)
        else x.2.2.1 = r ∧ InContact (pairNode x.2) (pairFace x.2))).toList
      nodup := fun r => Finset.nodup_toList _
      mem_node := fun r p => by simp
      mem_face := fun r p => by simp }
  refine ⟨fun r => getForces (applyDisplacements (disp r) (ms r))
    (runOps (fun _ => 0) ((q.results r).flatMap (entryOps fun r => (ms r).penalty))) (fun _ => 0), q,
    fun r => ⟨(q.results r).flatMap (entryOps fun r => (ms r).penalty), ?_, rfl⟩⟩
  rw [mapM_eq_some _ (entryOps fun r => (ms r).penalty) _ (fun x hx =>
    enforceResult_eq q (fun r => localIds_displaced (hloc r) (disp r))
      (fun r e he => (displaced_node (hwf r) e he).1) (fun r e he => (displaced_face (hwf r) e he).1)
      (fun r => (ms r).penalty) r x hx), Option.map_some, ← List.flatMap_def]

/-- The demo ranks have local ids. -/
theorem demoRanks_localIds (r : Fin 2) : LocalIds (demoRanks r) := by
  fin_cases r
  · refine ⟨fun i h => absurd h (Nat.not_lt_zero i), fun i h => ?_⟩
    have hi : i < 1 := h
    interval_cases i
    rfl
  · refine ⟨fun i h => ?_, fun i h => absurd h (Nat.not_lt_zero i)⟩
    have hi : i < 1 := h
    interval_cases i
    rfl

/-- The demo meets the hypotheses of `bvh_eq_arborx`. -/
example : ∃ F, BvhForce demoRanks (fun r a => demoDisp ((demoGids r).getD a 0)) F ∧
    ParallelForce demoRanks (fun r a => demoDisp ((demoGids r).getD a 0)) F := by
  obtain ⟨F, hF⟩ := bvhForce_exists (fun r a => demoDisp ((demoGids r).getD a 0)) demoRanks_wellFormed demoRanks_localIds
  obtain ⟨F', hF'⟩ := parallelForce_exists demoRanks (by intro r; fin_cases r <;> simp [demoRanks])
    (fun r a => demoDisp ((demoGids r).getD a 0))
  obtain rfl := bvh_eq_arborx demoRanks_wellFormed demoRanks_localIds F F' hF hF'
  exact ⟨F, hF, hF'⟩

end NimbleSM.Contact
