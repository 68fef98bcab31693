import Verif.Contact.ForceLemmas

/-!
# C09 and C81: contact forces are self-equilibrated

First for any sequence of `EnforceContact` calls (any interleaving of their atomic additions), then for the whole
force computation of the serial contact manager.
-/

namespace NimbleSM.Contact

open NimbleSM.Tensor

section api
variable {K : Type*} [Field K] [LinearOrder K]

/-- One call of `EnforceContact`. -/
structure Interaction (K : Type*) where
  node : Entity K
  face : Entity K
  gap : K
  normal : Fin 3 → K
  bary : Fin 3 → K

/-- The additions of a list of calls, call by call. -/
def enforceAll (penalty : K) (l : List (Interaction K)) : List (ℤ × K) :=
  l.flatMap fun c => (enforceOps penalty c.node c.face c.gap c.normal c.bary).getD []

/-- The submodel nodes of a call: the contact node and the five distinct roles of face nodes. -/
def Interaction.ids (c : Interaction K) : List ℤ :=
  [c.node.node1, c.face.node1, c.face.node2, c.face.fict 0, c.face.fict 1, c.face.fict 2, c.face.fict 3]

theorem enforceAll_pair (penalty : K) (l : List (Interaction K)) (hl : ∀ c ∈ l, c.face.type = .triangle) (w : ℤ → K) :
    pair w (enforceAll penalty l) = (l.map fun c =>
      dot (getContactForce penalty c.gap c.normal) (facePoint w c.face c.bary)
        - dot (getContactForce penalty c.gap c.normal) (nodeVec w c.node.node1)).sum := by
  induction l with
  | nil => rfl
  | cons c l ih =>
    unfold enforceAll at ih ⊢
    rw [List.flatMap_cons, pair_append, ih fun c hc => hl c (List.mem_cons_of_mem _ hc), List.map_cons, List.sum_cons]
    congr 1
    obtain ⟨ops, ho⟩ := enforceOps_isSome penalty c.node c.face c.gap c.normal c.bary
    rw [ho]
    exact enforce_pair penalty c.node c.face c.gap c.normal c.bary (hl c List.mem_cons_self) ops ho w

theorem enforceAll_support (penalty : K) (l : List (Interaction K)) (hl : ∀ c ∈ l, c.face.type = .triangle)
    (op : ℤ × K) (ho : op ∈ enforceAll penalty l) :
    ∃ c ∈ l, ∃ id ∈ c.ids, ∃ d : Fin 3, op.1 = 3 * id + (d : ℕ) := by
  obtain ⟨c, hc, hm⟩ := List.mem_flatMap.mp ho
  obtain ⟨ops, he⟩ := enforceOps_isSome penalty c.node c.face c.gap c.normal c.bary
  rw [he] at hm
  obtain ⟨id, d, hid, hd, ha⟩ := enforceOps_support penalty c.node c.face c.gap c.normal c.bary (hl c hc) ops he op hm
  refine ⟨c, hc, id, ?_, ?_⟩
  · unfold Interaction.ids
    rcases hid with rfl | rfl | rfl | ⟨i, rfl⟩
    · simp
    · simp
    · simp
    · fin_cases i <;> simp
  · rcases hd with rfl | rfl | rfl
    · exact ⟨0, by simpa using ha⟩
    · exact ⟨1, by simpa using ha⟩
    · exact ⟨2, by simpa using ha⟩

/-- **C09.**  Any number of `EnforceContact` calls, whose atomic additions are executed in any order, change the total
of the force vector by zero in each direction, if the facet coordinates of each call sum to one.  `n` is any number of
submodel nodes such that all calls refer to nodes `0..n-1`. -/
theorem enforce_resultant [CharZero K] (penalty : K) (l : List (Interaction K)) (n : ℕ)
    (htri : ∀ c ∈ l, c.face.type = .triangle)
    (hsum : ∀ c ∈ l, c.bary 0 + c.bary 1 + c.bary 2 = 1)
    (hids : ∀ c ∈ l, ∀ id ∈ c.ids, 0 ≤ id ∧ id < n)
    (f : ℤ → K) (ops : List (ℤ × K)) (hops : ops.Perm (enforceAll penalty l)) (d : Fin 3) :
    ∑ i ∈ Finset.range n, runOps f ops (3 * (i : ℤ) + d) = ∑ i ∈ Finset.range n, f (3 * (i : ℤ) + d) := by
  have hmem : ∀ op ∈ ops, op.1 ∈ Finset.Ico (0 : ℤ) (3 * (n : ℤ)) := by
    intro op ho
    obtain ⟨c, hc, id, hid, e, he⟩ := enforceAll_support penalty l htri op (hops.mem_iff.mp ho)
    have := hids c hc id hid
    have := e.isLt
    rw [Finset.mem_Ico, he]
    omega
  let w : ℤ → K := fun a => if a % 3 = (d : ℕ) then 1 else 0
  have hw := sum_runOps _ w ops f hmem
  have hwv : ∀ id : ℤ, ∀ e : Fin 3, w (3 * id + (e : ℕ)) = if e = d then 1 else 0 := by
    intro id e
    have h1 := e.isLt
    have h2 := d.isLt
    have : ((3 * id + (e : ℕ)) % 3 = (d : ℕ)) ↔ e = d := by rw [Fin.ext_iff]; omega
    simp only [w, this]
  have hp : pair w ops = 0 := by
    rw [pair_perm hops, enforceAll_pair penalty l htri w]
    apply List.sum_eq_zero
    intro x hx
    obtain ⟨c, hc, rfl⟩ := List.mem_map.mp hx
    have hs := hsum c hc
    have hfp : facePoint w c.face c.bary = nodeVec w c.node.node1 := by
      funext e
      unfold facePoint nodeVec
      simp only [hwv]
      by_cases h : e = d
      · simp only [h, if_true]
        have : (1 + 1 + 1 + 1 : K) / 4 = 1 := by norm_num
        rw [this]
        linear_combination hs
      · simp [h]
    rw [hfp, sub_self]
  rw [hp, add_zero, sum_flat, sum_flat] at hw
  have hred : ∀ g : ℤ → K, (∑ i ∈ Finset.range n, (w (3 * (i : ℤ)) * g (3 * (i : ℤ))
      + w (3 * (i : ℤ) + 1) * g (3 * (i : ℤ) + 1) + w (3 * (i : ℤ) + 2) * g (3 * (i : ℤ) + 2)))
      = ∑ i ∈ Finset.range n, g (3 * (i : ℤ) + d) := by
    intro g
    apply Finset.sum_congr rfl
    intro i _
    have w0 := hwv i 0
    have w1 := hwv i 1
    have w2 := hwv i 2
    simp only [Fin.val_zero, Nat.cast_zero, add_zero] at w0
    simp only [Fin.val_one, Nat.cast_one] at w1
    simp only [Fin.val_two, Nat.cast_ofNat] at w2
    rw [w0, w1, w2]
    fin_cases d <;> simp
  rw [hred, hred] at hw
  exact hw

/-- **C09.**  Entries of nodes that do not take part in any call are unchanged, in any order of execution. -/
theorem enforce_untouched (penalty : K) (l : List (Interaction K)) (htri : ∀ c ∈ l, c.face.type = .triangle)
    (f : ℤ → K) (ops : List (ℤ × K)) (hops : ops.Perm (enforceAll penalty l)) (id : ℤ)
    (hid : ∀ c ∈ l, id ∉ c.ids) (d : Fin 3) : runOps f ops (3 * id + d) = f (3 * id + d) := by
  rw [runOps_apply]
  have : (ops.map fun op => if op.1 = 3 * id + (d : ℕ) then op.2 else 0).sum = 0 := by
    apply List.sum_eq_zero
    intro x hx
    obtain ⟨op, ho, rfl⟩ := List.mem_map.mp hx
    obtain ⟨c, hc, id', hid', e, he⟩ := enforceAll_support penalty l htri op (hops.mem_iff.mp ho)
    rw [if_neg]
    intro h
    apply hid c hc
    have h1 := e.isLt
    have h2 := d.isLt
    have : id = id' := by omega
    rw [this]; exact hid'
  rw [this, add_zero]

/-- **C09.**  The order of the calls, and any interleaving of their additions, is irrelevant. -/
theorem enforce_order_irrelevant (penalty : K) (l l' : List (Interaction K)) (hl : l.Perm l')
    (f : ℤ → K) (ops ops' : List (ℤ × K)) (h : ops.Perm (enforceAll penalty l)) (h' : ops'.Perm (enforceAll penalty l')) :
    runOps f ops = runOps f ops' := by
  apply runOps_perm
  exact h.trans ((hl.flatMap_right _).trans h'.symm)

/-- **C09.**  What one call adds: minus the contact force to the node, and shares `N₀`, `N₁` and a quarter of `N₂`
of it to the nodes of the face (at the distinct nodes of a quadrilateral face whose two first nodes are those of the
triangle). -/
theorem enforce_single (penalty : K) (node face : Entity K) (gap : K) (normal N : Fin 3 → K) (hf : face.type = .triangle)
    (ops : List (ℤ × K)) (h : enforceOps penalty node face gap normal N = some ops)
    (h1 : face.fict 0 = face.node1) (h2 : face.fict 1 = face.node2)
    (hn : [node.node1, face.node1, face.node2, face.fict 2, face.fict 3].Nodup) (f : ℤ → K) (d : Fin 3) :
    runOps f ops (3 * node.node1 + d) = f (3 * node.node1 + d) - penalty * gap * normal d ∧
    runOps f ops (3 * face.node1 + d) = f (3 * face.node1 + d) + (N 0 + N 2 / 4) * (penalty * gap * normal d) ∧
    runOps f ops (3 * face.node2 + d) = f (3 * face.node2 + d) + (N 1 + N 2 / 4) * (penalty * gap * normal d) ∧
    runOps f ops (3 * face.fict 2 + d) = f (3 * face.fict 2 + d) + N 2 / 4 * (penalty * gap * normal d) ∧
    runOps f ops (3 * face.fict 3 + d) = f (3 * face.fict 3 + d) + N 2 / 4 * (penalty * gap * normal d) := by
  have key : ∀ id : ℤ, runOps f ops (3 * id + d) = f (3 * id + d)
      + ((if face.node1 = id then (N 0 + N 2 / 4) * (penalty * gap * normal d) else 0)
      + (if face.node2 = id then (N 1 + N 2 / 4) * (penalty * gap * normal d) else 0)
      + (if face.fict 2 = id then N 2 / 4 * (penalty * gap * normal d) else 0)
      + (if face.fict 3 = id then N 2 / 4 * (penalty * gap * normal d) else 0)
      - (if node.node1 = id then penalty * gap * normal d else 0)) := by
    intro id
    rw [runOps_apply]
    congr 1
    have hsum : (ops.map fun op => if op.1 = 3 * id + (d : ℕ) then op.2 else 0).sum
        = pair (fun a => if a = 3 * id + (d : ℕ) then 1 else 0) ops := by
      unfold pair
      congr 1
      apply List.map_congr_left
      intro op _
      split <;> simp_all
    rw [hsum, enforce_pair penalty node face gap normal N hf ops h]
    have hv : ∀ j : ℤ, ∀ e : Fin 3, nodeVec (K := K) (fun a => if a = 3 * id + (d : ℕ) then 1 else 0) j e
        = if j = id ∧ e = d then 1 else 0 := by
      intro j e
      unfold nodeVec
      have h1 := e.isLt
      have h2 := d.isLt
      have : (3 * j + (e : ℕ) = 3 * id + (d : ℕ)) ↔ (j = id ∧ e = d) := by rw [Fin.ext_iff]; omega
      simp only [this]
    simp only [dot, facePoint, hv, h1, h2, getContactForce]
    fin_cases d
    all_goals
      simp only [Fin.isValue, Fin.zero_eta, Fin.mk_one, Fin.reduceFinMk, and_true, Fin.reduceEq, and_false, if_false]
      split_ifs <;> ring
  simp only [List.nodup_cons, List.mem_cons, List.not_mem_nil, or_false, not_or, not_false_eq_true, List.nodup_nil,
    and_true] at hn
  obtain ⟨⟨a1, a2, a3, a4⟩, ⟨b1, b2, b3⟩, ⟨c1, c2⟩, e1⟩ := hn
  refine ⟨?_, ?_, ?_, ?_, ?_⟩
  · rw [key]
    simp only [Ne.symm a1, Ne.symm a2, Ne.symm a3, Ne.symm a4, if_true, if_false]
    ring
  · rw [key]
    simp only [a1, Ne.symm b1, Ne.symm b2, Ne.symm b3, if_true, if_false]
    ring
  · rw [key]
    simp only [a2, b1, Ne.symm c1, Ne.symm c2, if_true, if_false]
    ring
  · rw [key]
    simp only [a3, b2, c1, Ne.symm e1, if_true, if_false]
    ring
  · rw [key]
    simp only [a4, b3, c2, e1, if_true, if_false]
    ring

end api

/-! ## The serial manager -/

theorem callbackOps_isSome (penalty : ℝ) (node face : Entity ℝ) : ∃ ops, callbackOps penalty node face = some ops := by
  unfold callbackOps
  simp only []
  split
  · exact enforceOps_isSome _ _ _ _ _ _
  · exact ⟨[], rfl⟩

theorem mapM_flatten {α β : Type*} (f : α → Option (List β)) (h : ∀ x, ∃ y, f x = some y) (l : List α) :
    (l.mapM f).map List.flatten = some (l.flatMap fun x => (f x).getD []) := by
  have : l.mapM f = some (l.map fun x => (f x).getD []) := by
    induction l with
    | nil => rfl
    | cons x l ih =>
      obtain ⟨y, hy⟩ := h x
      rw [List.mapM_cons, ih, hy]
      simp [hy]
  rw [this, Option.map_some, List.flatMap_def]

theorem allOps_eq (m : Manager ℝ) : allOps m = some ((queryPairs m).flatMap fun p => (callbackOps m.penalty p.1 p.2).getD []) := by
  unfold allOps
  exact mapM_flatten (fun p : Entity ℝ × Entity ℝ => callbackOps m.penalty p.1 p.2)
    (fun p => callbackOps_isSome m.penalty p.1 p.2) (queryPairs m)

/-- The force computation is total and its result does not depend on the schedule. -/
theorem contactForce_exists (m : Manager ℝ) (hp : 0 < m.penalty) (disp : ℕ → Fin 3 → ℝ) : ∃ F, ContactForce m disp F :=
  ⟨_, hp, _, _, allOps_eq _, List.Perm.refl _, rfl⟩

/-- **C09.**  Whatever the interleaving of the concurrent callbacks, `ComputeContactForce` returns the same forces. -/
theorem contactForce_deterministic (m : Manager ℝ) (disp : ℕ → Fin 3 → ℝ) (F F' : ℕ → Fin 3 → ℝ)
    (h : ContactForce m disp F) (h' : ContactForce m disp F') : F = F' := by
  obtain ⟨-, ops, all, ha, hp, rfl⟩ := h
  obtain ⟨-, ops', all', ha', hp', rfl⟩ := h'
  rw [ha] at ha'
  obtain rfl := Option.some.inj ha'
  rw [runOps_perm (hp.trans hp'.symm)]

/-- Specification: after the displacements are applied, node entity `n` touches face entity `f`: their boxes intersect
and the node is behind the face. -/
def InContact (n f : Entity ℝ) : Prop :=
  boxesIntersect n f ∧ (projection n f projection0 projectionTol).inside = true

open Classical in
/-- The touching pairs of a manager (displacements applied). -/
noncomputable def touching (m : Manager ℝ) : List (Entity ℝ × Entity ℝ) :=
  (m.nodes.flatMap fun n => m.faces.map fun f => (n, f)).filter fun p => decide (InContact p.1 p.2)

theorem mem_touching (m : Manager ℝ) (n f : Entity ℝ) :
    (n, f) ∈ touching m ↔ n ∈ m.nodes ∧ f ∈ m.faces ∧ InContact n f := by
  simp [touching, List.mem_filter, and_assoc]

theorem queryPairs_flatMap {β : Type*} (m : Manager ℝ) (g : Entity ℝ × Entity ℝ → List β) :
    ((queryPairs m).flatMap fun p => if (projection p.1 p.2 projection0 projectionTol).inside then g p else [])
      = (touching m).flatMap g := by
  unfold queryPairs touching InContact
  induction (m.nodes.flatMap fun n => m.faces.map fun f => (n, f)) with
  | nil => rfl
  | cons p l ih =>
    rw [List.filter_cons, List.filter_cons]
    by_cases hb : boxesIntersect p.1 p.2
    · by_cases hi : (projection p.1 p.2 projection0 projectionTol).inside = true
      · simp [hb, hi, ih]
      · simp [hb, hi, ih]
    · simp [hb, ih]

/-- The interaction enforced for a touching pair. -/
noncomputable def pairInteraction (p : Entity ℝ × Entity ℝ) : Interaction ℝ :=
  let r := projection p.1 p.2 projection0 projectionTol
  { node := p.1, face := p.2, gap := r.gap, normal := r.normal, bary := r.bary }

theorem allOps_touching (m : Manager ℝ) : allOps m = some (enforceAll m.penalty ((touching m).map pairInteraction)) := by
  rw [allOps_eq]
  unfold enforceAll
  rw [List.flatMap_map, ← queryPairs_flatMap]
  congr 2
  funext p
  unfold callbackOps
  simp only []
  split
  · rfl
  · rfl

section wf
variable {m : Manager ℝ} {X disp : ℕ → Fin 3 → ℝ}

/-- Current position of a mesh node. -/
def pos (X disp : ℕ → Fin 3 → ℝ) (a : ℕ) : Fin 3 → ℝ := fun d => X a d + disp a d

/-- Node entities of the displaced manager: at the position of their mesh node. -/
theorem displaced_node (hwf : WellFormed m X) (e : Entity ℝ) (he : e ∈ (applyDisplacements disp m).nodes) :
    e.type = .node ∧ (0 ≤ e.node1 ∧ e.node1 < m.nodeIds.length) ∧ e.coord1 = pos X disp (meshNode m e.node1) := by
  obtain ⟨e0, h0, rfl⟩ := List.mem_map.mp he
  obtain ⟨ht, hr⟩ := hwf.nodeType e0 h0
  rw [setCoordinates_type, setCoordinates_node1, setCoordinates_coord1]
  refine ⟨ht, hr, ?_⟩
  obtain ⟨i, hi⟩ := Int.eq_ofNat_of_zero_le hr.1
  rw [hi] at hr ⊢
  have hlt : i < m.nodeIds.length := by omega
  funext d
  rw [meshNode_nat m i hlt]
  show (applyDisplacements disp m).coord (3 * (i : ℤ) + (d : ℕ)) = _
  rw [applyDisplacements_coord disp m i hlt d, hwf.coords i hlt d]
  rfl

theorem displaced_vec (hwf : WellFormed m X) (id : ℤ) (hr : 0 ≤ id ∧ id < m.nodeIds.length) :
    nodeVec (applyDisplacements disp m).coord id = pos X disp (meshNode m id) := by
  obtain ⟨i, rfl⟩ := Int.eq_ofNat_of_zero_le hr.1
  have hlt : i < m.nodeIds.length := by omega
  funext d
  rw [meshNode_nat m i hlt]
  show (applyDisplacements disp m).coord (3 * (i : ℤ) + (d : ℕ)) = _
  rw [applyDisplacements_coord disp m i hlt d, hwf.coords i hlt d]
  rfl

/-- Face entities of the displaced manager: first two vertices at their mesh nodes, the third at the average of the four
nodes of the quadrilateral. -/
theorem displaced_face (hwf : WellFormed m X) (e : Entity ℝ) (he : e ∈ (applyDisplacements disp m).faces) :
    e.type = .triangle ∧ (0 ≤ e.node1 ∧ e.node1 < m.nodeIds.length) ∧ (0 ≤ e.node2 ∧ e.node2 < m.nodeIds.length) ∧
    (∀ i, 0 ≤ e.fict i ∧ e.fict i < m.nodeIds.length) ∧
    e.coord1 = pos X disp (meshNode m e.node1) ∧ e.coord2 = pos X disp (meshNode m e.node2) ∧
    e.coord3 = fun d => (pos X disp (meshNode m (e.fict 0)) d + pos X disp (meshNode m (e.fict 1)) d
      + pos X disp (meshNode m (e.fict 2)) d + pos X disp (meshNode m (e.fict 3)) d) / 4 := by
  obtain ⟨e0, h0, rfl⟩ := List.mem_map.mp he
  obtain ⟨ht, h1, h2, hf⟩ := hwf.faceType e0 h0
  rw [setCoordinates_type, setCoordinates_node1, setCoordinates_node2, setCoordinates_fict, setCoordinates_coord1,
    setCoordinates_coord2 _ _ ht, setCoordinates_coord3 _ _ ht]
  refine ⟨ht, h1, h2, hf, ?_, ?_, ?_⟩
  · exact displaced_vec hwf _ h1
  · exact displaced_vec hwf _ h2
  · funext d
    have := fun i => congrFun (displaced_vec (disp := disp) hwf (e0.fict i) (hf i)) d
    have h0 := this 0
    have h1 := this 1
    have h2 := this 2
    have h3 := this 3
    unfold applyDisplacements at h0 h1 h2 h3
    simp only [] at h0 h1 h2 h3
    rw [h0, h1, h2, h3]

/-- Velocity of the point of a face with barycentric coordinates `N`, when the mesh nodes have velocities `V`. -/
noncomputable def faceVelocity (m : Manager ℝ) (V : ℕ → Fin 3 → ℝ) (f : Entity ℝ) (N : Fin 3 → ℝ) : Fin 3 → ℝ := fun d =>
  N 0 * V (meshNode m f.node1) d + N 1 * V (meshNode m f.node2) d +
    N 2 * ((V (meshNode m (f.fict 0)) d + V (meshNode m (f.fict 1)) d + V (meshNode m (f.fict 2)) d
      + V (meshNode m (f.fict 3)) d) / 4)

/-- Virtual work of the contact forces: over all touching pairs, `penalty * gap * normal · (face velocity - node velocity)`. -/
theorem contact_work (hwf : WellFormed m X) (F : ℕ → Fin 3 → ℝ) (h : ContactForce m disp F)
    (V : ℕ → Fin 3 → ℝ) (T : Finset ℕ) (hT : ∀ a ∈ m.nodeIds, a ∈ T) :
    ∑ a ∈ T, dot (V a) (F a) = ((touching (applyDisplacements disp m)).map fun p =>
      let r := projection p.1 p.2 projection0 projectionTol
      dot (getContactForce m.penalty r.gap r.normal) (faceVelocity m V p.2 r.bary)
        - dot (getContactForce m.penalty r.gap r.normal) (V (meshNode m p.1.node1))).sum := by
  obtain ⟨-, ops, all, ha, hp, rfl⟩ := h
  rw [allOps_touching] at ha
  obtain rfl := Option.some.inj ha
  set l := (touching (applyDisplacements disp m)).map pairInteraction with hl
  have hmemp : ∀ c ∈ l, ∃ p, c = pairInteraction p ∧ p.1 ∈ (applyDisplacements disp m).nodes
      ∧ p.2 ∈ (applyDisplacements disp m).faces := by
    intro c hc
    obtain ⟨p, hpm, rfl⟩ := List.mem_map.mp hc
    exact ⟨p, rfl, ((mem_touching _ _ _).mp hpm).1, ((mem_touching _ _ _).mp hpm).2.1⟩
  have htri : ∀ c ∈ l, c.face.type = .triangle := by
    intro c hc
    obtain ⟨p, rfl, -, hf⟩ := hmemp c hc
    exact (displaced_face hwf _ hf).1
  have hops : ∀ op ∈ ops, op.1 ∈ Finset.Ico (0 : ℤ) (3 * (m.nodeIds.length : ℤ)) := by
    intro op ho
    obtain ⟨c, hc, id, hid, e, he⟩ := enforceAll_support _ l htri op (hp.mem_iff.mp ho)
    obtain ⟨p, rfl, hn, hf⟩ := hmemp c hc
    obtain ⟨-, f1, f2, f3, -⟩ := displaced_face hwf _ hf
    obtain ⟨-, n1, -⟩ := displaced_node hwf _ hn
    have hr : 0 ≤ id ∧ id < m.nodeIds.length := by
      simp only [Interaction.ids, pairInteraction, List.mem_cons, List.not_mem_nil, or_false] at hid
      rcases hid with rfl | rfl | rfl | rfl | rfl | rfl | rfl
      · exact n1
      · exact f1
      · exact f2
      all_goals exact f3 _
    have := e.isLt
    rw [Finset.mem_Ico, he]
    omega
  have hw := getForces_work (applyDisplacements disp m) hwf.nodup ops hops V T hT
  rw [hw, pair_perm hp, enforceAll_pair _ l htri, hl, List.map_map]
  congr 1
  apply List.map_congr_left
  intro p hpm
  simp only [Function.comp, pairInteraction, nodeVec_flat]
  have hfl : ∀ N, facePoint (flat (applyDisplacements disp m) V) p.2 N = faceVelocity m V p.2 N := by
    intro N
    funext d
    simp only [facePoint, faceVelocity, nodeVec_flat]
    rfl
  rw [hfl]
  rfl

theorem touching_outputs {m' : Manager ℝ} {p : Entity ℝ × Entity ℝ} (h : p ∈ touching m') :
    let r := projection p.1 p.2 projection0 projectionTol
    IsUnitNormal p.2.coord1 p.2.coord2 p.2.coord3 r.normal ∧
      IsDecomposition p.1.coord1 p.2.coord1 p.2.coord2 p.2.coord3 r.normal r.bary r.gap ∧
      InRange (1 / 10 ^ 8) r.bary ∧ -p.2.charLen < r.gap ∧ r.gap < 0 :=
  inside_outputs _ _ _ _ ((mem_touching m' p.1 p.2).mp h).2.2.2

/-- **C09.**  The contact forces returned by the serial contact manager sum to zero in every direction. -/
theorem contact_resultant_zero (hwf : WellFormed m X) (F : ℕ → Fin 3 → ℝ) (h : ContactForce m disp F)
    (T : Finset ℕ) (hT : ∀ a ∈ m.nodeIds, a ∈ T) (d : Fin 3) : ∑ a ∈ T, F a d = 0 := by
  have hw := contact_work hwf F h (fun _ e => if e = d then 1 else 0) T hT
  have hl : ∀ a ∈ T, dot (fun e => if e = d then (1 : ℝ) else 0) (F a) = F a d := by
    intro a _
    fin_cases d <;> simp [dot]
  rw [Finset.sum_congr rfl hl] at hw
  rw [hw]
  apply List.sum_eq_zero
  intro x hx
  obtain ⟨p, hp, rfl⟩ := List.mem_map.mp hx
  obtain ⟨-, hdec, -⟩ := touching_outputs hp
  have hs := hdec.sum
  simp only []
  have : faceVelocity m (fun _ e => if e = d then (1 : ℝ) else 0) p.2
      (projection p.1 p.2 projection0 projectionTol).bary = fun e => if e = d then (1 : ℝ) else 0 := by
    funext e
    unfold faceVelocity
    by_cases he : e = d
    · simp only [he, if_true]; linear_combination hs
    · simp [he]
  rw [this, sub_self]

/-- **C81.**  The contact forces have zero total moment about every point `q`, at the current node positions. -/
theorem contact_moment_zero (hwf : WellFormed m X) (F : ℕ → Fin 3 → ℝ) (h : ContactForce m disp F)
    (T : Finset ℕ) (hT : ∀ a ∈ m.nodeIds, a ∈ T) (q : Fin 3 → ℝ) :
    ∑ a ∈ T, crossProduct (fun d => X a d + disp a d - q d) (F a) = 0 := by
  have key : ∀ ω : Fin 3 → ℝ, ∑ a ∈ T, dot ω (crossProduct (fun d => X a d + disp a d - q d) (F a)) = 0 := by
    intro ω
    have hw := contact_work hwf F h (fun a => crossProduct ω (fun d => X a d + disp a d - q d)) T hT
    have hl : ∀ a ∈ T, dot (crossProduct ω (fun d => X a d + disp a d - q d)) (F a)
        = dot ω (crossProduct (fun d => X a d + disp a d - q d) (F a)) := by
      intro a _
      simp only [dot, crossProduct, Matrix.cons_val_zero, Matrix.cons_val_one, Matrix.cons_val]
      ring
    rw [Finset.sum_congr rfl hl] at hw
    rw [hw]
    apply List.sum_eq_zero
    intro x hx
    obtain ⟨p, hp, rfl⟩ := List.mem_map.mp hx
    obtain ⟨-, hdec, -⟩ := touching_outputs hp
    have hmem := (mem_touching _ _ _).mp hp
    obtain ⟨-, -, hnpos⟩ := displaced_node hwf _ hmem.1
    obtain ⟨-, -, -, -, hf1, hf2, hf3⟩ := displaced_face hwf _ hmem.2.1
    have hs := hdec.sum
    have hpt := hdec.point
    rw [hnpos, hf1, hf2, hf3] at hpt
    simp only []
    set r := projection p.1 p.2 projection0 projectionTol
    have hp0 := hpt 0
    have hp1 := hpt 1
    have hp2 := hpt 2
    unfold pos at hp0 hp1 hp2
    simp only [] at hp0 hp1 hp2
    unfold faceVelocity
    simp only [dot, crossProduct, getContactForce, Matrix.cons_val_zero, Matrix.cons_val_one, Matrix.cons_val]
    rw [hp0, hp1, hp2]
    have hN : r.bary 0 = 1 - r.bary 1 - r.bary 2 := by linarith
    rw [hN]
    ring
  have hsum : ∀ ω : Fin 3 → ℝ, dot ω (∑ a ∈ T, crossProduct (fun d => X a d + disp a d - q d) (F a)) = 0 := by
    intro ω
    rw [← key ω]
    simp only [dot, Finset.sum_apply, Finset.mul_sum, ← Finset.sum_add_distrib]
  exact dot_self_eq_zero (hsum _)

/-- **C09.**  A mesh node receives a contact force only if it belongs to a touching node or face. -/
theorem contact_untouched (hwf : WellFormed m X) (F : ℕ → Fin 3 → ℝ) (h : ContactForce m disp F) (a : ℕ)
    (ha : ∀ n ∈ (applyDisplacements disp m).nodes, ∀ f ∈ (applyDisplacements disp m).faces, InContact n f →
      a ≠ meshNode m n.node1 ∧ a ≠ meshNode m f.node1 ∧ a ≠ meshNode m f.node2 ∧ ∀ i, a ≠ meshNode m (f.fict i)) :
    F a = 0 := by
  -- virtual work with the velocity `F a` at `a` and zero elsewhere
  have hw := contact_work hwf F h (fun b => if b = a then F a else 0) (insert a m.nodeIds.toFinset)
    (fun b hb => Finset.mem_insert_of_mem (List.mem_toFinset.mpr hb))
  have hl : ∑ b ∈ insert a m.nodeIds.toFinset, dot (if b = a then F a else 0) (F b) = dot (F a) (F a) := by
    rw [Finset.sum_eq_single a]
    · simp
    · intro b _ hb
      simp [hb, dot]
    · intro hn; exact absurd (Finset.mem_insert_self _ _) hn
  rw [hl] at hw
  apply dot_self_eq_zero
  rw [hw]
  apply List.sum_eq_zero
  intro x hx
  obtain ⟨p, hp, rfl⟩ := List.mem_map.mp hx
  obtain ⟨hn, hf, hc⟩ := (mem_touching _ _ _).mp hp
  obtain ⟨h1, h2, h3, h4⟩ := ha _ hn _ hf hc
  simp only []
  have e1 : (if meshNode m p.1.node1 = a then F a else 0) = 0 := if_neg (Ne.symm h1)
  have e2 : ∀ N, faceVelocity m (fun b => if b = a then F a else 0) p.2 N = 0 := by
    intro N
    funext d
    unfold faceVelocity
    simp only [if_neg (Ne.symm h2), if_neg (Ne.symm h3), if_neg (Ne.symm (h4 0)), if_neg (Ne.symm (h4 1)),
      if_neg (Ne.symm (h4 2)), if_neg (Ne.symm (h4 3))]
    simp
  rw [e1, e2, sub_self]

end wf

end NimbleSM.Contact
