import Verif.Contact.EnergyProps

/-!
# C14: bounding boxes and the completeness of the contact search; C60: the maps between mesh and contact submodel
-/

namespace NimbleSM.Contact

open NimbleSM.Tensor

section box
variable {K : Type*} [Field K] [LinearOrder K] [IsStrictOrderedRing K]

theorem lower_le_left (x m : K) : lower x m ≤ x := by
  unfold lower; split
  · exact le_rfl
  · exact le_of_not_gt ‹_›
theorem lower_le_right (x m : K) : lower x m ≤ m := by
  unfold lower; split
  · exact le_of_lt ‹_›
  · exact le_rfl
theorem raise_le_left (x m : K) : x ≤ raise x m := by
  unfold raise; split
  · exact le_rfl
  · exact le_of_not_gt ‹_›
theorem raise_le_right (x m : K) : m ≤ raise x m := by
  unfold raise; split
  · exact le_of_lt ‹_›
  · exact le_rfl
theorem lower_mem (x m : K) : lower x m = x ∨ lower x m = m := by unfold lower; split <;> simp
theorem raise_mem (x m : K) : raise x m = x ∨ raise x m = m := by unfold raise; split <;> simp

/-- A convex combination of three numbers is between bounds of the three numbers. -/
theorem convex_between {a b c lo hi n0 n1 n2 : K} (h0 : 0 ≤ n0) (h1 : 0 ≤ n1) (h2 : 0 ≤ n2) (hs : n0 + n1 + n2 = 1)
    (la : lo ≤ a) (lb : lo ≤ b) (lc : lo ≤ c) (ha : a ≤ hi) (hb : b ≤ hi) (hc : c ≤ hi) :
    lo ≤ n0 * a + n1 * b + n2 * c ∧ n0 * a + n1 * b + n2 * c ≤ hi := by
  constructor
  · calc lo = n0 * lo + n1 * lo + n2 * lo := by rw [← add_mul, ← add_mul, hs, one_mul]
      _ ≤ _ := add_le_add (add_le_add (mul_le_mul_of_nonneg_left la h0) (mul_le_mul_of_nonneg_left lb h1))
        (mul_le_mul_of_nonneg_left lc h2)
  · calc n0 * a + n1 * b + n2 * c ≤ n0 * hi + n1 * hi + n2 * hi :=
          add_le_add (add_le_add (mul_le_mul_of_nonneg_left ha h0) (mul_le_mul_of_nonneg_left hb h1))
            (mul_le_mul_of_nonneg_left hc h2)
      _ = hi := by rw [← add_mul, ← add_mul, hs, one_mul]

/-- **C14.**  The box of a triangle contains each of its points (convex combinations of the vertices) with a margin of
0.15 characteristic lengths on every side. -/
theorem triangle_box_contains (e : Entity K) (ht : e.type = .triangle) (N : Fin 3 → K) (hN : ∀ i, 0 ≤ N i)
    (hs : N 0 + N 1 + N 2 = 1) (d : Fin 3) :
    let x := N 0 * e.coord1 d + N 1 * e.coord2 d + N 2 * e.coord3 d
    (setBoundingBox e).boxMin d ≤ x - 15 / 100 * e.charLen ∧ x + 15 / 100 * e.charLen ≤ (setBoundingBox e).boxMax d := by
  simp only [setBoundingBox, ht, if_true, inflationFactor]
  have l1 := lower_le_left (e.coord3 d) (lower (e.coord2 d) (e.coord1 d))
  have l2 := (lower_le_right (e.coord3 d) (lower (e.coord2 d) (e.coord1 d))).trans (lower_le_left (e.coord2 d) (e.coord1 d))
  have l3 := (lower_le_right (e.coord3 d) (lower (e.coord2 d) (e.coord1 d))).trans (lower_le_right (e.coord2 d) (e.coord1 d))
  have r1 := raise_le_left (e.coord3 d) (raise (e.coord2 d) (e.coord1 d))
  have r2 := (raise_le_left (e.coord2 d) (e.coord1 d)).trans (raise_le_right (e.coord3 d) (raise (e.coord2 d) (e.coord1 d)))
  have r3 := (raise_le_right (e.coord2 d) (e.coord1 d)).trans (raise_le_right (e.coord3 d) (raise (e.coord2 d) (e.coord1 d)))
  have := convex_between (hN 0) (hN 1) (hN 2) hs l3 l2 l1 r3 r2 r1
  constructor <;> linarith [this.1, this.2]

/-- **C14.**  The box is tight: each side is exactly the margin away from some vertex. -/
theorem triangle_box_tight (e : Entity K) (ht : e.type = .triangle) (d : Fin 3) :
    (∃ x ∈ [e.coord1 d, e.coord2 d, e.coord3 d], (setBoundingBox e).boxMin d = x - 15 / 100 * e.charLen) ∧
    (∃ x ∈ [e.coord1 d, e.coord2 d, e.coord3 d], (setBoundingBox e).boxMax d = x + 15 / 100 * e.charLen) := by
  simp only [setBoundingBox, ht, if_true, inflationFactor]
  constructor
  · refine ⟨lower (e.coord3 d) (lower (e.coord2 d) (e.coord1 d)), ?_, rfl⟩
    rcases lower_mem (e.coord3 d) (lower (e.coord2 d) (e.coord1 d)) with h | h
    · rw [h]; simp
    · rw [h]
      rcases lower_mem (e.coord2 d) (e.coord1 d) with h | h <;> rw [h] <;> simp
  · refine ⟨raise (e.coord3 d) (raise (e.coord2 d) (e.coord1 d)), ?_, rfl⟩
    rcases raise_mem (e.coord3 d) (raise (e.coord2 d) (e.coord1 d)) with h | h
    · rw [h]; simp
    · rw [h]
      rcases raise_mem (e.coord2 d) (e.coord1 d) with h | h <;> rw [h] <;> simp

/-- **C14.**  The box of a contact node is the cube of half-width 0.15 characteristic lengths around it. -/
theorem node_box (e : Entity K) (ht : e.type = .node) (d : Fin 3) :
    (setBoundingBox e).boxMin d = e.coord1 d - 15 / 100 * e.charLen ∧
    (setBoundingBox e).boxMax d = e.coord1 d + 15 / 100 * e.charLen := by
  simp [setBoundingBox, ht, inflationFactor]

/-- **C14.**  A node that is, in each coordinate, within 0.15 times the sum of the characteristic lengths of some point
of a face has a box that meets the box of the face. -/
theorem near_boxes_intersect (n f : Entity K) (hn : n.type = .node) (hf : f.type = .triangle)
    (N : Fin 3 → K) (hN : ∀ i, 0 ≤ N i) (hs : N 0 + N 1 + N 2 = 1)
    (hclose : ∀ d, |n.coord1 d - (N 0 * f.coord1 d + N 1 * f.coord2 d + N 2 * f.coord3 d)|
      ≤ 15 / 100 * (n.charLen + f.charLen)) :
    boxesIntersect (setBoundingBox n) (setBoundingBox f) := by
  intro d
  obtain ⟨h1, h2⟩ := triangle_box_contains f hf N hN hs d
  obtain ⟨h3, h4⟩ := node_box n hn d
  have := abs_le.mp (hclose d)
  rw [h3, h4]
  constructor <;> linarith [this.1, this.2]

end box

/-- The boxes stored in the entities of the displaced manager are those of `SetBoundingBox`. -/
theorem setBoundingBox_idem {K : Type*} [Field K] [LinearOrder K] (e : Entity K) :
    setBoundingBox (setBoundingBox e) = setBoundingBox e := rfl

theorem displaced_box {K : Type*} [Field K] [LinearOrder K] (c : ℤ → K) (e : Entity K) :
    setBoundingBox (setCoordinates c e) = setCoordinates c e := rfl

/-- A component of a unit vector is at most one in absolute value. -/
theorem unit_component {n : Fin 3 → ℝ} (h : dot n n = 1) (d : Fin 3) : |n d| ≤ 1 := by
  unfold dot at h
  have h0 := mul_self_nonneg (n 0)
  have h1 := mul_self_nonneg (n 1)
  have h2 := mul_self_nonneg (n 2)
  have : n d * n d ≤ 1 := by fin_cases d <;> simp <;> linarith
  rw [abs_le]
  constructor <;> nlinarith

/-- **C14.**  The search misses no shallow penetration: if the orthogonal projection of the node falls in the face and the
node is behind the face by less than the face's characteristic length and at most 0.15 times the sum of both characteristic
lengths, then the pair is found by the box search and enforced. -/
theorem shallow_penetration_found {m : Manager ℝ} {X disp : ℕ → Fin 3 → ℝ} (hwf : WellFormed m X) (n f : Entity ℝ)
    (hn : n ∈ (applyDisplacements disp m).nodes) (hf : f ∈ (applyDisplacements disp m).faces)
    (nrm N : Fin 3 → ℝ) (depth : ℝ) (hnrm : IsUnitNormal f.coord1 f.coord2 f.coord3 nrm)
    (hdec : IsDecomposition n.coord1 f.coord1 f.coord2 f.coord3 nrm N (-depth)) (hN : ∀ i, 0 ≤ N i)
    (h0 : 0 < depth) (h1 : depth < f.charLen) (h2 : depth ≤ 15 / 100 * (n.charLen + f.charLen)) :
    (n, f) ∈ touching (applyDisplacements disp m) := by
  rw [mem_touching]
  refine ⟨hn, hf, ?_, ?_⟩
  · obtain ⟨n0, -, rfl⟩ := List.mem_map.mp hn
    obtain ⟨f0, -, rfl⟩ := List.mem_map.mp hf
    rw [← displaced_box _ n0, ← displaced_box _ f0]
    apply near_boxes_intersect _ _ (displaced_node hwf _ hn).1 (displaced_face hwf _ hf).1 N hN hdec.sum
    intro d
    rw [hdec.point d, add_sub_cancel_left, abs_mul, abs_neg, abs_of_pos h0]
    calc depth * |nrm d| ≤ depth * 1 := mul_le_mul_of_nonneg_left (unit_component hnrm.unit d) h0.le
      _ = depth := mul_one _
      _ ≤ _ := h2
  · rw [(projection_spec n f projection0 projectionTol (-depth) nrm N hnrm hdec).1 ?_]
    · apply decide_eq_true
      constructor <;> linarith
    · intro i
      have hs := hdec.sum
      have hle : N i ≤ 1 := by
        have := hN 0
        have := hN 1
        have := hN 2
        fin_cases i <;> simp <;> linarith
      have := hN i
      have ht : (0 : ℝ) < projectionTol := by unfold projectionTol; norm_num
      constructor <;> linarith

/-- **C14 (limit).**  Deeper penetrations, which `Projection` would accept (up to one characteristic length), can be missed
by the box search: here the node is half a characteristic length behind the middle of the face, `Projection` reports
contact, yet the boxes do not meet, so the pair is not in contact. -/
theorem deep_penetration_missed : ∃ n f : Entity ℝ, n.type = .node ∧ f.type = .triangle ∧
    setBoundingBox n = n ∧ setBoundingBox f = f ∧ n.charLen = 1 ∧ f.charLen = 1 ∧
    (projection n f projection0 projectionTol).inside = true ∧ ¬ boxesIntersect n f := by
  refine ⟨setBoundingBox { (defaultEntity : Entity ℝ) with type := .node, numNodes := 1, coord1 := ![1/4, 1/4, -1/2], charLen := 1 },
    demoTri, rfl, rfl, rfl, rfl, rfl, rfl, ?_, ?_⟩
  · have hdec : IsDecomposition ![1/4, 1/4, -1/2] demoTri.coord1 demoTri.coord2 demoTri.coord3 ![0, 0, 1] ![1/2, 1/4, 1/4] (-1/2) := by
      constructor
      · show (1/2 + 1/4 + 1/4 : ℝ) = 1
        norm_num
      · intro d
        fin_cases d <;> simp [demoTri, setBoundingBox]
    rw [(projection_spec _ demoTri projection0 projectionTol _ _ _ demo_normal hdec).1 ?_]
    · apply decide_eq_true
      constructor
      · show (-(1:ℝ)) < -1/2
        norm_num
      · norm_num
    · intro i
      unfold projectionTol
      fin_cases i <;> constructor <;> norm_num
  · intro h
    have := (h 2).2
    simp [demoTri, setBoundingBox, inflationFactor, lower] at this
    norm_num at this

/-! ## C60 -/

/-- **C60.**  `ApplyDisplacements` moves every submodel node to its reference coordinates plus the displacement of its mesh
node, and all contact entities with it: a contact node to its node, the vertices of a contact face to its two nodes and to the
average of the four nodes of its quadrilateral. -/
theorem apply_displacements_spec {m : Manager ℝ} {X disp : ℕ → Fin 3 → ℝ} (hwf : WellFormed m X) :
    (∀ i (hi : i < m.nodeIds.length) (d : Fin 3),
      (applyDisplacements disp m).coord (3 * (i : ℤ) + d) = X m.nodeIds[i] d + disp m.nodeIds[i] d) ∧
    (∀ e ∈ (applyDisplacements disp m).nodes, ∀ d,
      e.coord1 d = X (meshNode m e.node1) d + disp (meshNode m e.node1) d) ∧
    (∀ e ∈ (applyDisplacements disp m).faces, ∀ d,
      e.coord1 d = X (meshNode m e.node1) d + disp (meshNode m e.node1) d ∧
      e.coord2 d = X (meshNode m e.node2) d + disp (meshNode m e.node2) d ∧
      4 * e.coord3 d = ∑ i, (X (meshNode m (e.fict i)) d + disp (meshNode m (e.fict i)) d)) ∧
    (applyDisplacements disp m).nodeIds = m.nodeIds ∧ (applyDisplacements disp m).modelCoord = m.modelCoord := by
  refine ⟨?_, ?_, ?_, rfl, rfl⟩
  · intro i hi d
    rw [applyDisplacements_coord disp m i hi d, hwf.coords i hi d]
  · intro e he d
    rw [(displaced_node hwf e he).2.2]
    rfl
  · intro e he d
    obtain ⟨-, -, -, -, h1, h2, h3⟩ := displaced_face hwf e he
    refine ⟨by rw [h1]; rfl, by rw [h2]; rfl, ?_⟩
    rw [h3, Fin.sum_univ_four]
    simp only [pos]
    ring

/-- **C60.**  `GetForces` writes the force of submodel node `i` to its mesh node and leaves the other mesh nodes alone. -/
theorem get_forces_spec {m : Manager ℝ} (hn : m.nodeIds.Nodup) (force : ℤ → ℝ) (out : ℕ → Fin 3 → ℝ) :
    (∀ i (hi : i < m.nodeIds.length) (d : Fin 3), getForces m force out m.nodeIds[i] d = force (3 * (i : ℤ) + d)) ∧
    (∀ a, a ∉ m.nodeIds → getForces m force out a = out a) :=
  ⟨fun i hi d => congrFun (getForces_at m hn force out i hi) d, fun a ha => getForces_other m hn force out a ha⟩

end NimbleSM.Contact
