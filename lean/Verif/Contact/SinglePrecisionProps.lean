import Verif.Contact.SinglePrecision
import Verif.Contact.EnergyDemo

/-!
# C150: searching in single precision loses no contact
-/

namespace NimbleSM.Contact

open NimbleSM.Tensor

variable {m : Manager ℝ} {X disp : ℕ → Fin 3 → ℝ} {r : ℝ → ℝ}

/-! ## The search -/

theorem mem_queryPairs (m : Manager ℝ) (n f : Entity ℝ) :
    (n, f) ∈ queryPairs m ↔ n ∈ m.nodes ∧ f ∈ m.faces ∧ boxesIntersect n f := by
  simp [queryPairs, List.mem_filter, and_assoc]

theorem mem_queryPairsRounded (r : ℝ → ℝ) (m : Manager ℝ) (n f : Entity ℝ) :
    (n, f) ∈ queryPairsRounded r m ↔ n ∈ m.nodes ∧ f ∈ m.faces ∧ roundedBoxesIntersect r n f := by
  simp [queryPairsRounded, List.mem_filter, and_assoc]

/-- **C150.**  A rounding that keeps the order loses no pair: whatever the boxes in double precision find is found in
single precision. -/
theorem rounded_search_complete (hr : Monotone r) (m : Manager ℝ) (n f : Entity ℝ) (h : (n, f) ∈ queryPairs m) :
    (n, f) ∈ queryPairsRounded r m := by
  rw [mem_queryPairs] at h
  rw [mem_queryPairsRounded]
  exact ⟨h.1, h.2.1, fun d => ⟨hr (h.2.2 d).1, hr (h.2.2 d).2⟩⟩

/-- **C150.**  And what is found in addition has boxes that are apart by at most twice the rounding error. -/
theorem rounded_search_close (ε : ℝ) (m : Manager ℝ)
    (hε : ∀ e, e ∈ m.nodes ∨ e ∈ m.faces → ∀ d, |r (e.boxMin d) - e.boxMin d| ≤ ε ∧ |r (e.boxMax d) - e.boxMax d| ≤ ε)
    (n f : Entity ℝ) (h : (n, f) ∈ queryPairsRounded r m) (d : Fin 3) :
    n.boxMin d ≤ f.boxMax d + 2 * ε ∧ f.boxMin d ≤ n.boxMax d + 2 * ε := by
  rw [mem_queryPairsRounded] at h
  obtain ⟨hn, hf, hb⟩ := h
  obtain ⟨a1, a2⟩ := hε n (Or.inl hn) d
  obtain ⟨b1, b2⟩ := hε f (Or.inr hf) d
  obtain ⟨c1, c2⟩ := hb d
  rw [abs_le] at a1 a2 b1 b2
  constructor <;> linarith [a1.1, a1.2, a2.1, a2.2, b1.1, b1.2, b2.1, b2.2]

/-! ## The forces -/

open Classical in
/-- The pairs that are found and enforced. -/
noncomputable def touchingRounded (r : ℝ → ℝ) (m : Manager ℝ) : List (Entity ℝ × Entity ℝ) :=
  (queryPairsRounded r m).filter fun p => decide ((projection p.1 p.2 projection0 projectionTol).inside = true)

theorem mem_touchingRounded (r : ℝ → ℝ) (m : Manager ℝ) (n f : Entity ℝ) :
    (n, f) ∈ touchingRounded r m ↔ (n ∈ m.nodes ∧ f ∈ m.faces ∧ roundedBoxesIntersect r n f) ∧
      (projection n f projection0 projectionTol).inside = true := by
  unfold touchingRounded
  rw [List.mem_filter, mem_queryPairsRounded]
  simp

theorem allOpsRounded_touching (r : ℝ → ℝ) (m : Manager ℝ) :
    allOpsRounded r m = some (enforceAll m.penalty ((touchingRounded r m).map pairInteraction)) := by
  unfold allOpsRounded
  have h := mapM_flatten (fun p : Entity ℝ × Entity ℝ => callbackOps m.penalty p.1 p.2)
    (fun p => callbackOps_isSome m.penalty p.1 p.2) (queryPairsRounded r m)
  rw [h]
  congr 1
  clear h
  unfold enforceAll touchingRounded
  rw [List.flatMap_map]
  induction queryPairsRounded r m with
  | nil => rfl
  | cons p l ih =>
    rw [List.flatMap_cons, List.filter_cons, ih]
    by_cases hi : (projection p.1 p.2 projection0 projectionTol).inside = true
    · rw [if_pos (by simpa using hi), List.flatMap_cons]
      congr 1
      unfold callbackOps
      simp only [hi, if_true]
      rfl
    · rw [if_neg (by simpa using hi)]
      unfold callbackOps
      simp only [hi]
      simp

/-- Virtual work, as `contact_work`. -/
theorem rounded_work (hwf : WellFormed m X) (F : ℕ → Fin 3 → ℝ) (h : ContactForceRounded r m disp F)
    (V : ℕ → Fin 3 → ℝ) (T : Finset ℕ) (hT : ∀ a ∈ m.nodeIds, a ∈ T) :
    ∑ a ∈ T, dot (V a) (F a) = ((touchingRounded r (applyDisplacements disp m)).map fun p =>
      let q := projection p.1 p.2 projection0 projectionTol
      dot (getContactForce m.penalty q.gap q.normal) (faceVelocity m V p.2 q.bary)
        - dot (getContactForce m.penalty q.gap q.normal) (V (meshNode m p.1.node1))).sum := by
  obtain ⟨-, ops, all, ha, hp, rfl⟩ := h
  rw [allOpsRounded_touching] at ha
  obtain rfl := Option.some.inj ha
  set l := (touchingRounded r (applyDisplacements disp m)).map pairInteraction with hl
  have hmemp : ∀ c ∈ l, ∃ p, c = pairInteraction p ∧ p.1 ∈ (applyDisplacements disp m).nodes
      ∧ p.2 ∈ (applyDisplacements disp m).faces := by
    intro c hc
    obtain ⟨p, hpm, rfl⟩ := List.mem_map.mp hc
    exact ⟨p, rfl, ((mem_touchingRounded _ _ p.1 p.2).mp hpm).1.1, ((mem_touchingRounded _ _ p.1 p.2).mp hpm).1.2.1⟩
  have htri : ∀ c ∈ l, c.face.type = .triangle := by
    intro c hc
    obtain ⟨p, rfl, -, hf⟩ := hmemp c hc
    exact (displaced_face hwf _ hf).1
  have hops : ∀ op ∈ ops, op.1 ∈ Finset.Ico (0 : ℤ) (3 * (m.nodeIds.length : ℤ)) := by
    intro op ho
    obtain ⟨c, hc, id, hid, e, he⟩ := enforceAll_support _ l htri op (hp.mem_iff.mp ho)
    obtain ⟨p, rfl, hn, hf⟩ := hmemp c hc
    obtain ⟨-, f1, f2, f3, -⟩ := displaced_face hwf _ hf
    obtain ⟨-, n1, -⟩ := displaced_node hwf _ hn
    have hr : 0 ≤ id ∧ id < m.nodeIds.length := by
      simp only [Interaction.ids, pairInteraction, List.mem_cons, List.not_mem_nil, or_false] at hid
      rcases hid with rfl | rfl | rfl | rfl | rfl | rfl | rfl
      · exact n1
      · exact f1
      · exact f2
      all_goals exact f3 _
    have := e.isLt
    rw [Finset.mem_Ico, he]
    omega
  have hw := getForces_work (applyDisplacements disp m) hwf.nodup ops hops V T hT
  rw [hw, pair_perm hp, enforceAll_pair _ l htri, hl, List.map_map]
  congr 1
  apply List.map_congr_left
  intro p hpm
  simp only [Function.comp, pairInteraction, nodeVec_flat]
  have hfl : ∀ N, facePoint (flat (applyDisplacements disp m) V) p.2 N = faceVelocity m V p.2 N := by
    intro N
    funext d
    simp only [facePoint, faceVelocity, nodeVec_flat]
    rfl
  rw [hfl]
  rfl

/-- **C150.**  The forces still balance. -/
theorem rounded_resultant_zero (hwf : WellFormed m X) (F : ℕ → Fin 3 → ℝ) (h : ContactForceRounded r m disp F)
    (T : Finset ℕ) (hT : ∀ a ∈ m.nodeIds, a ∈ T) (d : Fin 3) : ∑ a ∈ T, F a d = 0 := by
  have hw := rounded_work hwf F h (fun _ e => if e = d then 1 else 0) T hT
  have hl : ∀ a ∈ T, dot (fun e => if e = d then (1 : ℝ) else 0) (F a) = F a d := by
    intro a _
    fin_cases d <;> simp [dot]
  rw [Finset.sum_congr rfl hl] at hw
  rw [hw]
  apply List.sum_eq_zero
  intro x hx
  obtain ⟨p, hp, rfl⟩ := List.mem_map.mp hx
  obtain ⟨-, hdec, -⟩ := inside_outputs _ _ _ _ ((mem_touchingRounded _ _ p.1 p.2).mp hp).2
  have hs := hdec.sum
  simp only []
  have : faceVelocity m (fun _ e => if e = d then (1 : ℝ) else 0) p.2
      (projection p.1 p.2 projection0 projectionTol).bary = fun e => if e = d then (1 : ℝ) else 0 := by
    funext e
    unfold faceVelocity
    by_cases he : e = d
    · simp only [he, if_true]; linear_combination hs
    · simp [he]
  rw [this, sub_self]

/-- **C150.**  And exert no moment about any point `q`, at the current node positions. -/
theorem rounded_moment_zero (hwf : WellFormed m X) (F : ℕ → Fin 3 → ℝ) (h : ContactForceRounded r m disp F)
    (T : Finset ℕ) (hT : ∀ a ∈ m.nodeIds, a ∈ T) (q : Fin 3 → ℝ) :
    ∑ a ∈ T, crossProduct (fun d => X a d + disp a d - q d) (F a) = 0 := by
  have key : ∀ ω : Fin 3 → ℝ, ∑ a ∈ T, dot ω (crossProduct (fun d => X a d + disp a d - q d) (F a)) = 0 := by
    intro ω
    have hw := rounded_work hwf F h (fun a => crossProduct ω (fun d => X a d + disp a d - q d)) T hT
    have hl : ∀ a ∈ T, dot (crossProduct ω (fun d => X a d + disp a d - q d)) (F a)
        = dot ω (crossProduct (fun d => X a d + disp a d - q d) (F a)) := by
      intro a _
      simp only [dot, crossProduct, Matrix.cons_val_zero, Matrix.cons_val_one, Matrix.cons_val]
      ring
    rw [Finset.sum_congr rfl hl] at hw
    rw [hw]
    apply List.sum_eq_zero
    intro x hx
    obtain ⟨p, hp, rfl⟩ := List.mem_map.mp hx
    have hmem := (mem_touchingRounded _ _ p.1 p.2).mp hp
    obtain ⟨-, hdec, -⟩ := inside_outputs _ _ _ _ hmem.2
    obtain ⟨-, -, hnpos⟩ := displaced_node hwf _ hmem.1.1
    obtain ⟨-, -, -, -, hf1, hf2, hf3⟩ := displaced_face hwf _ hmem.1.2.1
    have hs := hdec.sum
    have hpt := hdec.point
    rw [hnpos, hf1, hf2, hf3] at hpt
    simp only []
    set q' := projection p.1 p.2 projection0 projectionTol
    have hp0 := hpt 0
    have hp1 := hpt 1
    have hp2 := hpt 2
    unfold pos at hp0 hp1 hp2
    simp only [] at hp0 hp1 hp2
    unfold faceVelocity
    simp only [dot, crossProduct, getContactForce, Matrix.cons_val_zero, Matrix.cons_val_one, Matrix.cons_val]
    rw [hp0, hp1, hp2]
    have hN : q'.bary 0 = 1 - q'.bary 1 - q'.bary 2 := by linarith
    rw [hN]
    ring
  have hsum : ∀ ω : Fin 3 → ℝ, dot ω (∑ a ∈ T, crossProduct (fun d => X a d + disp a d - q d) (F a)) = 0 := by
    intro ω
    rw [← key ω]
    simp only [dot, Finset.sum_apply, Finset.mul_sum, ← Finset.sum_add_distrib]
  exact dot_self_eq_zero (hsum _)

/-- **C150.**  If no node is deep behind a face (every pair that `Projection` accepts has meeting boxes in double
precision), the search in single precision changes no force. -/
theorem rounded_force_eq (hr : Monotone r) (m : Manager ℝ) (disp : ℕ → Fin 3 → ℝ)
    (hdeep : ∀ n ∈ (applyDisplacements disp m).nodes, ∀ f ∈ (applyDisplacements disp m).faces,
      (projection n f projection0 projectionTol).inside = true → boxesIntersect n f)
    (F F' : ℕ → Fin 3 → ℝ) (h : ContactForce m disp F) (h' : ContactForceRounded r m disp F') : F' = F := by
  obtain ⟨-, ops, all, ha, hp, rfl⟩ := h
  obtain ⟨-, ops', all', ha', hp', rfl⟩ := h'
  have ht : touchingRounded r (applyDisplacements disp m) = touching (applyDisplacements disp m) := by
    unfold touchingRounded queryPairsRounded touching
    rw [List.filter_filter]
    apply List.filter_congr
    intro p hpm
    obtain ⟨n, hn, hpm⟩ := List.mem_flatMap.mp hpm
    obtain ⟨f, hf, rfl⟩ := List.mem_map.mp hpm
    unfold InContact
    by_cases hi : (projection n f projection0 projectionTol).inside = true
    · have hb := hdeep n hn f hf hi
      have hb' : roundedBoxesIntersect r n f := fun d => ⟨hr (hb d).1, hr (hb d).2⟩
      simp [hi, hb, hb']
    · simp [hi]
  rw [allOpsRounded_touching, ht] at ha'
  rw [allOps_touching] at ha
  obtain rfl := Option.some.inj ha
  obtain rfl := Option.some.inj ha'
  rw [runOps_perm (hp'.trans hp.symm)]

/-- **C150.**  The search in single precision misses no shallow penetration. -/
theorem rounded_shallow_found (hr : Monotone r) (hwf : WellFormed m X) (n f : Entity ℝ)
    (hn : n ∈ (applyDisplacements disp m).nodes) (hf : f ∈ (applyDisplacements disp m).faces)
    (nrm N : Fin 3 → ℝ) (depth : ℝ) (hnrm : IsUnitNormal f.coord1 f.coord2 f.coord3 nrm)
    (hdec : IsDecomposition n.coord1 f.coord1 f.coord2 f.coord3 nrm N (-depth)) (hN : ∀ i, 0 ≤ N i)
    (h0 : 0 < depth) (h1 : depth < f.charLen) (h2 : depth ≤ 15 / 100 * (n.charLen + f.charLen)) :
    (n, f) ∈ touchingRounded r (applyDisplacements disp m) := by
  have h := shallow_penetration_found hwf n f hn hf nrm N depth hnrm hdec hN h0 h1 h2
  rw [mem_touching] at h
  rw [mem_touchingRounded]
  exact ⟨⟨hn, hf, fun d => ⟨hr (h.2.2.1 d).1, hr (h.2.2.1 d).2⟩⟩, h.2.2.2⟩

/-! ## Rounding does find more -/

/-- Rounding to a multiple of `2^-24`, the spacing of single precision numbers just below 1. -/
noncomputable def toSingle (x : ℝ) : ℝ := ⌊x * 2 ^ 24 + 1 / 2⌋ / 2 ^ 24

theorem toSingle_mono : Monotone toSingle := by
  intro x y h
  unfold toSingle
  have : ⌊x * 2 ^ 24 + 1 / 2⌋ ≤ ⌊y * 2 ^ 24 + 1 / 2⌋ := Int.floor_le_floor (by nlinarith)
  have h' : (⌊x * 2 ^ 24 + 1 / 2⌋ : ℝ) ≤ ⌊y * 2 ^ 24 + 1 / 2⌋ := by exact_mod_cast this
  exact div_le_div_of_nonneg_right h' (by positivity)

theorem toSingle_error (x : ℝ) : |toSingle x - x| ≤ 1 / 2 ^ 25 := by
  unfold toSingle
  have h1 := Int.floor_le (x * 2 ^ 24 + 1 / 2)
  have h2 := Int.lt_floor_add_one (x * 2 ^ 24 + 1 / 2)
  rw [abs_le]
  constructor
  · rw [le_sub_iff_add_le, le_div_iff₀ (by positivity)]
    linarith
  · rw [sub_le_iff_le_add, div_le_iff₀ (by positivity)]
    linarith

/-- The two searches differ: a node at a depth just above the reach of the boxes is found, and accepted by
`Projection`, only after rounding. -/
theorem rounded_search_same_refuted : ¬ ∀ (r : ℝ → ℝ), Monotone r → (∀ x, |r x - x| ≤ 1 / 2 ^ 25) →
    ∀ n f : Entity ℝ, n.type = .node → f.type = .triangle → setBoundingBox n = n → setBoundingBox f = f →
      (projection n f projection0 projectionTol).inside = true → roundedBoxesIntersect r n f → boxesIntersect n f := by
  intro hall
  have h := hall toSingle toSingle_mono toSingle_error
    (setBoundingBox { (defaultEntity : Entity ℝ) with
      type := .node, numNodes := 1, coord1 := ![1/4, 1/4, -3/10 - 1/2 ^ 30], charLen := 1 }) demoTri rfl rfl rfl rfl ?_ ?_
  · have := (h 2).2
    simp [demoTri, setBoundingBox, inflationFactor, lower] at this
    norm_num at this
  · have hdec : IsDecomposition ![1/4, 1/4, -3/10 - 1/2 ^ 30] demoTri.coord1 demoTri.coord2 demoTri.coord3 ![0, 0, 1]
        ![1/2, 1/4, 1/4] (-3/10 - 1/2 ^ 30) := by
      constructor
      · show (1/2 + 1/4 + 1/4 : ℝ) = 1
        norm_num
      · intro d
        fin_cases d <;> simp [demoTri, setBoundingBox]
    rw [(projection_spec _ demoTri projection0 projectionTol _ _ _ demo_normal hdec).1 ?_]
    · apply decide_eq_true
      constructor
      · show (-(1:ℝ)) < -3/10 - 1/2 ^ 30
        norm_num
      · norm_num
    · intro i
      unfold projectionTol
      fin_cases i <;> constructor <;> norm_num
  · intro d
    fin_cases d
    all_goals simp [demoTri, setBoundingBox, inflationFactor, lower, raise]
    · refine ⟨toSingle_mono ?_, toSingle_mono ?_⟩ <;> norm_num
    · refine ⟨toSingle_mono ?_, toSingle_mono ?_⟩ <;> norm_num
    · refine ⟨toSingle_mono ?_, le_of_eq ?_⟩
      · norm_num
      · unfold toSingle
        norm_num

/-! ## Non-vacuity -/

theorem contactForceRounded_exists (r : ℝ → ℝ) (m : Manager ℝ) (hp : 0 < m.penalty) (disp : ℕ → Fin 3 → ℝ) :
    ∃ F, ContactForceRounded r m disp F :=
  ⟨_, hp, _, _, allOpsRounded_touching _ _, List.Perm.refl _, rfl⟩

/-- The contact problem of `EnergyDemo`: found after rounding too, with the same force. -/
example : ∃ F, ContactForceRounded toSingle demoManager demoDisp F ∧ F 17 = ![0, 0, 7/10] := by
  obtain ⟨F, hF, h17⟩ := demo_contact
  obtain ⟨F', hF'⟩ := contactForceRounded_exists toSingle demoManager hF.1 demoDisp
  refine ⟨F', hF', ?_⟩
  rw [rounded_force_eq toSingle_mono demoManager demoDisp ?_ F F' hF hF', h17]
  have ht : touching (applyDisplacements demoDisp demoManager) ≠ [] := by
    intro h0
    have hw := contact_work demo_wellFormed F hF (fun a d => if a = 17 ∧ d = 2 then 1 else 0) {10, 11, 12, 13, 17}
      (by intro a ha; simpa [demoManager] using ha)
    rw [h0] at hw
    simp [dot, h17] at hw
  obtain ⟨⟨n, f⟩, hp⟩ := List.exists_mem_of_ne_nil _ ht
  rw [mem_touching] at hp
  obtain ⟨hn, hf, hc⟩ := hp
  intro n' hn' f' hf' _
  have h1 : n' = n := by
    simp only [applyDisplacements, demoManager, List.map_cons, List.map_nil, List.mem_singleton] at hn hn'
    rw [hn, hn']
  have h2 : f' = f := by
    simp only [applyDisplacements, demoManager, List.map_cons, List.map_nil, List.mem_singleton] at hf hf'
    rw [hf, hf']
  rw [h1, h2]
  exact hc.1

end NimbleSM.Contact
