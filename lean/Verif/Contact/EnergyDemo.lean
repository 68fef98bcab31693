import Verif.Contact.BoxProps

/-! # A concrete contact problem that meets the hypotheses of C09, C14, C60, C81, C82, C83 -/

namespace NimbleSM.Contact

open NimbleSM.Tensor

/-! ## A concrete contact problem -/

/-- Mesh nodes 10..13: a unit square in the plane `z = 0`; node 17 above it. -/
noncomputable def demoX : ℕ → Fin 3 → ℝ := fun a =>
  if a = 11 then ![1, 0, 0] else if a = 12 then ![1, 1, 0] else if a = 13 then ![0, 1, 0]
  else if a = 17 then ![1/2, 1/4, 1/10] else ![0, 0, 0]

/-- Node 17 moves down by 1/5. -/
noncomputable def demoDisp : ℕ → Fin 3 → ℝ := fun a => if a = 17 then ![0, 0, -1/5] else 0

/-- One triangle of the square, and one contact node; characteristic lengths 1. -/
noncomputable def demoManager : Manager ℝ where
  penalty := 7
  nodeIds := [10, 11, 12, 13, 17]
  modelCoord := fun a => demoX ([10, 11, 12, 13, 17].getD (a / 3).toNat 0) ⟨(a % 3).toNat, by omega⟩
  coord := fun _ => 0
  nodes := [mkEntity .node 18 0 (fun i => ([1/2, 1/4, 1/10] : List ℝ).getD i 0) 1 4 0 (fun _ => 0)]
  faces := [mkEntity .triangle 992 0 (fun i => ([0, 0, 0, 1, 0, 0, 1/2, 1/2, 0] : List ℝ).getD i 0) 1 0 1 ![0, 1, 2, 3]]

theorem demo_wellFormed : WellFormed demoManager demoX := by
  refine ⟨by decide, ?_, ?_, ?_⟩
  · intro i hi d
    have h1 : (3 * (i : ℤ) + (d : ℕ)) / 3 = i := by have := d.isLt; omega
    have h2 : ((3 * (i : ℤ) + (d : ℕ)) % 3).toNat = (d : ℕ) := by have := d.isLt; omega
    have hi' : i < ([10, 11, 12, 13, 17] : List ℕ).length := hi
    simp only [demoManager, h1, h2, Int.toNat_natCast, List.getD_eq_getElem _ _ hi']
  · intro e he
    simp only [demoManager, List.mem_singleton] at he
    subst he
    simp [mkEntity, setBoundingBox, demoManager]
  · intro e he
    simp only [demoManager, List.mem_singleton] at he
    subst he
    refine ⟨rfl, ?_, ?_, ?_⟩
    · simp [mkEntity, setBoundingBox, demoManager]
    · simp [mkEntity, setBoundingBox, demoManager]
    · intro i
      fin_cases i <;> simp [mkEntity, setBoundingBox, demoManager]

/-- The demo problem meets the hypotheses of C09, C81, C82, and its contact force is not zero: the node is pushed up
by `7 * 1/10`. -/
theorem demo_contact : ∃ F, ContactForce demoManager demoDisp F ∧ F 17 = ![0, 0, 7/10] := by
  obtain ⟨F, hF⟩ := contactForce_exists demoManager (by simp [demoManager]) demoDisp
  refine ⟨F, hF, ?_⟩
  set m' := applyDisplacements demoDisp demoManager with hm'
  set n0 : Entity ℝ := mkEntity .node 18 0 (fun i => ([1/2, 1/4, 1/10] : List ℝ).getD i 0) 1 4 0 (fun _ => 0) with hn0
  set f0 : Entity ℝ := mkEntity .triangle 992 0 (fun i => ([0, 0, 0, 1, 0, 0, 1/2, 1/2, 0] : List ℝ).getD i 0) 1 0 1 ![0, 1, 2, 3]
    with hf0
  set n := setCoordinates m'.coord n0 with hn
  set f := setCoordinates m'.coord f0 with hf
  have hnodes : m'.nodes = [n] := rfl
  have hfaces : m'.faces = [f] := rfl
  have ns : n ∈ m'.nodes := by rw [hnodes]; exact List.mem_singleton_self _
  have fs : f ∈ m'.faces := by rw [hfaces]; exact List.mem_singleton_self _
  obtain ⟨-, -, npos⟩ := displaced_node (disp := demoDisp) demo_wellFormed n ns
  obtain ⟨-, -, -, -, f1, f2, f3⟩ := displaced_face (disp := demoDisp) demo_wellFormed f fs
  have en : n.node1 = 4 := setCoordinates_node1 _ _
  have e1 : f.node1 = 0 := setCoordinates_node1 _ _
  have e2 : f.node2 = 1 := setCoordinates_node2 _ _
  have e3 : f.fict = ![0, 1, 2, 3] := setCoordinates_fict _ _
  have hcl : f.charLen = 1 := setCoordinates_charLen _ _
  have m0 : meshNode demoManager 0 = 10 := rfl
  have m1 : meshNode demoManager 1 = 11 := rfl
  have m2 : meshNode demoManager 2 = 12 := rfl
  have m3 : meshNode demoManager 3 = 13 := rfl
  have m4 : meshNode demoManager 4 = 17 := rfl
  rw [en, m4] at npos
  rw [e1, m0] at f1
  rw [e2, m1] at f2
  rw [e3] at f3
  simp only [Matrix.cons_val_zero, Matrix.cons_val_one, Matrix.cons_val, m0, m1, m2, m3] at f3
  have npos' : n.coord1 = ![1/2, 1/4, -1/10] := by
    rw [npos]; funext d; fin_cases d <;> norm_num [pos, demoX, demoDisp]
  have f1' : f.coord1 = ![0, 0, 0] := by
    rw [f1]; funext d; fin_cases d <;> norm_num [pos, demoX, demoDisp]
  have f2' : f.coord2 = ![1, 0, 0] := by
    rw [f2]; funext d; fin_cases d <;> norm_num [pos, demoX, demoDisp]
  have f3' : f.coord3 = ![1/2, 1/2, 0] := by
    rw [f3]; funext d; fin_cases d <;> norm_num [pos, demoX, demoDisp]
  have hun : IsUnitNormal f.coord1 f.coord2 f.coord3 ![0, 0, 1] := by
    rw [f1', f2', f3']
    constructor <;> simp [dot, crossProduct]
  have hde : IsDecomposition n.coord1 f.coord1 f.coord2 f.coord3 ![0, 0, 1] ![1/4, 1/4, 1/2] (-1/10) := by
    rw [npos', f1', f2', f3']
    constructor
    · show (1/4 + 1/4 + 1/2 : ℝ) = 1
      norm_num
    · intro d
      fin_cases d
      · show (1/2 : ℝ) = 1/4 * 0 + 1/4 * 1 + 1/2 * (1/2) + (-1/10) * 0
        norm_num
      · show (1/4 : ℝ) = 1/4 * 0 + 1/4 * 0 + 1/2 * (1/2) + (-1/10) * 0
        norm_num
      · show (-1/10 : ℝ) = 1/4 * 0 + 1/4 * 0 + 1/2 * 0 + (-1/10) * 1
        norm_num
  have hpr : projection n f projection0 projectionTol =
      { inside := true, gap := -1/10, normal := ![0, 0, 1], bary := ![1/4, 1/4, 1/2] } := by
    rw [(projection_spec n f projection0 projectionTol _ _ _ hun hde).1 ?_]
    · congr
      apply decide_eq_true
      rw [hcl]
      constructor <;> norm_num
    · intro i
      unfold projectionTol
      fin_cases i <;> constructor <;> norm_num
  have hbox : boxesIntersect n f := by
    have hnb : ∀ d, n.boxMin d = n.coord1 d - 15/100 * 1 ∧ n.boxMax d = n.coord1 d + 15/100 * 1 := by
      intro d; exact ⟨rfl, rfl⟩
    have hfb : ∀ d, f.boxMin d = lower (f.coord3 d) (lower (f.coord2 d) (f.coord1 d)) - 15/100 * 1 ∧
        f.boxMax d = raise (f.coord3 d) (raise (f.coord2 d) (f.coord1 d)) + 15/100 * 1 := by
      intro d; exact ⟨rfl, rfl⟩
    intro d
    rw [(hnb d).1, (hnb d).2, (hfb d).1, (hfb d).2, npos', f1', f2', f3']
    fin_cases d <;> norm_num [lower, raise]
  have htouch : touching m' = [(n, f)] := by
    unfold touching
    rw [hnodes, hfaces]
    have : InContact n f := ⟨hbox, by rw [hpr]⟩
    simp [this]
  -- virtual work with each unit velocity of node 17
  have hwork : ∀ e : Fin 3, F 17 e = -(7 * (-1/10) * (![0, 0, 1] : Fin 3 → ℝ) e) := by
    intro e
    have hw := contact_work demo_wellFormed F hF (fun a d => if a = 17 ∧ d = e then 1 else 0) {10, 11, 12, 13, 17}
      (by intro a ha; simpa [demoManager] using ha)
    have hl : ∑ a ∈ ({10, 11, 12, 13, 17} : Finset ℕ), dot (fun d => if a = 17 ∧ d = e then (1 : ℝ) else 0) (F a) = F 17 e := by
      rw [Finset.sum_eq_single 17]
      · fin_cases e <;> simp [dot]
      · intro b _ hb
        simp [hb, dot]
      · simp
    rw [hl, ← hm', htouch] at hw
    rw [hw]
    simp only [List.map_cons, List.map_nil, List.sum_cons, List.sum_nil, add_zero, hpr, en, m4]
    have hfv : faceVelocity demoManager (fun a d => if a = 17 ∧ d = e then 1 else 0) f ![1/4, 1/4, 1/2] = 0 := by
      funext d
      simp [faceVelocity, e1, e2, e3, m0, m1, m2, m3]
    rw [hfv]
    fin_cases e <;> simp [dot, getContactForce, demoManager]
  funext e
  rw [hwork e]
  fin_cases e <;> norm_num

/-- The hypotheses of `shallow_penetration_found` are met by the demo problem, whose pair touches. -/
example : ∃ p, p ∈ touching (applyDisplacements demoDisp demoManager) := by
  by_contra hne
  push Not at hne
  have hnil : touching (applyDisplacements demoDisp demoManager) = [] := List.eq_nil_iff_forall_not_mem.mpr hne
  obtain ⟨F, hF, h17⟩ := demo_contact
  have hw := contact_untouched demo_wellFormed F hF 17 (fun n hn f hf hc => absurd ((mem_touching _ _ _).mpr ⟨hn, hf, hc⟩) (hne _))
  rw [h17] at hw
  have h2 : (7 / 10 : ℝ) = 0 := congrFun hw 2
  norm_num at h2

/-- The demo manager meets the hypotheses of C60. -/
example : WellFormed demoManager demoX ∧ demoManager.nodeIds.Nodup ∧ demoManager.nodeIds.length = 5 :=
  ⟨demo_wellFormed, by decide, rfl⟩

end NimbleSM.Contact
