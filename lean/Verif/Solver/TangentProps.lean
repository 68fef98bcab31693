import Verif.Solver.Tangent
import Verif.Solver.CrsProps

/-!
# C20, C21 (and C64: assembly): constrained systems and the sparsity structure of the tangent
-/

namespace NimbleSM.Solver

open NimbleSM.Bc Classical

variable {K : Type*} [Field K] {pairs : List (ℕ × ℕ)}

/-! ## Specification -/

/-- Degree of freedom `d` is constrained: it belongs to a node of the node set of a prescribed
displacement or prescribed velocity, in that condition's coordinate. -/
def Constrained (sets : NodeSets) (ids : List ℕ) (dim : ℕ) (bcs : List (BoundaryCondition K)) (d : ℕ) :
    Prop :=
  ∃ bc ∈ bcs, (bc.type = .prescribedDisplacement ∨ bc.type = .prescribedVelocity) ∧
    ∃ ns, sets bc.nodeSetId = some ns ∧ ∃ n ∈ ns, ∃ g, ids[n]? = some g ∧ d = g * dim + bc.coordinate

/-- Every condition's node set is known and every node of it has a linear-system number. -/
def WellPosed (sets : NodeSets) (ids : List ℕ) (bcs : List (BoundaryCondition K)) : Prop :=
  ∀ bc ∈ bcs, ∃ ns, sets bc.nodeSetId = some ns ∧ ∀ n ∈ ns, n < ids.length

/-- What imposing the constraints `C` does to the entry `(a,b)` that was `old`. -/
noncomputable def imposed (C : ℕ → Prop) (diagonal : K) (a b : ℕ) (old : K) : K :=
  if C a ∨ C b then (if a = b then diagonal else 0) else old

/-! ## C20 -/

section generic

variable {M : Type*} [TangentMatrix M K] (val : M → ℕ → ℕ → Option K) (inv : M → Prop)
  (diagonal : K) (ok : ℕ → Prop)

/-- The effect on all values of imposing the constraints `C`. -/
def Effect (A B : M) (C : ℕ → Prop) : Prop :=
  inv B ∧ ∀ a b, val B a b = (val A a b).map (imposed C diagonal a b)

theorem Effect.refl {A : M} (h : inv A) : Effect val inv diagonal A A fun _ => False := by
  refine ⟨h, fun a b => ?_⟩
  have : (imposed (fun _ => False) diagonal a b : K → K) = id := by funext x; simp [imposed]
  rw [this]; simp

variable {val inv diagonal} in
theorem Effect.trans {A B D : M} {C C' : ℕ → Prop} (h1 : Effect val inv diagonal A B C)
    (h2 : Effect val inv diagonal B D C') : Effect val inv diagonal A D fun d => C d ∨ C' d := by
  refine ⟨h2.1, fun a b => ?_⟩
  rw [h2.2, h1.2, Option.map_map]
  congr 1
  funext x
  simp only [imposed, Function.comp]
  by_cases c1 : C a <;> by_cases c2 : C b <;> by_cases c3 : C' a <;> by_cases c4 : C' b <;>
    simp [c1, c2, c3, c4]

theorem Effect.congr {A B : M} {C C' : ℕ → Prop} (h : Effect val inv diagonal A B C)
    (e : ∀ d, C d ↔ C' d) : Effect val inv diagonal A B C' := by
  have : C = C' := funext fun d => propext (e d)
  rwa [← this]

variable (hstep : ∀ A d, inv A → ok d → ∃ B, constrainDof diagonal A d = some B ∧
  Effect val inv diagonal A B fun e => e = d)
include hstep

theorem constrainNodes_effect (ids : List ℕ) (dim coordinate : ℕ) (ns : List ℕ) (A : M) (hA : inv A)
    (hns : ∀ n ∈ ns, ∃ g, ids[n]? = some g ∧ ok (g * dim + coordinate)) :
    ∃ B, constrainNodes ids dim diagonal coordinate ns A = some B ∧
      Effect val inv diagonal A B fun d => ∃ n ∈ ns, ∃ g, ids[n]? = some g ∧ d = g * dim + coordinate := by
  induction ns generalizing A with
  | nil => exact ⟨A, rfl, (Effect.refl val inv diagonal hA).congr _ _ _ (by simp)⟩
  | cons n ns ih =>
    obtain ⟨g, hg, hok⟩ := hns n List.mem_cons_self
    obtain ⟨B, hB, eB⟩ := hstep A _ hA hok
    obtain ⟨D, hD, eD⟩ := ih B eB.1 (fun m hm => hns m (List.mem_cons_of_mem _ hm))
    refine ⟨D, ?_, (eB.trans eD).congr _ _ _ ?_⟩
    · simp only [constrainNodes, dofOf, hg, Option.map_some, Option.bind_some, hB, hD]
    · intro d
      simp only [List.mem_cons, exists_eq_or_imp, hg, Option.some.injEq, exists_eq_left']

theorem modifyTangent_effect (sets : NodeSets) (ids : List ℕ) (dim : ℕ)
    (bcs : List (BoundaryCondition K)) (A : M) (hA : inv A) (hw : WellPosed sets ids bcs)
    (hok : ∀ d, Constrained sets ids dim bcs d → ok d) :
    ∃ B, modifyTangent sets ids dim diagonal bcs A = some B ∧
      Effect val inv diagonal A B (Constrained sets ids dim bcs) := by
  induction bcs generalizing A with
  | nil => exact ⟨A, rfl, (Effect.refl val inv diagonal hA).congr _ _ _ (by simp [Constrained])⟩
  | cons bc bcs ih =>
    obtain ⟨ns, hns, hlt⟩ := hw bc List.mem_cons_self
    have hw' : WellPosed sets ids bcs := fun b hb => hw b (List.mem_cons_of_mem _ hb)
    have hok' : ∀ d, Constrained sets ids dim bcs d → ok d := by
      rintro d ⟨b, hb, r⟩; exact hok d ⟨b, List.mem_cons_of_mem _ hb, r⟩
    by_cases hk : bc.type = .prescribedDisplacement ∨ bc.type = .prescribedVelocity
    · have hkin : bc.isKinematic = true := by simpa [BoundaryCondition.isKinematic] using hk
      obtain ⟨B, hB, eB⟩ := constrainNodes_effect val inv diagonal ok hstep ids dim bc.coordinate ns A hA
        (by
          intro n hn
          refine ⟨ids[n]'(hlt n hn), by simp [hlt n hn], hok _ ?_⟩
          exact ⟨bc, List.mem_cons_self, hk, ns, hns, n, hn, _, by simp [hlt n hn], rfl⟩)
      obtain ⟨D, hD, eD⟩ := ih B eB.1 hw' hok'
      refine ⟨D, ?_, (eB.trans eD).congr _ _ _ ?_⟩
      · simp only [modifyTangent, hns, Option.bind_some, hkin, if_true, hB, hD]
      · intro d
        constructor
        · rintro (⟨n, hn, g, hg, hd⟩ | ⟨b, hb, r⟩)
          · exact ⟨bc, List.mem_cons_self, hk, ns, hns, n, hn, g, hg, hd⟩
          · exact ⟨b, List.mem_cons_of_mem _ hb, r⟩
        · rintro ⟨b, hb, hbk, ns', hns', r⟩
          rcases List.mem_cons.mp hb with rfl | hb
          · rw [hns] at hns'; cases hns'; exact Or.inl r
          · exact Or.inr ⟨b, hb, hbk, ns', hns', r⟩
    · have hkin : bc.isKinematic = false := by
        simpa [BoundaryCondition.isKinematic] using hk
      obtain ⟨D, hD, eD⟩ := ih A hA hw' hok'
      refine ⟨D, ?_, eD.congr _ _ _ ?_⟩
      · simp [modifyTangent, hns, hkin, hD]
      · intro d
        constructor
        · rintro ⟨b, hb, r⟩; exact ⟨b, List.mem_cons_of_mem _ hb, r⟩
        · rintro ⟨b, hb, hbk, r⟩
          rcases List.mem_cons.mp hb with rfl | hb
          · exact absurd hbk hk
          · exact ⟨b, hb, hbk, r⟩

end generic

theorem crs_constrainDof {A : Crs K} (hA : Admissible pairs) (h : HasPattern A pairs) (diagonal : K)
    {d : ℕ} (hd : (d, d) ∈ pairs) :
    ∃ B, constrainDof diagonal A d = some B ∧
      Effect Crs.at? (HasPattern · pairs) diagonal A B fun e => e = d := by
  have hne : pairs ≠ [] := List.ne_nil_of_mem hd
  obtain ⟨B1, e1, p1, v1⟩ := setRowValues_spec hA hne h (h.row_lt hd) 0
  obtain ⟨p2, v2⟩ := setColumnValues_spec hA p1 d 0
  obtain ⟨B3, e3, p3, v3⟩ := setEntry_spec hA p2 diagonal hd
  refine ⟨B3, ?_, p3, ?_⟩
  · simp only [constrainDof, TangentMatrix.setRow, TangentMatrix.setCol, TangentMatrix.setAt, e1, e3,
      Option.bind_some]
  · intro a b
    rw [v3, v2, v1]
    by_cases hm : (a, b) ∈ pairs
    · have hs := (at_isSome_iff hA h a b).mpr hm
      obtain ⟨x, hx⟩ := Option.isSome_iff_exists.mp hs
      rw [hx]
      simp only [hm, and_true, Option.map_some, imposed, Prod.mk.injEq]
      by_cases ha : a = d <;> by_cases hb : b = d
      · simp [ha, hb]
      · have : ¬ a = b := by rintro rfl; exact hb ha
        simp [ha, hb, Ne.symm hb]
      · have : ¬ a = b := by rintro rfl; exact ha hb
        simp [ha, hb]
      · simp [ha, hb]
    · have : ¬ (a = d ∧ b = d) := by rintro ⟨rfl, rfl⟩; exact hm hd
      simp [hm, at_unlisted hA h hm, this]

/-- **C20** (sparse matrix): for every constrained degree of freedom the row and the column are zero but
for the prescribed diagonal value; every other entry is unchanged; no entry appears or disappears. -/
theorem modifyTangent_crs {A : Crs K} (hA : Admissible pairs) (h : HasPattern A pairs) (diagonal : K)
    (sets : NodeSets) (ids : List ℕ) (dim : ℕ) (bcs : List (BoundaryCondition K))
    (hw : WellPosed sets ids bcs)
    (hdiag : ∀ d, Constrained sets ids dim bcs d → (d, d) ∈ pairs) :
    ∃ B, modifyTangent sets ids dim diagonal bcs A = some B ∧ HasPattern B pairs ∧
      ∀ a b, B.at? a b =
        (A.at? a b).map (imposed (Constrained sets ids dim bcs) diagonal a b) :=
  modifyTangent_effect Crs.at? (HasPattern · pairs) diagonal (fun d => (d, d) ∈ pairs)
    (fun A d hA' hd => crs_constrainDof hA hA' diagonal hd) sets ids dim bcs A h hw hdiag

/-! ### The dense container -/

/-- A dense container holds `numRows²` values. -/
def Dense.WF (A : Dense K) : Prop := A.data.length = A.numRows * A.numRows

theorem dense_slot_lt {n i j : ℕ} (hi : i < n) (hj : j < n) : n * i + j < n * n := by
  have : n * (i + 1) ≤ n * n := Nat.mul_le_mul_left n hi
  rw [Nat.mul_add, Nat.mul_one] at this
  omega

theorem dense_slot_inj {n i j i' j' : ℕ} (hj : j < n) (hj' : j' < n) (h : n * i + j = n * i' + j') :
    i = i' ∧ j = j' := by
  have e1 : (n * i + j) / n = i := by
    rw [Nat.mul_add_div (by omega), Nat.div_eq_of_lt hj, Nat.add_zero]
  have e2 : (n * i' + j') / n = i' := by
    rw [Nat.mul_add_div (by omega), Nat.div_eq_of_lt hj', Nat.add_zero]
  have : i = i' := by rw [← e1, ← e2, h]
  subst this
  exact ⟨rfl, by omega⟩

/-- Values of a dense matrix inside its square. -/
def Dense.val (A : Dense K) (n i j : ℕ) : Option K := if i < n ∧ j < n then A.at? i j else none

theorem foldl_set_image (f : ℕ → ℕ) (ks : List ℕ) (l : List K) (v : K) :
    ks.foldl (fun (l : List K) k => l.set (f k) v) l = (ks.map f).foldl (fun (l : List K) k => l.set k v) l := by
  rw [List.foldl_map]

theorem foldl_set_length (ks : List ℕ) (l : List K) (v : K) :
    (ks.foldl (fun (l : List K) k => l.set k v) l).length = l.length := by
  induction ks generalizing l with
  | nil => rfl
  | cons k ks ih => simp only [List.foldl_cons]; rw [ih]; simp

theorem dense_constrainDof (n : ℕ) {A : Dense K} (h : A.WF ∧ A.numRows = n) (diagonal : K) {d : ℕ}
    (hd : d < n) :
    ∃ B, constrainDof diagonal A d = some B ∧
      Effect (fun (A : Dense K) => A.val n) (fun A => A.WF ∧ A.numRows = n) diagonal A B
        fun e => e = d := by
  obtain ⟨hwf, rfl⟩ := h
  set n := A.numRows with hn
  have hl : A.data.length = n * n := hwf
  set A1 := A.setRowValues d 0 with hA1
  set A2 := A1.setColumnValues d 0 with hA2
  have hn1 : A1.numRows = n := rfl
  have hn2 : A2.numRows = n := rfl
  have hl1 : A1.data.length = n * n := by
    simp only [hA1, Dense.setRowValues]
    rw [foldl_set_image, foldl_set_length]; exact hl
  have hl2 : A2.data.length = n * n := by
    simp only [hA2, Dense.setColumnValues]
    rw [foldl_set_image, foldl_set_length]; exact hl1
  have v1 : ∀ a b, a < n → b < n → A1.data[n * a + b]? = if a = d then some 0 else A.data[n * a + b]? := by
    intro a b ha hb
    simp only [hA1, Dense.setRowValues]
    rw [foldl_set_image, foldl_set_getElem?, hl]
    by_cases e : a = d
    · subst e
      rw [if_pos, if_pos rfl]
      exact ⟨List.mem_map.mpr ⟨b, List.mem_range.mpr hb, rfl⟩, dense_slot_lt ha hb⟩
    · rw [if_neg, if_neg e]
      rintro ⟨hm, _⟩
      obtain ⟨k, hk, he⟩ := List.mem_map.mp hm
      exact e (dense_slot_inj (List.mem_range.mp hk) hb he).1.symm
  have v2 : ∀ a b, a < n → b < n → A2.data[n * a + b]? = if b = d then some 0 else A1.data[n * a + b]? := by
    intro a b ha hb
    simp only [hA2, Dense.setColumnValues]
    rw [foldl_set_image, foldl_set_getElem?, hl1, hn1]
    by_cases e : b = d
    · subst e
      rw [if_pos, if_pos rfl]
      exact ⟨List.mem_map.mpr ⟨a, List.mem_range.mpr ha, rfl⟩, dense_slot_lt ha hb⟩
    · rw [if_neg, if_neg e]
      rintro ⟨hm, _⟩
      obtain ⟨k, hk, he⟩ := List.mem_map.mp hm
      exact e (dense_slot_inj hd hb he).2.symm
  have hslot := dense_slot_lt hd hd
  refine ⟨{ A2 with data := A2.data.set (n * d + d) diagonal }, ?_, ⟨?_, hn2⟩, ?_⟩
  · have hsl : A2.numRows * d + d < A2.data.length := by rw [hn2, hl2]; exact hslot
    simp only [constrainDof, TangentMatrix.setRow, TangentMatrix.setCol, TangentMatrix.setAt,
      Dense.setEntry]
    rw [if_pos (show d < A.numRows from hd)]
    simp only [Option.bind_some]
    rw [← hA1, if_pos (show d < A1.numRows from hd)]
    simp only [Option.bind_some]
    rw [← hA2, if_pos hsl]
    rfl
  · simp only [Dense.WF, List.length_set, hl2]
    rfl
  · intro a b
    simp only [Dense.val, Dense.at?]
    by_cases hab : a < n ∧ b < n
    · obtain ⟨ha, hb⟩ := hab
      rw [if_pos ⟨ha, hb⟩, if_pos ⟨ha, hb⟩]
      show (A2.data.set (n * d + d) diagonal)[n * a + b]? = _
      have hx : A.data[n * a + b]? = some (A.data[n * a + b]'(by rw [hl]; exact dense_slot_lt ha hb)) := by
        simp [hl, dense_slot_lt ha hb]
      by_cases e : a = d ∧ b = d
      · obtain ⟨rfl, rfl⟩ := e
        rw [List.getElem?_set_self (by rw [hl2]; exact hslot), ← hn, hx]
        simp [imposed]
      · rw [List.getElem?_set_ne (fun he => e (by
          obtain ⟨p, q⟩ := dense_slot_inj hd hb he; exact ⟨p.symm, q.symm⟩))]
        rw [v2 a b ha hb, v1 a b ha hb, ← hn, hx]
        simp only [Option.map_some, imposed]
        by_cases ha' : a = d <;> by_cases hb' : b = d
        · exact absurd ⟨ha', hb'⟩ e
        · have : ¬ a = b := by rintro rfl; exact hb' ha'
          simp [ha', hb', Ne.symm hb']
        · have : ¬ a = b := by rintro rfl; exact ha' hb'
          simp [ha', hb']
        · simp [ha', hb']
    · rw [if_neg hab, if_neg hab]; rfl

/-- **C20** (dense matrix). -/
theorem modifyTangent_dense {A : Dense K} (hA : A.WF) (diagonal : K)
    (sets : NodeSets) (ids : List ℕ) (dim : ℕ) (bcs : List (BoundaryCondition K))
    (hw : WellPosed sets ids bcs)
    (hdiag : ∀ d, Constrained sets ids dim bcs d → d < A.numRows) :
    ∃ B, modifyTangent sets ids dim diagonal bcs A = some B ∧ B.numRows = A.numRows ∧
      ∀ a b, a < A.numRows → b < A.numRows → B.at? a b =
        (A.at? a b).map (imposed (Constrained sets ids dim bcs) diagonal a b) := by
  obtain ⟨B, hB, ⟨_, hr⟩, hv⟩ := modifyTangent_effect (fun (A : Dense K) => A.val A.numRows)
    (fun B => B.WF ∧ B.numRows = A.numRows) diagonal (fun d => d < A.numRows)
    (fun D d hD hd => by
      obtain ⟨B, h1, h2, h3⟩ := dense_constrainDof A.numRows hD diagonal hd
      refine ⟨B, h1, h2, ?_⟩
      intro a b
      have := h3 a b
      simp only [h2.2, hD.2] at this ⊢
      exact this) sets ids dim bcs A ⟨hA, rfl⟩ hw hdiag
  refine ⟨B, hB, hr, fun a b ha hb => ?_⟩
  have := hv a b
  simp only [Dense.val, hr, ha, hb, and_self, if_true] at this
  exact this

/-! ### The right-hand side and the solution -/

theorem zeroNodes_spec (ids : List ℕ) (dim coordinate : ℕ) (ns : List ℕ) (rhs : ℕ → K)
    (hns : ∀ n ∈ ns, n < ids.length) :
    ∃ r, zeroNodes ids dim coordinate ns rhs = some r ∧
      ∀ d, r d = if (∃ n ∈ ns, ∃ g, ids[n]? = some g ∧ d = g * dim + coordinate) then 0 else rhs d := by
  induction ns generalizing rhs with
  | nil => exact ⟨rhs, rfl, by simp⟩
  | cons n ns ih =>
    have hn := hns n List.mem_cons_self
    obtain ⟨r, hr, hv⟩ := ih (upd rhs (ids[n] * dim + coordinate) 0)
      (fun m hm => hns m (List.mem_cons_of_mem _ hm))
    refine ⟨r, ?_, ?_⟩
    · simp [zeroNodes, dofOf, hn, hr]
    · intro d
      rw [hv]
      simp only [List.mem_cons, exists_eq_or_imp, List.getElem?_eq_getElem hn, Option.some.injEq,
        exists_eq_left', upd]
      by_cases h1 : d = ids[n] * dim + coordinate
      · simp [h1]
      · simp [h1]

/-- `ModifyRHSForKinematicBC` zeroes exactly the constrained entries. -/
theorem modifyRhs_spec (sets : NodeSets) (ids : List ℕ) (dim : ℕ) (bcs : List (BoundaryCondition K))
    (rhs : ℕ → K) (hw : WellPosed sets ids bcs) :
    ∃ r, modifyRhs sets ids dim bcs rhs = some r ∧
      ∀ d, r d = if Constrained sets ids dim bcs d then 0 else rhs d := by
  induction bcs generalizing rhs with
  | nil => exact ⟨rhs, rfl, by simp [Constrained]⟩
  | cons bc bcs ih =>
    obtain ⟨ns, hns, hlt⟩ := hw bc List.mem_cons_self
    have hw' : WellPosed sets ids bcs := fun b hb => hw b (List.mem_cons_of_mem _ hb)
    by_cases hk : bc.type = .prescribedDisplacement ∨ bc.type = .prescribedVelocity
    · have hkin : bc.isKinematic = true := by simpa [BoundaryCondition.isKinematic] using hk
      obtain ⟨r1, hr1, hv1⟩ := zeroNodes_spec ids dim bc.coordinate ns rhs hlt
      obtain ⟨r, hr, hv⟩ := ih r1 hw'
      refine ⟨r, by simp [modifyRhs, hns, hkin, hr1, hr], fun d => ?_⟩
      rw [hv, hv1]
      have : Constrained sets ids dim (bc :: bcs) d ↔
          (∃ n ∈ ns, ∃ g, ids[n]? = some g ∧ d = g * dim + bc.coordinate) ∨
            Constrained sets ids dim bcs d := by
        constructor
        · rintro ⟨b, hb, hbk, ns', hns', r⟩
          rcases List.mem_cons.mp hb with rfl | hb
          · rw [hns] at hns'; cases hns'; exact Or.inl r
          · exact Or.inr ⟨b, hb, hbk, ns', hns', r⟩
        · rintro (⟨n, hn, g, hg, hd⟩ | ⟨b, hb, r⟩)
          · exact ⟨bc, List.mem_cons_self, hk, ns, hns, n, hn, g, hg, hd⟩
          · exact ⟨b, List.mem_cons_of_mem _ hb, r⟩
      simp only [this]
      by_cases h1 : Constrained sets ids dim bcs d
      · simp [h1]
      · simp only [h1, or_false, if_false]
    · have hkin : bc.isKinematic = false := by
        simpa [BoundaryCondition.isKinematic] using hk
      obtain ⟨r, hr, hv⟩ := ih rhs hw'
      refine ⟨r, by simp [modifyRhs, hns, hkin, hr], fun d => ?_⟩
      rw [hv]
      have : Constrained sets ids dim (bc :: bcs) d ↔ Constrained sets ids dim bcs d := by
        constructor
        · rintro ⟨b, hb, hbk, r⟩
          rcases List.mem_cons.mp hb with rfl | hb
          · exact absurd hbk hk
          · exact ⟨b, hb, hbk, r⟩
        · rintro ⟨b, hb, r⟩; exact ⟨b, List.mem_cons_of_mem _ hb, r⟩
      simp only [this]

/-- **C20** (consequence for the solution): a solution `x` of the modified system with the modified
right-hand side has a zero increment at every constrained degree of freedom, and satisfies the
*original* equations at every unconstrained one. -/
theorem constrained_solution {A B : Crs K} (hA : Admissible pairs) (h : HasPattern A pairs)
    {diagonal : K} (hdg : diagonal ≠ 0) {sets : NodeSets} {ids : List ℕ} {dim : ℕ}
    {bcs : List (BoundaryCondition K)} (hw : WellPosed sets ids bcs)
    (hdiag : ∀ d, Constrained sets ids dim bcs d → (d, d) ∈ pairs)
    (hcols : ∀ p ∈ pairs, p.2 < A.numRows)
    {rhs rhs' x scratch : ℕ → K}
    (hB : modifyTangent sets ids dim diagonal bcs A = some B)
    (hr : modifyRhs sets ids dim bcs rhs = some rhs')
    (hx : ∀ i < A.numRows, B.matVec x scratch i = rhs' i) :
    (∀ d, Constrained sets ids dim bcs d → x d = 0) ∧
    (∀ i < A.numRows, ¬ Constrained sets ids dim bcs i → A.matVec x scratch i = rhs i) := by
  obtain ⟨B', hB', pB, vB⟩ := modifyTangent_crs hA h diagonal sets ids dim bcs hw hdiag
  rw [hB] at hB'; cases hB'
  obtain ⟨r', hr', hrv⟩ := modifyRhs_spec sets ids dim bcs rhs hw
  rw [hr] at hr'; cases hr'
  have hnum : B.numRows = A.numRows := by rw [pB.numRows_eq, h.numRows_eq]
  obtain ⟨mB, _⟩ := matVec_spec hA pB x scratch A.numRows hcols
  obtain ⟨mA, _⟩ := matVec_spec hA h x scratch A.numRows hcols
  have hzero : ∀ d, Constrained sets ids dim bcs d → x d = 0 := by
    intro d hd
    have hdn : d < A.numRows := h.row_lt (hdiag d hd)
    have e := hx d hdn
    rw [mB d (by omega), hrv d, if_pos hd] at e
    have hsome := Option.isSome_iff_exists.mp ((at_isSome_iff hA h d d).mpr (hdiag d hd))
    obtain ⟨v, hv⟩ := hsome
    have : ∑ j ∈ Finset.range A.numRows, (B.at? d j).getD 0 * x j = diagonal * x d := by
      rw [Finset.sum_eq_single_of_mem d (Finset.mem_range.mpr hdn)]
      · rw [vB, hv]; simp [imposed, hd]
      · intro j _ hj
        rw [vB]
        cases A.at? d j with
        | none => simp
        | some w => simp [imposed, hd, Ne.symm hj]
    rw [this] at e
    exact (mul_eq_zero.mp e).resolve_left hdg
  refine ⟨hzero, ?_⟩
  intro i hi hc
  have e := hx i hi
  rw [mB i (by omega), hrv i, if_neg hc] at e
  rw [mA i hi, ← e]
  refine Finset.sum_congr rfl fun j _ => ?_
  rw [vB]
  by_cases hj : Constrained sets ids dim bcs j
  · simp [hzero j hj]
  · cases A.at? i j with
    | none => simp
    | some w => simp [imposed, hc, hj]

/-! ### Concrete case

A 3×3 tridiagonal matrix with degree of freedom 1 (node 1, one-dimensional numbering) constrained by a
prescribed displacement. -/

/-- Node set 7 holds node 1. -/
def exSets : NodeSets := fun i => if i = 7 then some [1] else none

/-- A prescribed displacement on set 7 and an initial velocity on the same set. -/
def exBcs : List (BoundaryCondition ℚ) :=
  [⟨.prescribedDisplacement, 7, 0, .inl 5⟩, ⟨.initialVelocity, 7, 0, .inl 1⟩]

theorem exBcs_wellPosed : WellPosed exSets [0, 1, 2] exBcs := by
  intro bc hb
  simp only [exBcs, List.mem_cons, List.not_mem_nil, or_false] at hb
  rcases hb with rfl | rfl <;> exact ⟨[1], rfl, by simp⟩

theorem exBcs_constrained (d : ℕ) : Constrained exSets [0, 1, 2] 1 exBcs d ↔ d = 1 := by
  constructor
  · rintro ⟨bc, hb, hk, ns, hns, n, hn, g, hg, hd⟩
    simp only [exBcs, List.mem_cons, List.not_mem_nil, or_false] at hb
    rcases hb with rfl | rfl
    · simp only [exSets, if_true, Option.some.injEq] at hns
      subst hns
      simp only [List.mem_singleton] at hn
      subst hn
      simp at hg
      simp only at hd
      omega
    · simp at hk
  · rintro rfl
    exact ⟨_, List.mem_cons_self, Or.inl rfl, [1], rfl, 1, by simp, 1, rfl, rfl⟩

/-- The stiffness of a chain of three springs. -/
def exMatrix : Crs ℚ := { allocated (Crs.empty : Crs ℚ) tri3 with data := [2, -1, -1, 2, -1, -1, 2] }

theorem exMatrix_pattern : HasPattern exMatrix tri3 := ⟨Crs.empty, [2, -1, -1, 2, -1, -1, 2], rfl, rfl⟩

example : ∃ B, modifyTangent exSets [0, 1, 2] 1 (2 : ℚ) exBcs exMatrix = some B ∧
    B.at? 1 1 = some 2 ∧ B.at? 0 1 = some 0 ∧ B.at? 1 2 = some 0 ∧ B.at? 2 2 = some 2 := by
  obtain ⟨B, h1, h2, h3⟩ := modifyTangent_crs tri3_admissible exMatrix_pattern (2 : ℚ) exSets [0, 1, 2] 1
    exBcs exBcs_wellPosed (fun d hd => by rw [exBcs_constrained] at hd; subst hd; decide)
  refine ⟨B, h1, ?_⟩
  have v11 : exMatrix.at? 1 1 = some 2 := by decide +kernel
  have v01 : exMatrix.at? 0 1 = some (-1) := by decide +kernel
  have v12 : exMatrix.at? 1 2 = some (-1) := by decide +kernel
  have v22 : exMatrix.at? 2 2 = some 2 := by decide +kernel
  simp only [h3, v11, v01, v12, v22, Option.map_some, imposed, exBcs_constrained]
  norm_num

/-- Finding: `node_sets_.at(-1)` throws as soon as one condition of the list (for example a traction) is not
on a node set, even when all kinematic conditions are fine. -/
theorem modifyTangent_traction_throws (A : Crs ℚ) :
    modifyTangent exSets [0, 1, 2] 1 (2 : ℚ) [⟨.prescribedTraction, -1, 0, .inl 1⟩] A = none := rfl

end NimbleSM.Solver
