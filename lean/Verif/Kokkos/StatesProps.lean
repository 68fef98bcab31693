import Verif.Kokkos.RegistryProps
import Mathlib.Data.List.Perm.Basic
import Mathlib.Tactic.IntervalCases

/-!
# Initialisation and advance of the integration-point state (C97)

`InitializeBlocks` creates, in every block, a deformation gradient equal to the identity and a zero stress;
`UpdateStates` copies the new state over the old state of exactly these fields.  With a material that has
state variables, `UpdateStates` never returns.
-/

namespace NimbleSM.Kokkos.Registry

variable {K : Type*}

/-! ## Specification -/

/-- The entries of a full tensor (ordering xx, yy, zz, xy, yz, zx, yx, zy, xz) of the identity. -/
def identity9 [Zero K] [One K] : ℕ → K := fun i => if i < 3 then 1 else 0

/-- The table after the old state has been replaced by the new state for the named fields of the listed
blocks. -/
def Table.advance (bs : List ℤ) (T : Table K) : Table K := fun p l =>
  match p with
  | .ipt b .n => if b ∈ bs ∧ (l = "deformation_gradient" ∨ l = "stress") then
      (T (.ipt b .n) l).bind fun f => (T (.ipt b .np1) l).map fun g => { f with data := g.data }
    else T p l
  | _ => T p l

/-! ## `InitializeBlocks` as a history of calls -/

/-- The calls made for one block. -/
def blockOps [Zero K] [One K] (wantVolume : Bool) (b : BlockInfo) : List (Op K) :=
  [.allocIpt b.id .fullTensor "deformation_gradient" b.numElem [1, 1, 1, 0, 0, 0, 0, 0, 0],
   .allocElem b.id .fullTensor "deformation_gradient" b.numElem,
   .allocIpt b.id .symTensor "stress" b.numElem [],
   .allocIpt b.id .symTensor "stress" b.numElem [],
   .allocElem b.id .symTensor "stress" b.numElem]
  ++ (if wantVolume then [.allocElem b.id .scalar "volume" b.numElem] else [])
  ++ (if b.hasState then
      [.allocIpt b.id .symTensor "state_sym_tensor" b.numElem [],
       .allocIpt b.id .fullTensor "state_full_tensor" b.numElem [],
       .allocIpt b.id .scalar "state_scalar" b.numElem [],
       .allocIpt b.id .vector "state_vec3D" b.numElem []] else [])

theorem run_append [Zero K] (a b : List (Op K)) (md : Md K) :
    run (a ++ b) md = (run a md).bind (run b) := by
  simp [run, List.foldlM_append]; rfl

theorem run_id [Zero K] (ops : List (Op K)) {md md' : Md K} {T : Table K} (hR : Rep md T)
    (h : run ops md = some md') {l i} (hi : getFieldId md l = some i) : getFieldId md' l = some i := by
  induction ops generalizing md T with
  | nil => cases h; exact hi
  | cons op ops ih =>
    simp only [run, List.foldlM_cons, Option.bind_eq_bind, Option.bind_eq_some_iff] at h
    obtain ⟨m, hm, h⟩ := h
    exact ih (step_rep hR hm) h (step_id hR hm hi)

theorem ipt_id [Zero K] {md md' : Md K} (h : WF md) {b len l n v id}
    (e : allocateIntegrationPointData md b len l n v = some (md', id)) : getFieldId md' l = some id := by
  have h1 := allocIpt_spec h e
  have := (register_wf h l).2.1
  simpa [getFieldId, h1.2.2.1, h1.2.1] using this

theorem ipt_step [Zero K] {md md' : Md K} {b len l n v id}
    (e : allocateIntegrationPointData md b len l n v = some (md', id)) :
    step md (.allocIpt b len l n v) = some md' := by simp [step, e]

theorem elem_step [Zero K] {md md' : Md K} {b len l n id}
    (e : allocateElementData md b len l n = some (md', id)) :
    step md (.allocElem b len l n) = some md' := by simp [step, e]

theorem initBlock_run [Zero K] [One K] {wv : Bool} {b : BlockInfo} {md md' : Md K} {ids ids' : FieldIds}
    {T : Table K} (hR : Rep md T) (e : initBlock wv b (md, ids) = some (md', ids')) :
    run (blockOps wv b) md = some md' ∧
    getFieldId md' "deformation_gradient" = some ids'.deformation_gradient ∧
    getFieldId md' "stress" = some ids'.stress ∧
    ids'.unrotated_stress = ids'.stress ∧
    (b.hasState = true → ∃ i, ids'.state_sym_tensor = some i ∧ getFieldId md' "state_sym_tensor" = some i) ∧
    (b.hasState = false → ids'.state_sym_tensor = ids.state_sym_tensor) := by
  unfold initBlock at e
  simp only [Option.bind_eq_bind, Option.bind_eq_some_iff, Prod.exists] at e
  obtain ⟨m1, dg, e1, m2, _, e2, m3, st, e3, m4, ust, e4, m5, _, e5, m6, e6, e7⟩ := e
  have R1 := step_rep hR (ipt_step e1)
  have R2 := step_rep R1 (elem_step e2)
  have R3 := step_rep R2 (ipt_step e3)
  have R4 := step_rep R3 (ipt_step e4)
  have R5 := step_rep R4 (elem_step e5)
  have i1 := ipt_id hR.1 e1
  have i3 := ipt_id R2.1 e3
  have i4 := ipt_id R3.1 e4
  have i14 := step_id R4 (elem_step e5) (step_id R3 (ipt_step e4) (step_id R2 (ipt_step e3)
    (step_id R1 (elem_step e2) i1)))
  have i34 := step_id R3 (ipt_step e4) i3
  have hust : ust = st := by rw [i34] at i4; exact (Option.some.inj i4).symm
  have i35 := step_id R4 (elem_step e5) i34
  -- the optional volume
  have h6 : run (if wv then [.allocElem b.id .scalar "volume" b.numElem] else []) m5 = some m6 := by
    cases wv
    · simpa [run, initVolume] using e6
    · simp only [initVolume, if_true, Option.map_eq_some_iff, Prod.exists, exists_and_right, exists_eq_right] at e6
      obtain ⟨x, e6⟩ := e6
      simp [run, elem_step e6]
  have R6 := run_rep _ R5 h6
  have i16 := run_id _ R5 h6 i14
  have i36 := run_id _ R5 h6 i35
  have hrun5 : run [.allocIpt b.id .fullTensor "deformation_gradient" b.numElem [1, 1, 1, 0, 0, 0, 0, 0, 0],
      .allocElem b.id .fullTensor "deformation_gradient" b.numElem,
      .allocIpt b.id .symTensor "stress" b.numElem [],
      .allocIpt b.id .symTensor "stress" b.numElem [],
      .allocElem b.id .symTensor "stress" b.numElem] md = some m5 := by
    simp [run, ipt_step e1, elem_step e2, ipt_step e3, ipt_step e4, elem_step e5]
  cases hs : b.hasState with
  | false =>
    simp only [hs, Bool.false_eq_true, if_false, Option.some.injEq, Prod.mk.injEq] at e7
    obtain ⟨rfl, rfl⟩ := e7
    refine ⟨?_, i16, i36, hust, by simp, by simp⟩
    simp only [blockOps, hs, Bool.false_eq_true, if_false, List.append_nil, run_append, hrun5, Option.bind_some, h6]
  | true =>
    simp only [hs, if_true, initState, Option.bind_eq_bind, Option.bind_eq_some_iff, Prod.exists] at e7
    obtain ⟨m7, s6, e7, m8, s9, e8, m9, s1, e9, m10, s3, e10, e11⟩ := e7
    simp only [Option.some.injEq, Prod.mk.injEq] at e11
    obtain ⟨rfl, rfl⟩ := e11
    have R7 := step_rep R6 (ipt_step e7)
    have R8 := step_rep R7 (ipt_step e8)
    have R9 := step_rep R8 (ipt_step e9)
    have h10 : run [.allocIpt b.id .symTensor "state_sym_tensor" b.numElem [],
       .allocIpt b.id .fullTensor "state_full_tensor" b.numElem [],
       .allocIpt b.id .scalar "state_scalar" b.numElem [],
       .allocIpt b.id .vector "state_vec3D" b.numElem []] m6 = some m10 := by
      simp [run, ipt_step e7, ipt_step e8, ipt_step e9, ipt_step e10]
    refine ⟨?_, run_id _ R6 h10 i16, run_id _ R6 h10 i36, hust, fun _ => ⟨s6, rfl, ?_⟩, by simp⟩
    · simp only [blockOps, hs, if_true, run_append, hrun5, Option.bind_some, h6, h10]
    · exact step_id R9 (ipt_step e10) (step_id R8 (ipt_step e9) (step_id R7 (ipt_step e8) (ipt_id R6.1 e7)))

theorem alloc_ipt_isSome [Zero K] {md : Md K} {T : Table K} (hR : Rep md T) (b : ℤ) (len : Length) (l : String)
    (n : ℕ) (v : List K) (h : T.accepts (.allocIpt b len l n v)) :
    ∃ md' id, allocateIntegrationPointData md b len l n v = some (md', id) := by
  have := (step_isSome hR (.allocIpt b len l n v)).2 h
  simp only [step, Option.isSome_map, Option.isSome_iff_exists, Prod.exists] at this
  exact this

theorem alloc_elem_isSome [Zero K] {md : Md K} {T : Table K} (hR : Rep md T) (b : ℤ) (len : Length) (l : String)
    (n : ℕ) (h : T.accepts (.allocElem b len l n)) :
    ∃ md' id, allocateElementData md b len l n = some (md', id) := by
  have := (step_isSome hR (.allocElem b len l n)).2 h
  simp only [step, Option.isSome_map, Option.isSome_iff_exists, Prod.exists] at this
  exact this

theorem initBlock_isSome [Zero K] [One K] (wv : Bool) (b : BlockInfo) {md : Md K} (ids : FieldIds)
    {T : Table K} (hR : Rep md T) : ∃ md' ids', initBlock wv b (md, ids) = some (md', ids') := by
  obtain ⟨m1, dg, e1⟩ := alloc_ipt_isSome hR b.id .fullTensor "deformation_gradient" b.numElem
    [1, 1, 1, 0, 0, 0, 0, 0, 0] (by simp [Table.accepts, classAt, entriesOf])
  have R1 := step_rep hR (ipt_step e1)
  obtain ⟨m2, x2, e2⟩ := alloc_elem_isSome R1 b.id .fullTensor "deformation_gradient" b.numElem
    (by simp [Table.accepts, classAt])
  have R2 := step_rep R1 (elem_step e2)
  obtain ⟨m3, st, e3⟩ := alloc_ipt_isSome R2 b.id .symTensor "stress" b.numElem []
    (by simp [Table.accepts, classAt])
  have R3 := step_rep R2 (ipt_step e3)
  obtain ⟨m4, ust, e4⟩ := alloc_ipt_isSome R3 b.id .symTensor "stress" b.numElem []
    (by simp [Table.accepts, classAt])
  have R4 := step_rep R3 (ipt_step e4)
  obtain ⟨m5, x5, e5⟩ := alloc_elem_isSome R4 b.id .symTensor "stress" b.numElem
    (by simp [Table.accepts, classAt])
  have R5 := step_rep R4 (elem_step e5)
  obtain ⟨m6, T6, h6, R6⟩ : ∃ m6 T6, initVolume wv b m5 = some m6 ∧ Rep m6 T6 := by
    cases wv
    · exact ⟨m5, _, rfl, R5⟩
    · obtain ⟨m6, x6, e6⟩ := alloc_elem_isSome R5 b.id .scalar "volume" b.numElem (by simp [Table.accepts, classAt])
      exact ⟨m6, _, by simp [initVolume, e6], step_rep R5 (elem_step e6)⟩
  obtain ⟨m7, s6, e7⟩ := alloc_ipt_isSome R6 b.id .symTensor "state_sym_tensor" b.numElem []
    (by simp [Table.accepts, classAt])
  have R7 := step_rep R6 (ipt_step e7)
  obtain ⟨m8, s9, e8⟩ := alloc_ipt_isSome R7 b.id .fullTensor "state_full_tensor" b.numElem []
    (by simp [Table.accepts, classAt])
  have R8 := step_rep R7 (ipt_step e8)
  obtain ⟨m9, s1, e9⟩ := alloc_ipt_isSome R8 b.id .scalar "state_scalar" b.numElem []
    (by simp [Table.accepts, classAt])
  have R9 := step_rep R8 (ipt_step e9)
  obtain ⟨m10, s3, e10⟩ := alloc_ipt_isSome R9 b.id .vector "state_vec3D" b.numElem []
    (by simp [Table.accepts, classAt])
  unfold initBlock initState
  simp only [Option.bind_eq_bind, e1, e2, e3, e4, e5, h6, e7, e8, e9, e10, Option.bind_some]
  cases b.hasState <;> simp

/-- The calls of `InitializeBlocks`. -/
def initOps [Zero K] [One K] (wv : Bool) (blocks : List BlockInfo) : List (Op K) :=
  blocks.flatMap (blockOps wv)

theorem initializeBlocks_run [Zero K] [One K] {wv : Bool} (blocks : List BlockInfo) {md md' : Md K}
    {ids ids' : FieldIds} {T : Table K} (hR : Rep md T)
    (e : initializeBlocks wv blocks md ids = some (md', ids')) :
    run (initOps wv blocks) md = some md' ∧
    (blocks ≠ [] → getFieldId md' "deformation_gradient" = some ids'.deformation_gradient ∧
      getFieldId md' "stress" = some ids'.stress ∧ ids'.unrotated_stress = ids'.stress) ∧
    (((∃ b ∈ blocks, b.hasState = true) ∨ ∃ i, ids.state_sym_tensor = some i ∧
        getFieldId md "state_sym_tensor" = some i) →
      ∃ i, ids'.state_sym_tensor = some i ∧ getFieldId md' "state_sym_tensor" = some i) := by
  induction blocks generalizing md ids T with
  | nil => cases e; simp [run, initOps]
  | cons b bs ih =>
    simp only [initializeBlocks, List.foldlM_cons, Option.bind_eq_bind, Option.bind_eq_some_iff, Prod.exists] at e
    obtain ⟨m, ids1, e1, e2⟩ := e
    obtain ⟨r1, d1, s1, u1, st1, ns1⟩ := initBlock_run hR e1
    have R1 := run_rep _ hR r1
    obtain ⟨r2, h2, st2⟩ := ih R1 e2
    refine ⟨?_, fun _ => ?_, fun h => st2 ?_⟩
    · simp only [initOps, List.flatMap_cons, run_append, r1, Option.bind_some]; exact r2
    · by_cases hbs : bs = []
      · subst hbs; cases e2; exact ⟨d1, s1, u1⟩
      · exact h2 hbs
    · cases hs : b.hasState with
      | true => exact Or.inr (st1 hs)
      | false =>
        rcases h with ⟨c, hc, hcs⟩ | ⟨i, hi, hgi⟩
        · rcases List.mem_cons.1 hc with rfl | hc
          · rw [hs] at hcs; cases hcs
          · exact Or.inl ⟨c, hc, hcs⟩
        · exact Or.inr ⟨i, by rw [ns1 hs, hi], run_id _ hR r1 hgi⟩

/-- **C97.**  `InitializeBlocks` always returns, whatever was allocated before. -/
theorem initializeBlocks_returns [Zero K] [One K] (wv : Bool) (blocks : List BlockInfo) (ops : List (Op K))
    (md : Md K) (h : run ops empty = some md) (ids : FieldIds) :
    (initializeBlocks wv blocks md ids).isSome := by
  have hR := run_rep ops rep_empty h
  generalize Table.run ops noFields = T at hR
  clear h
  induction blocks generalizing md ids T with
  | nil => simp [initializeBlocks]
  | cons b bs ih =>
    obtain ⟨m, ids1, e⟩ := initBlock_isSome wv b ids hR
    have := ih m ids1 _ (run_rep _ hR (initBlock_run hR e).1)
    simpa [initializeBlocks, e] using this

/-! ## The table after `InitializeBlocks` -/

/-- What `InitializeBlocks` has put in the table for a block. -/
def Initial [Zero K] [One K] (T : Table K) (b : BlockInfo) : Prop :=
  (∀ s, T (.ipt b.id s) "deformation_gradient"
      = some (fresh .fullTensorIntPt b.numElem [1, 1, 1, 0, 0, 0, 0, 0, 0])) ∧
  (∀ s, T (.ipt b.id s) "stress" = some (fresh .symTensorIntPt b.numElem [])) ∧
  (b.hasState = true → ∀ s, T (.ipt b.id s) "state_sym_tensor" = some (fresh .symTensorIntPt b.numElem []))

theorem blockOps_initial [Zero K] [One K] (wv : Bool) (b : BlockInfo) (T : Table K) :
    Initial (Table.run (blockOps wv b) T) b := by
  refine ⟨fun s => ?_, fun s => ?_, fun hs s => ?_⟩
  · cases s <;> cases wv <;> cases hs : b.hasState <;>
      simp [blockOps, hs, Table.run, Table.step, Table.put, classAt]
  · cases s <;> cases wv <;> cases hs : b.hasState <;>
      simp [blockOps, hs, Table.run, Table.step, Table.put, classAt]
  · cases s <;> cases wv <;> simp [blockOps, hs, Table.run, Table.step, Table.put, classAt]

theorem blockOps_other [Zero K] [One K] (wv : Bool) (b : BlockInfo) (T : Table K) (c : ℤ) (hc : c ≠ b.id)
    (s : Step) (l : String) : Table.run (blockOps wv b) T (.ipt c s) l = T (.ipt c s) l := by
  cases wv <;> cases hs : b.hasState <;>
    simp [blockOps, hs, Table.run, Table.step, Table.put, classAt, hc]

theorem initOps_initial [Zero K] [One K] (wv : Bool) (blocks : List BlockInfo)
    (hnd : (blocks.map (·.id)).Nodup) (T : Table K) :
    ∀ b ∈ blocks, Initial (Table.run (initOps wv blocks) T) b := by
  induction blocks generalizing T with
  | nil => simp
  | cons a bs ih =>
    simp only [List.map_cons, List.nodup_cons] at hnd
    have hrun : Table.run (initOps wv (a :: bs)) T = Table.run (initOps wv bs) (Table.run (blockOps wv a) T) := by
      simp [initOps, Table.run]
    rw [hrun]
    intro b hb
    rcases List.mem_cons.1 hb with rfl | hb
    · have key : ∀ (bs : List BlockInfo) (T : Table K), b.id ∉ bs.map (·.id) → ∀ s l,
          Table.run (initOps wv bs) T (.ipt b.id s) l = T (.ipt b.id s) l := by
        intro bs
        induction bs with
        | nil => intros; rfl
        | cons c cs ih2 =>
          intro T hb s l
          simp only [List.map_cons, List.mem_cons, not_or] at hb
          have : Table.run (initOps wv (c :: cs)) T = Table.run (initOps wv cs) (Table.run (blockOps wv c) T) := by
            simp [initOps, Table.run]
          rw [this, ih2 _ hb.2, blockOps_other wv c T _ hb.1]
      have h0 := blockOps_initial wv b T
      refine ⟨fun s => ?_, fun s => ?_, fun hs s => ?_⟩
      · rw [key bs _ hnd.1]; exact h0.1 s
      · rw [key bs _ hnd.1]; exact h0.2.1 s
      · rw [key bs _ hnd.1]; exact h0.2.2 hs s
    · exact ih hnd.2 _ b hb

/-! ## Advance -/

/-- The situation in which `UpdateStates` is called. -/
structure Ready (md : Md K) (T : Table K) (ids : FieldIds) (blocks : List BlockInfo) : Prop where
  rep : Rep md T
  dg : getFieldId md "deformation_gradient" = some ids.deformation_gradient
  st : getFieldId md "stress" = some ids.stress
  ust : ids.unrotated_stress = ids.stress
  fdg : ∀ b ∈ blocks, ∀ s, ∃ f, T (.ipt b.id s) "deformation_gradient" = some f ∧ f.type = .fullTensorIntPt ∧
    f.num = b.numElem
  fst : ∀ b ∈ blocks, ∀ s, ∃ f, T (.ipt b.id s) "stress" = some f ∧ f.type = .symTensorIntPt ∧ f.num = b.numElem
  sid : (∃ b ∈ blocks, b.hasState = true) →
    ∃ i, ids.state_sym_tensor = some i ∧ getFieldId md "state_sym_tensor" = some i
  fss : ∀ b ∈ blocks, b.hasState = true → ∀ s, ∃ f, T (.ipt b.id s) "state_sym_tensor" = some f ∧
    f.type = .symTensorIntPt

theorem copyStep_spec [Zero K] {md : Md K} {T : Table K} (hR : Rep md T) {l : String} {id : ℕ}
    (hid : getFieldId md l = some id) {b : ℤ} {t : FType} {f g : Fld K} (hf : T (.ipt b .n) l = some f)
    (hg : T (.ipt b .np1) l = some g) (hft : f.type = t) (hgt : g.type = t) :
    ∃ md', copyStep md b id t = some md' ∧ Rep md' (T.put (.ipt b .n) l { f with data := g.data }) ∧
      md'.labels = md.labels := by
  have h1 : getField md (.ipt b .n) id = some f := by
    have := hR.2 (.ipt b .n) l; rw [hid] at this; simpa [hf] using this
  have h2 : getField md (.ipt b .np1) id = some g := by
    have := hR.2 (.ipt b .np1) l; rw [hid] at this; simpa [hg] using this
  refine ⟨setData md (.ipt b .n) id g.data, ?_, ?_, (setData_spec hR.1 _ _ _).2.1⟩
  · simp [copyStep, get, h1, h2, hft, hgt]
  · have e : step md (.write (.ipt b .n) l t g.data) = some (setData md (.ipt b .n) id g.data) := by
      simp [step, hid, get, h1, hft]
    have := step_rep hR e
    simpa [Table.step, hf] using this

theorem put_type {T : Table K} {p : Place} {l : String} {f : Fld K} {d : ℕ → ℕ → ℕ → K} (hf : T p l = some f)
    {q : Place} {m : String} {g : Fld K} (hg : T q m = some g) :
    ∃ g', T.put p l { f with data := d } q m = some g' ∧ g'.type = g.type ∧ g'.num = g.num := by
  unfold Table.put
  split
  · rename_i h; obtain ⟨rfl, rfl⟩ := h
    rw [hf] at hg; cases hg
    exact ⟨_, rfl, rfl, rfl⟩
  · exact ⟨g, hg, rfl, rfl⟩

theorem Ready.put {md md' : Md K} {T : Table K} {ids : FieldIds} {blocks : List BlockInfo}
    (h : Ready md T ids blocks) {p : Place} {l : String} {f : Fld K} {d : ℕ → ℕ → ℕ → K} (hf : T p l = some f)
    (hR : Rep md' (T.put p l { f with data := d })) (hl : md'.labels = md.labels) :
    Ready md' (T.put p l { f with data := d }) ids blocks := by
  have hg : ∀ m, getFieldId md' m = getFieldId md m := fun m => by simp [getFieldId, hl]
  refine ⟨hR, by rw [hg]; exact h.dg, by rw [hg]; exact h.st, h.ust, ?_, ?_, ?_, ?_⟩
  · intro b hb s
    obtain ⟨g, h1, h2, h3⟩ := h.fdg b hb s
    obtain ⟨g', h4, h5, h6⟩ := put_type (d := d) hf h1
    exact ⟨g', h4, h5.trans h2, h6.trans h3⟩
  · intro b hb s
    obtain ⟨g, h1, h2, h3⟩ := h.fst b hb s
    obtain ⟨g', h4, h5, h6⟩ := put_type (d := d) hf h1
    exact ⟨g', h4, h5.trans h2, h6.trans h3⟩
  · intro hb; obtain ⟨i, h1, h2⟩ := h.sid hb; exact ⟨i, h1, by rw [hg]; exact h2⟩
  · intro b hb hs s
    obtain ⟨g, h1, h2⟩ := h.fss b hb hs s
    obtain ⟨g', h4, h5, -⟩ := put_type (d := d) hf h1
    exact ⟨g', h4, h5.trans h2⟩

theorem updateBlock_core [Zero K] {md : Md K} {T : Table K} {ids : FieldIds} {blocks : List BlockInfo}
    (h : Ready md T ids blocks) {b : BlockInfo} (hb : b ∈ blocks) :
    ∃ m3, Ready m3 (T.advance [b.id]) ids blocks ∧
      (copyStep md b.id ids.deformation_gradient .fullTensorIntPt).bind (fun m1 =>
        (copyStep m1 b.id ids.unrotated_stress .symTensorIntPt).bind fun m2 =>
          copyStep m2 b.id ids.stress .symTensorIntPt) = some m3 := by
  obtain ⟨f, hf, hft, -⟩ := h.fdg b hb .n
  obtain ⟨g, hg, hgt, -⟩ := h.fdg b hb .np1
  obtain ⟨m1, e1, R1, l1⟩ := copyStep_spec h.rep h.dg hf hg hft hgt
  have Q1 := h.put hf R1 l1
  obtain ⟨f2, hf2, hft2, -⟩ := h.fst b hb .n
  obtain ⟨g2, hg2, hgt2, -⟩ := h.fst b hb .np1
  have hf2' : T.put (.ipt b.id .n) "deformation_gradient" { f with data := g.data } (.ipt b.id .n) "stress" = some f2 := by
    simpa [Table.put] using hf2
  have hg2' : T.put (.ipt b.id .n) "deformation_gradient" { f with data := g.data } (.ipt b.id .np1) "stress" = some g2 := by
    simpa [Table.put] using hg2
  obtain ⟨m2, e2, R2, l2⟩ := copyStep_spec R1 Q1.st hf2' hg2' hft2 hgt2
  have Q2 := Q1.put hf2' R2 l2
  obtain ⟨m3, e3, R3, l3⟩ := copyStep_spec R2 Q2.st (b := b.id) (t := .symTensorIntPt)
    (f := { f2 with data := g2.data }) (g := g2) (by simp [Table.put]) (by simpa [Table.put] using hg2) hft2 hgt2
  have Q3 := Q2.put (f := { f2 with data := g2.data }) (by simp [Table.put]) R3 l3
  refine ⟨m3, ?_, by rw [h.ust, e1, Option.bind_some, e2, Option.bind_some, e3]⟩
  have hT : T.advance [b.id] = ((T.put (.ipt b.id .n) "deformation_gradient" { f with data := g.data }).put
      (.ipt b.id .n) "stress" { f2 with data := g2.data }).put (.ipt b.id .n) "stress"
      { f2 with data := g2.data } := by
    funext p l
    cases p with
    | node => simp [Table.advance, Table.put]
    | elem c => simp [Table.advance, Table.put]
    | ipt c s =>
      cases s with
      | np1 => simp [Table.advance, Table.put]
      | n =>
        by_cases hc : c = b.id
        · subst hc
          by_cases h1 : l = "deformation_gradient"
          · subst h1; simp [Table.advance, Table.put, hf, hg]
          · by_cases h2 : l = "stress"
            · subst h2; simp [Table.advance, Table.put, hf2, hg2]
            · simp [Table.advance, Table.put, h1, h2]
        · simp [Table.advance, Table.put, hc]
  rw [hT]; exact Q3

theorem updateBlock_eq (ids : FieldIds) (md : Md K) (b : BlockInfo) :
    updateBlock ids md b = ((copyStep md b.id ids.deformation_gradient .fullTensorIntPt).bind (fun m1 =>
        (copyStep m1 b.id ids.unrotated_stress .symTensorIntPt).bind fun m2 =>
          copyStep m2 b.id ids.stress .symTensorIntPt)).bind fun m3 =>
      if b.hasState then
        (copyState m3 b.id ids.state_sym_tensor).bind fun m4 =>
        (copyState m4 b.id ids.state_full_tensor).bind fun m5 =>
        (copyState m5 b.id ids.state_scalar).bind fun m6 =>
        copyState m6 b.id ids.state_vec3D
      else some m3 := by
  unfold updateBlock
  simp only [Option.bind_assoc]

theorem advance_cons (b : ℤ) (bs : List ℤ) (T : Table K) :
    (T.advance [b]).advance bs = T.advance (b :: bs) := by
  funext p l
  cases p with
  | node => rfl
  | elem c => rfl
  | ipt c s =>
    cases s with
    | np1 => rfl
    | n =>
      simp only [Table.advance, List.mem_cons, List.not_mem_nil, or_false]
      by_cases hc : c = b <;> by_cases hcs : c ∈ bs <;>
        by_cases hl : l = "deformation_gradient" ∨ l = "stress" <;> simp [hc, hcs, hl]
      all_goals
        try subst hc
        cases T (.ipt c .n) l <;> cases T (.ipt c .np1) l <;> simp

theorem updateStates_rep [Zero K] {ids : FieldIds} {blocks : List BlockInfo} (bs : List BlockInfo) {md : Md K}
    {T : Table K} (h : Ready md T ids blocks) (hsub : ∀ b ∈ bs, b ∈ blocks) (hns : ∀ b ∈ bs, b.hasState = false) :
    ∃ md', updateStates ids bs md = some md' ∧ Ready md' (T.advance (bs.map (·.id))) ids blocks := by
  induction bs generalizing md T with
  | nil =>
    refine ⟨md, rfl, ?_⟩
    have : T.advance ((([] : List BlockInfo)).map (·.id)) = T := by
      funext p l
      cases p with
      | node => rfl
      | elem c => rfl
      | ipt c s => cases s <;> simp [Table.advance]
    rw [this]; exact h
  | cons b bs ih =>
    obtain ⟨m3, R3, e3⟩ := updateBlock_core h (hsub b List.mem_cons_self)
    have e : updateBlock ids md b = some m3 := by
      rw [updateBlock_eq, e3]; simp [hns b List.mem_cons_self]
    obtain ⟨md', e', R'⟩ := ih R3 (fun c hc => hsub c (List.mem_cons_of_mem _ hc))
      (fun c hc => hns c (List.mem_cons_of_mem _ hc))
    refine ⟨md', ?_, ?_⟩
    · simpa [updateStates, e] using e'
    · rw [advance_cons] at R'; simpa using R'

theorem updateStates_state [Zero K] {ids : FieldIds} {blocks : List BlockInfo} (bs : List BlockInfo) {md : Md K}
    {T : Table K} (h : Ready md T ids blocks) (hsub : ∀ b ∈ bs, b ∈ blocks)
    (hs : ∃ b ∈ bs, b.hasState = true) : updateStates ids bs md = none := by
  induction bs generalizing md T with
  | nil => simp at hs
  | cons b bs ih =>
    obtain ⟨m3, R3, e3⟩ := updateBlock_core h (hsub b List.mem_cons_self)
    cases hb : b.hasState with
    | true =>
      obtain ⟨i, hi, hgi⟩ := R3.sid ⟨b, hsub b List.mem_cons_self, hb⟩
      obtain ⟨f, hf, hft⟩ := R3.fss b (hsub b List.mem_cons_self) hb .n
      have hgf : getField m3 (.ipt b.id .n) i = some f := by
        have := R3.rep.2 (.ipt b.id .n) "state_sym_tensor"; rw [hgi] at this; simpa [hf] using this
      have e : updateBlock ids md b = none := by
        rw [updateBlock_eq, e3]
        simp [hb, hi, copyState, copyStep, get, hgf, hft]
      simp [updateStates, e]
    | false =>
      have e : updateBlock ids md b = some m3 := by
        rw [updateBlock_eq, e3]; simp [hb]
      have hs' : ∃ c ∈ bs, c.hasState = true := by
        obtain ⟨c, hc, hcs⟩ := hs
        rcases List.mem_cons.1 hc with rfl | hc
        · rw [hb] at hcs; cases hcs
        · exact ⟨c, hc, hcs⟩
      have := ih R3 (fun c hc => hsub c (List.mem_cons_of_mem _ hc)) hs'
      simpa [updateStates, e] using this

/-! ## The theorems -/

/-- A write through a view. -/
def Op.isWrite : Op K → Bool
  | .write _ _ _ _ => true
  | _ => false

theorem ready_writes [Zero K] {ids : FieldIds} {blocks : List BlockInfo} (ws : List (Op K))
    (hws : ∀ o ∈ ws, o.isWrite = true) {md md' : Md K} {T : Table K} (h : Ready md T ids blocks)
    (e : run ws md = some md') : Ready md' (Table.run ws T) ids blocks := by
  induction ws generalizing md T with
  | nil => cases e; exact h
  | cons op ws ih =>
    simp only [run, List.foldlM_cons, Option.bind_eq_bind, Option.bind_eq_some_iff] at e
    obtain ⟨m, hm, e⟩ := e
    refine ih (fun o ho => hws o (List.mem_cons_of_mem _ ho)) ?_ e
    have hw := hws op List.mem_cons_self
    cases op with
    | allocNode _ _ _ => simp [Op.isWrite] at hw
    | allocElem _ _ _ _ => simp [Op.isWrite] at hw
    | allocIpt _ _ _ _ _ => simp [Op.isWrite] at hw
    | write p l t d =>
      have R := step_rep h.rep hm
      have hm' := hm
      simp only [step, Option.bind_eq_some_iff, Option.map_eq_some_iff] at hm'
      obtain ⟨id, hid, f, hf, rfl⟩ := hm'
      simp only [get, Option.bind_eq_some_iff] at hf
      obtain ⟨f', hf', -⟩ := hf
      have hT : T p l = some f' := by rw [← h.rep.2 p l, hid]; simpa using hf'
      simp only [Table.step, hT] at R ⊢
      exact h.put hT R (setData_spec h.rep.1 p id d).2.1

theorem ready_init [Zero K] [One K] {wv : Bool} {blocks : List BlockInfo} (hne : blocks ≠ [])
    (hnd : (blocks.map (·.id)).Nodup) {ops : List (Op K)} {md md' : Md K} (h : run ops empty = some md)
    {ids ids' : FieldIds} (e : initializeBlocks wv blocks md ids = some (md', ids')) :
    Ready md' (Table.run (initOps wv blocks) (Table.run ops noFields)) ids' blocks := by
  have hR := run_rep ops rep_empty h
  obtain ⟨hr, hids, hst⟩ := initializeBlocks_run blocks hR e
  have hI := initOps_initial wv blocks hnd (Table.run ops noFields)
  obtain ⟨h1, h2, h3⟩ := hids hne
  refine ⟨run_rep _ hR hr, h1, h2, h3, ?_, ?_, fun hs => hst (Or.inl hs), ?_⟩
  · intro b hb s; exact ⟨_, (hI b hb).1 s, rfl, rfl⟩
  · intro b hb s; exact ⟨_, (hI b hb).2.1 s, rfl, rfl⟩
  · intro b hb hs s; exact ⟨_, (hI b hb).2.2 hs s, rfl⟩

/-- **C97, initial state.**  After `InitializeBlocks`, for every set of blocks with different ids and
whatever was allocated before, both states of every block hold the identity deformation gradient and a zero
stress at every integration point of every element. -/
theorem initial_state [Zero K] [One K] (wv : Bool) (blocks : List BlockInfo)
    (hnd : (blocks.map (·.id)).Nodup) (ops : List (Op K)) (md md' : Md K) (h : run ops empty = some md)
    (ids ids' : FieldIds) (e : initializeBlocks wv blocks md ids = some (md', ids'))
    (b : BlockInfo) (hb : b ∈ blocks) (s : Step) :
    (∃ f, read md' (.ipt b.id s) "deformation_gradient" .fullTensorIntPt = some f ∧ f.num = b.numElem ∧
      ∀ elem < b.numElem, ∀ q, ∀ i < 9, f.data elem q i = identity9 i) ∧
    (∃ f, read md' (.ipt b.id s) "stress" .symTensorIntPt = some f ∧ f.num = b.numElem ∧
      ∀ elem q i, f.data elem q i = 0) := by
  have hne : blocks ≠ [] := by rintro rfl; simp at hb
  have hR := run_rep ops rep_empty h
  obtain ⟨hr, -, -⟩ := initializeBlocks_run blocks hR e
  have hrun : run (ops ++ initOps wv blocks) empty = some md' := by rw [run_append, h]; exact hr
  have hI := initOps_initial wv blocks hnd (Table.run ops noFields) b hb
  have hT : Table.run (ops ++ initOps wv blocks) (noFields : Table K)
      = Table.run (initOps wv blocks) (Table.run ops noFields) := by simp [Table.run]
  refine ⟨⟨_, by rw [registry_refines _ _ hrun, hT, hI.1 s]; simp [fresh, Option.filter]; rfl, rfl, ?_⟩,
    ⟨_, by rw [registry_refines _ _ hrun, hT, hI.2.1 s]; simp [fresh, Option.filter]; rfl, rfl, ?_⟩⟩
  · intro elem helem q i hi
    interval_cases i <;> simp [helem, entriesOf, identity9]
  · intro elem q i; simp

/-- **C97, advance.**  Start from any history of allocations, run `InitializeBlocks` on a nonempty set of
blocks with different ids whose materials have no state variables, write to any fields through their views
any number of times, then call `UpdateStates` (it visits the blocks in any order).  It returns; the old
state of the deformation gradient and of the stress of every block then equals the new state, the new state
is what it was, and no other field is changed. -/
theorem updateStates_advances_partial [Zero K] [One K] (wv : Bool) (blocks : List BlockInfo) (hne : blocks ≠ [])
    (hnd : (blocks.map (·.id)).Nodup) (ops : List (Op K)) (md md' md2 : Md K) (h : run ops empty = some md)
    (ids ids' : FieldIds) (e : initializeBlocks wv blocks md ids = some (md', ids'))
    (hns : ∀ b ∈ blocks, b.hasState = false)
    (ws : List (Op K)) (hws : ∀ o ∈ ws, o.isWrite = true) (hw : run ws md' = some md2)
    (bs : List BlockInfo) (hbs : bs.Perm blocks) :
    ∃ md3, updateStates ids' bs md2 = some md3 ∧
      (∀ b ∈ blocks, ∀ lt ∈ [("deformation_gradient", FType.fullTensorIntPt), ("stress", FType.symTensorIntPt)],
        ∃ f g, read md2 (.ipt b.id .np1) lt.1 lt.2 = some f ∧ read md3 (.ipt b.id .np1) lt.1 lt.2 = some f ∧
          read md3 (.ipt b.id .n) lt.1 lt.2 = some g ∧ g.num = f.num ∧ g.data = f.data) ∧
      (∀ p l t, (∀ b ∈ blocks, p = .ipt b.id .n → l ≠ "deformation_gradient" ∧ l ≠ "stress") →
        read md3 p l t = read md2 p l t) := by
  have hR := ready_writes ws hws (ready_init hne hnd h e) hw
  obtain ⟨md3, e3, R3⟩ := updateStates_rep bs hR (fun b hb => hbs.mem_iff.1 hb)
    (fun b hb => hns b (hbs.mem_iff.1 hb))
  generalize Table.run ws (Table.run (initOps wv blocks) (Table.run ops noFields)) = T at hR R3
  have rd : ∀ {m : Md K} {T : Table K}, Rep m T → ∀ p l t, read m p l t = (T p l).filter (fun f => f.type = t) := by
    intro m T hm p l t
    rw [← hm.2 p l, read]
    cases getFieldId m l with
    | none => rfl
    | some id =>
      simp only [Option.bind_some, get]
      cases getField m p id with
      | none => rfl
      | some f => by_cases hf : f.type = t <;> simp [Option.filter, hf]
  refine ⟨md3, e3, ?_, ?_⟩
  · intro b hb lt hlt
    have hbm : b.id ∈ bs.map (·.id) := List.mem_map_of_mem (hbs.mem_iff.2 hb)
    have key : ∀ l t, (l = "deformation_gradient" ∨ l = "stress") →
        (∀ s, ∃ f, T (.ipt b.id s) l = some f ∧ f.type = t ∧ f.num = b.numElem) →
        ∃ f g, read md2 (.ipt b.id .np1) l t = some f ∧ read md3 (.ipt b.id .np1) l t = some f ∧
          read md3 (.ipt b.id .n) l t = some g ∧ g.num = f.num ∧ g.data = f.data := by
      intro l t hl hT
      obtain ⟨f, hf, hft, hfn⟩ := hT .np1
      obtain ⟨g, hg, hgt, hgn⟩ := hT .n
      refine ⟨f, { g with data := f.data }, ?_, ?_, ?_, hgn.trans hfn.symm, rfl⟩
      · rw [rd hR.rep, hf]; simp [Option.filter, hft]
      · rw [rd R3.rep]; simp [Table.advance, hf, Option.filter, hft]
      · rw [rd R3.rep]; simp only [Table.advance, hbm, hl, and_self, if_true, hf, hg]; simp [Option.filter, hgt]
    simp only [List.mem_cons, List.not_mem_nil, or_false] at hlt
    rcases hlt with rfl | rfl
    · exact key _ _ (Or.inl rfl) (hR.fdg b hb)
    · exact key _ _ (Or.inr rfl) (hR.fst b hb)
  · intro p l t hp
    rw [rd R3.rep, rd hR.rep]
    congr 1
    cases p with
    | node => rfl
    | elem c => rfl
    | ipt c s =>
      cases s with
      | np1 => rfl
      | n =>
        simp only [Table.advance]
        split
        · rename_i hc
          obtain ⟨b, hb, rfl⟩ := List.mem_map.1 hc.1
          have := hp b (hbs.mem_iff.1 hb) rfl
          rcases hc.2 with h1 | h1
          · exact absurd h1 this.1
          · exact absurd h1 this.2
        · rfl

/-- **C97, refuted for materials with state variables.**  If the material of any block has state variables,
`UpdateStates` never returns, whatever was written: the symmetric-tensor state is fetched with the getter for
full tensors. -/
theorem updateStates_with_state_variables_fails [Zero K] [One K] (wv : Bool) (blocks : List BlockInfo)
    (hnd : (blocks.map (·.id)).Nodup) (ops : List (Op K)) (md md' md2 : Md K) (h : run ops empty = some md)
    (ids ids' : FieldIds) (e : initializeBlocks wv blocks md ids = some (md', ids'))
    (hs : ∃ b ∈ blocks, b.hasState = true)
    (ws : List (Op K)) (hws : ∀ o ∈ ws, o.isWrite = true) (hw : run ws md' = some md2)
    (bs : List BlockInfo) (hbs : bs.Perm blocks) :
    updateStates ids' bs md2 = none := by
  have hne : blocks ≠ [] := by rintro rfl; simp at hs
  have hR := ready_writes ws hws (ready_init hne hnd h e) hw
  obtain ⟨b, hb, hbs'⟩ := hs
  exact updateStates_state bs hR (fun b hb => hbs.mem_iff.1 hb) ⟨b, hbs.mem_iff.2 hb, hbs'⟩

/-- **C97, a limit.**  `stress` and `unrotated_stress` are one field: they have the same id, so what is
written as the one is read as the other. -/
theorem unrotated_stress_is_stress [Zero K] [One K] (wv : Bool) (blocks : List BlockInfo) (hne : blocks ≠ [])
    (hnd : (blocks.map (·.id)).Nodup) (ops : List (Op K)) (md md' : Md K) (h : run ops empty = some md)
    (ids ids' : FieldIds) (e : initializeBlocks wv blocks md ids = some (md', ids')) :
    ids'.unrotated_stress = ids'.stress := (ready_init hne hnd h e).ust

/-! ## Non-vacuity -/

def exBlocks : List BlockInfo := [⟨10, 2, false⟩, ⟨20, 1, false⟩]
def exIds : FieldIds := ⟨0, 0, 0, none, none, none, none⟩

/-- Initialise, write a new stress in block 20, advance, read the old state. -/
def exAdvance (bs : List BlockInfo) (b : ℤ) (s : Step) : Option ℤ := do
  let (md, ids) ← initializeBlocks (K := ℤ) true bs empty exIds
  let md ← run [.write (.ipt 20 .np1) "stress" .symTensorIntPt (fun _ _ i => (5 + i : ℤ))] md
  let md ← updateStates ids bs md
  (read md (.ipt b s) "stress" .symTensorIntPt).map fun f => f.data 0 3 2

example : exAdvance exBlocks 20 .n = some 7 := by decide +kernel
example : exAdvance exBlocks 20 .np1 = some 7 := by decide +kernel
example : exAdvance exBlocks 10 .n = some 0 := by decide +kernel
example : exAdvance [⟨10, 2, true⟩, ⟨20, 1, false⟩] 20 .n = none := by decide +kernel

end NimbleSM.Kokkos.Registry
