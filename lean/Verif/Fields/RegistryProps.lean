import Verif.Fields.ModelData
import Verif.Fields.LabelsProps
import Mathlib.Data.Finset.Card
import Mathlib.Data.Finset.Dedup
import Mathlib.Data.Finset.Lattice.Lemmas
import Mathlib.Data.Finset.Insert

/-!
# Field identifiers: property C35

A history is a list of `AllocateNodeData` / `DeclareElementData` calls.  `declared` is the list of
fields the calls ask for, in order; the specification speaks about that list only.
-/

namespace NimbleSM.Fields

/-- One call of the API. -/
inductive Op
  | node (length : Length) (label : Str) (n : ℕ)
  | element (block : ℕ) (labels : List (Str × Length))

/-- The element fields with the given labels and lengths. -/
def elementFieldsOf (ls : List (Str × Length)) : List Field := ls.map fun p => ⟨p.1, .element, p.2⟩

/-- The fields a call asks for. -/
def Op.declares : Op → List Field
  | .node length label _ => [⟨label, .node, length⟩]
  | .element _ ls => elementFieldsOf ls

/-- The effect of one call: the ids handed out and the new state. -/
def Op.run (s : State) : Op → Option (List ℕ × State)
  | .node length label n => (allocateNodeData s length label n).map fun p => ([p.1], p.2)
  | .element block ls => declareElementData s block ls

/-- A history of calls: all ids handed out, in order, and the final state. -/
def runOps (s : State) : List Op → Option (List ℕ × State)
  | [] => some ([], s)
  | op :: ops => do
    let (ids, s') ← op.run s
    let (ids', s'') ← runOps s' ops
    return (ids ++ ids', s'')

/-- The fields a history asks for, in order. -/
def declared (ops : List Op) : List Field := ops.flatMap Op.declares

/-- The name of a field up to letter case. -/
def Field.key (f : Field) : Str := lower f.label

/-- Every node field of the history has a proper length. -/
def LengthsOk (dim : ℕ) (ops : List Op) : Prop :=
  ∀ length label n, Op.node length label n ∈ ops → (lengthToInt length dim).isSome

/-- No two declarations of one name (up to case) disagree in relation or length. -/
def Consistent (ds : List Field) : Prop :=
  ∀ d ∈ ds, ∀ e ∈ ds, d.key = e.key → d.relation = e.relation ∧ d.length = e.length

/-- The number of different names declared before the name `k` first occurs. -/
def rankOf (ds : List Field) (k : Str) : ℕ :=
  ((ds.map Field.key).take ((ds.map Field.key).idxOf k)).toFinset.card

/-! ## One assignment -/

theorem findField_not_mem (name : Str) (rel : Relation) (len : Length) (i : ℕ) (fs : List Field)
    (h : name ∉ fs.map Field.key) : findField name rel len i fs = some none := by
  induction fs generalizing i with
  | nil => rfl
  | cons f fs ih =>
    rw [List.map_cons, List.mem_cons, not_or] at h
    rw [findField, if_neg (show ¬ name = lower f.label from h.1)]
    exact ih _ h.2

theorem findField_mem (name : Str) (rel : Relation) (len : Length) (i : ℕ) (fs : List Field)
    (h : name ∈ fs.map Field.key) :
    ∃ f, fs[(fs.map Field.key).idxOf name]? = some f ∧ f.key = name ∧
      findField name rel len i fs =
        if rel = f.relation ∧ len = f.length then some (some (i + (fs.map Field.key).idxOf name)) else none := by
  induction fs generalizing i with
  | nil => simp at h
  | cons f fs ih =>
    by_cases hf : name = f.key
    · refine ⟨f, ?_, hf.symm, ?_⟩
      · rw [List.map_cons, hf, List.idxOf_cons_self]; rfl
      · rw [findField, if_pos (show name = lower f.label from hf), List.map_cons, hf, List.idxOf_cons_self]
        rfl
    · rw [List.map_cons, List.mem_cons] at h
      obtain ⟨g, h1, h2, h3⟩ := ih (i + 1) (h.resolve_left hf)
      refine ⟨g, ?_, h2, ?_⟩
      · rw [List.map_cons, List.idxOf_cons_ne _ (Ne.symm hf)]; exact h1
      · rw [findField, if_neg (show ¬ name = lower f.label from hf), List.map_cons, List.idxOf_cons_ne _ (Ne.symm hf), h3]
        congr 3
        omega

/-- What is known of the registry after the declarations `D`. -/
structure Inv (D : List Field) (F : List Field) : Prop where
  nodup : (F.map Field.key).Nodup
  mem : ∀ x, x ∈ F.map Field.key ↔ x ∈ D.map Field.key
  sub : ∀ f ∈ F, f ∈ D
  rank : ∀ x ∈ D.map Field.key, (F.map Field.key).idxOf x = rankOf D x
  consistent : Consistent D

theorem Inv.nil : Inv [] [] := ⟨by simp, by simp, by simp, by simp, by intro d hd; cases hd⟩

theorem Inv.card {D F : List Field} (h : Inv D F) : F.length = (D.map Field.key).toFinset.card := by
  have : (F.map Field.key).toFinset = (D.map Field.key).toFinset := by
    ext x; simp only [List.mem_toFinset]; exact h.mem x
  rw [← this, List.toFinset_card_of_nodup h.nodup, List.length_map]

theorem rankOf_append {D E : List Field} {x : Str} (hx : x ∈ D.map Field.key) :
    rankOf (D ++ E) x = rankOf D x := by
  unfold rankOf
  rw [List.map_append, List.idxOf_append_of_mem hx, List.take_append_of_le_length]
  exact (List.idxOf_lt_length_of_mem hx).le

theorem rankOf_append_new {D : List Field} {d : Field} (hx : d.key ∉ D.map Field.key) :
    rankOf (D ++ [d]) d.key = (D.map Field.key).toFinset.card := by
  unfold rankOf
  have h1 : ((D ++ [d]).map Field.key).idxOf d.key = (D.map Field.key).length := by
    rw [List.map_append, List.idxOf_append_of_notMem hx]; simp
  rw [h1, List.map_append, List.take_left]

theorem consistent_append {D : List Field} {d : Field} (hD : Consistent D)
    (h : ∀ e ∈ D, e.key = d.key → e.relation = d.relation ∧ e.length = d.length) :
    Consistent (D ++ [d]) := by
  intro a ha b hb hab
  rcases List.mem_append.mp ha with ha | ha <;> rcases List.mem_append.mp hb with hb | hb
  · exact hD a ha b hb hab
  · rw [List.mem_singleton.mp hb] at hab ⊢; exact h a ha hab
  · rw [List.mem_singleton.mp ha] at hab ⊢
    exact ⟨(h b hb hab.symm).1.symm, (h b hb hab.symm).2.symm⟩
  · rw [List.mem_singleton.mp ha, List.mem_singleton.mp hb]; exact ⟨rfl, rfl⟩

theorem assign_spec {D F : List Field} (h : Inv D F) (d : Field) :
    (¬ Consistent (D ++ [d]) → assignFieldId F d = none) ∧
    (Consistent (D ++ [d]) → ∃ F', assignFieldId F d = some (rankOf (D ++ [d]) d.key, F') ∧
      Inv (D ++ [d]) F' ∧ F <+: F') := by
  by_cases hd : d.key ∈ F.map Field.key
  · obtain ⟨f, h1, h2, h3⟩ := findField_mem d.key d.relation d.length 0 F hd
    have hfF : f ∈ F := List.mem_of_getElem? h1
    have hdD : d.key ∈ D.map Field.key := (h.mem _).mp hd
    have hmod : assignFieldId F d =
        if d.relation = f.relation ∧ d.length = f.length
        then some (0 + (F.map Field.key).idxOf d.key, F) else none := by
      have h3' : findField (lower d.label) d.relation d.length 0 F = _ := h3
      unfold assignFieldId
      rw [h3']
      split_ifs <;> rfl
    constructor
    · intro hc
      rw [hmod, if_neg]
      intro hcond
      refine hc (consistent_append h.consistent fun e he hek => ?_)
      have := h.consistent e he f (h.sub f hfF) (hek.trans h2.symm)
      exact ⟨this.1.trans hcond.1.symm, this.2.trans hcond.2.symm⟩
    · intro hc
      refine ⟨F, ?_, ⟨h.nodup, ?_, ?_, ?_, hc⟩, List.prefix_rfl⟩
      · rw [hmod, if_pos (hc d (by simp) f (by simp [h.sub f hfF]) h2.symm), rankOf_append hdD,
          ← h.rank _ hdD, Nat.zero_add]
      · intro x
        rw [h.mem, List.map_append, List.mem_append]
        constructor
        · exact Or.inl
        · rintro (hx | hx)
          · exact hx
          · simp only [List.map_cons, List.map_nil, List.mem_singleton] at hx; exact hx ▸ hdD
      · intro g hg; exact List.mem_append_left _ (h.sub g hg)
      · intro x hx
        have hx' : x ∈ D.map Field.key := by
          rw [List.map_append, List.mem_append] at hx
          rcases hx with hx | hx
          · exact hx
          · simp only [List.map_cons, List.map_nil, List.mem_singleton] at hx; exact hx ▸ hdD
        rw [rankOf_append hx', h.rank x hx']
  · have hdD : d.key ∉ D.map Field.key := fun hx => hd ((h.mem _).mpr hx)
    have hc : Consistent (D ++ [d]) := consistent_append h.consistent fun e he hek =>
      absurd (List.mem_map.mpr ⟨e, he, hek⟩) hdD
    refine ⟨fun hn => absurd hc hn, fun _ => ⟨F ++ [d], ?_, ⟨?_, ?_, ?_, ?_, hc⟩, List.prefix_append _ _⟩⟩
    · have h3 : findField (lower d.label) d.relation d.length 0 F = _ := findField_not_mem d.key _ _ 0 F hd
      unfold assignFieldId
      rw [h3, rankOf_append_new hdD, h.card]
    · rw [List.map_append, List.nodup_append]
      refine ⟨h.nodup, by simp, fun a ha b hb => ?_⟩
      simp only [List.map_cons, List.map_nil, List.mem_singleton] at hb
      rintro rfl
      exact hd (hb ▸ ha)
    · intro x
      rw [List.map_append, List.map_append, List.mem_append, List.mem_append, h.mem]
    · intro g hg
      rcases List.mem_append.mp hg with hg | hg
      · exact List.mem_append_left _ (h.sub g hg)
      · exact List.mem_append_right _ hg
    · intro x hx
      rw [List.map_append, List.mem_append] at hx
      rcases hx with hx | hx
      · rw [rankOf_append hx, List.map_append, List.idxOf_append_of_mem ((h.mem x).mpr hx), h.rank x hx]
      · simp only [List.map_cons, List.map_nil, List.mem_singleton] at hx
        subst hx
        rw [rankOf_append_new hdD, List.map_append, List.idxOf_append_of_notMem hd]
        simp [h.card]

/-! ## Calls -/

theorem declareElementData_spec (block : ℕ) (ls : List (Str × Length)) (s : State) (D : List Field)
    (h : Inv D s.fields) :
    (¬ Consistent (D ++ elementFieldsOf ls) → declareElementData s block ls = none) ∧
    (Consistent (D ++ elementFieldsOf ls) → ∃ s', declareElementData s block ls =
        some ((elementFieldsOf ls).map fun e => rankOf (D ++ elementFieldsOf ls) e.key, s') ∧
        Inv (D ++ elementFieldsOf ls) s'.fields ∧ s.fields <+: s'.fields ∧
        s'.dim = s.dim ∧ s'.nodeData = s.nodeData ∧
        s'.elementFields = Function.update s.elementFields block
          (s.elementFields block ++ (elementFieldsOf ls).map fun e => rankOf (D ++ elementFieldsOf ls) e.key)) := by
  induction ls generalizing s D with
  | nil =>
    refine ⟨fun hn => absurd (by simpa [elementFieldsOf] using h.consistent) hn, fun _ => ⟨s, rfl, by simpa [elementFieldsOf] using h, List.prefix_rfl, rfl, rfl, ?_⟩⟩
    simp [elementFieldsOf]
  | cons p ls ih =>
    obtain ⟨label, length⟩ := p
    set d : Field := ⟨label, .element, length⟩ with hd
    set E := elementFieldsOf ls with hE
    have hcons : elementFieldsOf ((label, length) :: ls) = d :: E := rfl
    rw [hcons]
    have hsplit : D ++ (d :: E) = (D ++ [d]) ++ E := by simp
    have hsub : Consistent ((D ++ [d]) ++ E) → Consistent (D ++ [d]) := fun hc a ha b hb =>
      hc a (List.mem_append_left _ ha) b (List.mem_append_left _ hb)
    by_cases hc1 : Consistent (D ++ [d])
    · obtain ⟨F', hF, hInv, hpre⟩ := (assign_spec h d).2 hc1
      have hgoal : ∀ s1 : State, s1.fields = F' → _ := fun s1 hs1 => ih s1 (D ++ [d]) (by rw [hs1]; exact hInv)
      have hrun : declareElementData s block ((label, length) :: ls) = (do
          let s' : State := { s with
            fields := F'
            elementFields := Function.update s.elementFields block (s.elementFields block ++ [rankOf (D ++ [d]) d.key]) }
          let (ids, s'') ← declareElementData s' block ls
          return (rankOf (D ++ [d]) d.key :: ids, s'')) := by
        rw [declareElementData, show (⟨label, .element, length⟩ : Field) = d from rfl, hF]
        rfl
      have hs1 := hgoal { s with
            fields := F'
            elementFields := Function.update s.elementFields block (s.elementFields block ++ [rankOf (D ++ [d]) d.key]) } rfl
      constructor
      · intro hn
        rw [hsplit] at hn
        rw [hrun]
        simp only [hs1.1 hn]
        rfl
      · intro hc
        rw [hsplit] at hc
        obtain ⟨s', h1, h2, h3, h4, h5, h6⟩ := hs1.2 hc
        refine ⟨s', ?_, by rw [hsplit]; exact h2, hpre.trans h3, h4, h5, ?_⟩
        · rw [hrun]
          simp only [h1]
          have hr : rankOf (D ++ [d]) d.key = rankOf ((D ++ [d]) ++ E) d.key :=
            (rankOf_append (by simp)).symm
          rw [hsplit]
          show some (rankOf (D ++ [d]) d.key :: _, s') = _
          rw [hr]; rfl
        · rw [h6, hsplit]
          have hr : rankOf (D ++ [d]) d.key = rankOf ((D ++ [d]) ++ E) d.key :=
            (rankOf_append (by simp)).symm
          rw [hr]
          simp
    · refine ⟨fun _ => ?_, fun hc => absurd (hsub (hsplit ▸ hc)) hc1⟩
      have := (assign_spec h d).1 hc1
      rw [declareElementData, show (⟨label, .element, length⟩ : Field) = d from rfl, this]
      rfl

theorem op_spec (op : Op) (s : State) (D : List Field) (h : Inv D s.fields) :
    (¬ (Consistent (D ++ op.declares) ∧ LengthsOk s.dim [op]) → op.run s = none) ∧
    (Consistent (D ++ op.declares) ∧ LengthsOk s.dim [op] → ∃ s', op.run s =
        some (op.declares.map fun e => rankOf (D ++ op.declares) e.key, s') ∧
        Inv (D ++ op.declares) s'.fields ∧ s.fields <+: s'.fields ∧ s'.dim = s.dim) := by
  cases op with
  | element block ls =>
    have hl : LengthsOk s.dim [Op.element block ls] := by
      intro length label n hmem; simp at hmem
    have := declareElementData_spec block ls s D h
    refine ⟨fun hn => this.1 fun hc => hn ⟨hc, hl⟩, fun hc => ?_⟩
    obtain ⟨s', h1, h2, h3, h4, -⟩ := this.2 hc.1
    exact ⟨s', h1, h2, h3, h4⟩
  | node length label n =>
    set d : Field := ⟨label, .node, length⟩ with hd
    have hl : LengthsOk s.dim [Op.node length label n] ↔ (lengthToInt length s.dim).isSome := by
      constructor
      · intro hh; exact hh length label n (by simp)
      · intro hh l' lb n' hmem
        simp only [List.mem_singleton, Op.node.injEq] at hmem
        rw [hmem.1]; exact hh
    rw [hl]
    show (¬ (Consistent (D ++ [d]) ∧ _) → _) ∧ (Consistent (D ++ [d]) ∧ _ → _)
    by_cases hc : Consistent (D ++ [d])
    · obtain ⟨F', hF, hInv, hpre⟩ := (assign_spec h d).2 hc
      constructor
      · intro hn
        have hnone : lengthToInt length s.dim = none := by
          rw [← Option.not_isSome_iff_eq_none]; exact fun hh => hn ⟨hc, hh⟩
        rw [Op.run, allocateNodeData, show (⟨label, .node, length⟩ : Field) = d from rfl, hF]
        simp [hnone]
      · rintro ⟨-, hh⟩
        obtain ⟨k, hk⟩ := Option.isSome_iff_exists.mp hh
        refine ⟨{ s with fields := F'
                         nodeData := Function.update s.nodeData (rankOf (D ++ [d]) d.key)
                           (some (List.replicate (n * k) 0)) }, ?_, hInv, hpre, rfl⟩
        rw [Op.run, allocateNodeData, show (⟨label, .node, length⟩ : Field) = d from rfl, hF]
        simp [hk, Op.declares, hd]
    · refine ⟨fun _ => ?_, fun hh => absurd hh.1 hc⟩
      rw [Op.run, allocateNodeData, show (⟨label, .node, length⟩ : Field) = d from rfl,
        (assign_spec h d).1 hc]
      rfl

theorem runOps_spec (ops : List Op) (s : State) (D : List Field) (h : Inv D s.fields) :
    (¬ (Consistent (D ++ declared ops) ∧ LengthsOk s.dim ops) → runOps s ops = none) ∧
    (Consistent (D ++ declared ops) ∧ LengthsOk s.dim ops → ∃ s', runOps s ops =
        some ((declared ops).map fun e => rankOf (D ++ declared ops) e.key, s') ∧
        Inv (D ++ declared ops) s'.fields ∧ s.fields <+: s'.fields ∧ s'.dim = s.dim) := by
  induction ops generalizing s D with
  | nil =>
    have hl : LengthsOk s.dim [] := by intro _ _ _ hm; cases hm
    refine ⟨fun hn => absurd ⟨by simpa [declared] using h.consistent, hl⟩ hn, fun _ => ⟨s, rfl, ?_, List.prefix_rfl, rfl⟩⟩
    simpa [declared] using h
  | cons op ops ih =>
    have hdec : declared (op :: ops) = op.declares ++ declared ops := by simp [declared]
    have hl : LengthsOk s.dim (op :: ops) ↔ LengthsOk s.dim [op] ∧ LengthsOk s.dim ops := by
      constructor
      · intro hh
        exact ⟨fun l lb n hm => hh l lb n (by simp only [List.mem_singleton] at hm; simp [hm]),
          fun l lb n hm => hh l lb n (by simp [hm])⟩
      · rintro ⟨h1, h2⟩ l lb n hm
        rcases List.mem_cons.mp hm with hm | hm
        · exact h1 l lb n (by simp [hm])
        · exact h2 l lb n hm
    rw [hdec, ← List.append_assoc, hl]
    have hsub : Consistent ((D ++ op.declares) ++ declared ops) → Consistent (D ++ op.declares) :=
      fun hc a ha b hb => hc a (List.mem_append_left _ ha) b (List.mem_append_left _ hb)
    by_cases hc1 : Consistent (D ++ op.declares) ∧ LengthsOk s.dim [op]
    · obtain ⟨s', h1, h2, h3, h4⟩ := (op_spec op s D h).2 hc1
      have := ih s' _ h2
      rw [h4] at this
      constructor
      · intro hn
        rw [runOps, h1]
        have hn' : ¬ (Consistent ((D ++ op.declares) ++ declared ops) ∧ LengthsOk s.dim ops) :=
          fun hh => hn ⟨hh.1, hc1.2, hh.2⟩
        simp [this.1 hn']
      · rintro ⟨hh1, hh2, hh3⟩
        obtain ⟨s'', g1, g2, g3, g4⟩ := this.2 ⟨hh1, hh3⟩
        refine ⟨s'', ?_, g2, h3.trans g3, g4⟩
        rw [runOps, h1]
        simp only [Option.bind_eq_bind, Option.bind_some, g1]
        rw [List.map_append]
        have : (op.declares.map fun e => rankOf (D ++ op.declares) e.key) =
            op.declares.map fun e => rankOf ((D ++ op.declares) ++ declared ops) e.key := by
          refine List.map_congr_left fun e he => (rankOf_append ?_).symm
          rw [List.map_append]
          exact List.mem_append_right _ (List.mem_map.mpr ⟨e, he, rfl⟩)
        rw [this]
        rfl
    · refine ⟨fun _ => ?_, fun hh => absurd ⟨hsub hh.1, hh.2.1⟩ hc1⟩
      rw [runOps, (op_spec op s D h).1 hc1]
      rfl

/-! ## C35 -/

/-- C35: a history succeeds exactly when all declarations of one name (up to letter case) agree in
relation and length, and all node lengths are proper; otherwise the program aborts. -/
theorem history_succeeds_iff (dim : ℕ) (ops : List Op) :
    (runOps (State.init dim) ops).isSome ↔ Consistent (declared ops) ∧ LengthsOk dim ops := by
  have h := runOps_spec ops (State.init dim) [] Inv.nil
  rw [List.nil_append] at h
  constructor
  · intro hs
    by_contra hn
    rw [h.1 hn] at hs
    cases hs
  · intro hc
    obtain ⟨s', h1, -⟩ := h.2 hc
    rw [h1]; rfl

/-- C35: the ids handed out.  The id of a declared field is the number of different names declared
before that name first occurred. -/
theorem history_ids {dim : ℕ} {ops : List Op} {ids : List ℕ} {s : State}
    (h : runOps (State.init dim) ops = some (ids, s)) :
    ids = (declared ops).map fun d => rankOf (declared ops) d.key := by
  have hs := runOps_spec ops (State.init dim) [] Inv.nil
  rw [List.nil_append] at hs
  have hc := (history_succeeds_iff dim ops).mp (by rw [h]; rfl)
  obtain ⟨s', h1, -⟩ := hs.2 hc
  rw [h] at h1
  exact (Prod.mk.inj (Option.some.inj h1)).1

theorem history_inv {dim : ℕ} {ops : List Op} {ids : List ℕ} {s : State}
    (h : runOps (State.init dim) ops = some (ids, s)) : Inv (declared ops) s.fields ∧ s.dim = dim := by
  have hs := runOps_spec ops (State.init dim) [] Inv.nil
  rw [List.nil_append] at hs
  have hc := (history_succeeds_iff dim ops).mp (by rw [h]; rfl)
  obtain ⟨s', h1, h2, -, h4⟩ := hs.2 hc
  rw [h] at h1
  rw [(Prod.mk.inj (Option.some.inj h1)).2]
  exact ⟨h2, h4⟩

/-- C35: two declarations get the same id iff their names are equal up to letter case. -/
theorem history_id_eq_iff {dim : ℕ} {ops : List Op} {ids : List ℕ} {s : State}
    (h : runOps (State.init dim) ops = some (ids, s)) {i j : ℕ} {d e : Field}
    (hd : (declared ops)[i]? = some d) (he : (declared ops)[j]? = some e) :
    ids[i]? = ids[j]? ↔ lower d.label = lower e.label := by
  have hi := history_ids h
  obtain ⟨hI, -⟩ := history_inv h
  have hmd : d.key ∈ (declared ops).map Field.key := List.mem_map.mpr ⟨d, List.mem_of_getElem? hd, rfl⟩
  have hme : e.key ∈ (declared ops).map Field.key := List.mem_map.mpr ⟨e, List.mem_of_getElem? he, rfl⟩
  rw [hi, List.getElem?_map, List.getElem?_map, hd, he, Option.map_some, Option.map_some,
    Option.some_inj, ← hI.rank _ hmd, ← hI.rank _ hme]
  show _ ↔ d.key = e.key
  constructor
  · intro hh
    have h1 := (hI.mem _).mpr hmd
    exact (List.idxOf_inj h1).mp hh
  · intro hh; rw [hh]

/-- C35: the ids handed out are exactly `0, …, n-1`, `n` the number of different names. -/
theorem history_ids_dense {dim : ℕ} {ops : List Op} {ids : List ℕ} {s : State}
    (h : runOps (State.init dim) ops = some (ids, s)) (k : ℕ) :
    k ∈ ids ↔ k < ((declared ops).map fun d => lower d.label).toFinset.card := by
  obtain ⟨hI, -⟩ := history_inv h
  have hcard : ((declared ops).map fun d => lower d.label).toFinset.card = s.fields.length := hI.card.symm
  rw [hcard, history_ids h, List.mem_map]
  constructor
  · rintro ⟨d, hd, rfl⟩
    have hmd : d.key ∈ (declared ops).map Field.key := List.mem_map.mpr ⟨d, hd, rfl⟩
    rw [← hI.rank _ hmd]
    have := List.idxOf_lt_length_of_mem ((hI.mem _).mpr hmd)
    rwa [List.length_map] at this
  · intro hk
    have hmem : s.fields[k].key ∈ s.fields.map Field.key :=
      List.mem_map.mpr ⟨_, List.getElem_mem hk, rfl⟩
    obtain ⟨d, hd, hdk⟩ := List.mem_map.mp ((hI.mem _).mp hmem)
    refine ⟨d, hd, ?_⟩
    rw [hdk, ← hI.rank _ ((hI.mem _).mp hmem)]
    have hk' : k < (s.fields.map Field.key).length := by rwa [List.length_map]
    have : s.fields[k].key = (s.fields.map Field.key)[k] := by rw [List.getElem_map]
    rw [this, hI.nodup.idxOf_getElem _ hk']

/-- C35: a later call never changes an earlier id nor what it stands for. -/
theorem history_stable {dim : ℕ} {ops more : List Op} {ids ids' : List ℕ} {s s' : State}
    (h : runOps (State.init dim) ops = some (ids, s))
    (h' : runOps (State.init dim) (ops ++ more) = some (ids', s')) :
    ids <+: ids' ∧ s.fields <+: s'.fields := by
  have hdec : declared (ops ++ more) = declared ops ++ declared more := by simp [declared]
  constructor
  · rw [history_ids h, history_ids h', hdec, List.map_append]
    refine ⟨(declared more).map fun d => rankOf (declared ops ++ declared more) d.key, ?_⟩
    congr 1
    refine List.map_congr_left fun d hd => (rankOf_append (List.mem_map.mpr ⟨d, hd, rfl⟩)).symm
  · have happ : ∀ (s : State) (a b : List Op), runOps s (a ++ b) = do
        let (i1, s1) ← runOps s a
        let (i2, s2) ← runOps s1 b
        return (i1 ++ i2, s2) := by
      intro s a b
      induction a generalizing s with
      | nil => simp [runOps]
      | cons op a ih =>
        rw [List.cons_append, runOps, runOps]
        simp only [ih, Option.bind_eq_bind, Option.bind_assoc]
        rcases op.run s with _ | ⟨i0, s0⟩
        · rfl
        · simp [Option.bind_assoc, List.append_assoc]
    rw [happ, h] at h'
    obtain ⟨hI, hdim⟩ := history_inv h
    have hs := runOps_spec more s _ hI
    by_cases hc : Consistent (declared ops ++ declared more) ∧ LengthsOk s.dim more
    · obtain ⟨s'', g1, -, g3, -⟩ := hs.2 hc
      simp only [Option.bind_eq_bind, Option.bind_some, g1] at h'
      have := (Prod.mk.inj (Option.some.inj h')).2
      rw [← this]; exact g3
    · simp [hs.1 hc] at h'

/-- C35: the field stored under an id has the relation and length every declaration of that id asked
for, and its label is the spelling of the first declaration. -/
theorem history_field {dim : ℕ} {ops : List Op} {ids : List ℕ} {s : State}
    (h : runOps (State.init dim) ops = some (ids, s)) {i k : ℕ} {d : Field}
    (hd : (declared ops)[i]? = some d) (hk : ids[i]? = some k) :
    ∃ f, s.fields[k]? = some f ∧ f ∈ declared ops ∧ lower f.label = lower d.label ∧
      f.relation = d.relation ∧ f.length = d.length := by
  obtain ⟨hI, -⟩ := history_inv h
  have hdm := List.mem_of_getElem? hd
  have hmd : d.key ∈ (declared ops).map Field.key := List.mem_map.mpr ⟨d, hdm, rfl⟩
  rw [history_ids h, List.getElem?_map, hd, Option.map_some, Option.some_inj] at hk
  rw [← hI.rank _ hmd] at hk
  have hmF := (hI.mem _).mpr hmd
  have hlt := List.idxOf_lt_length_of_mem hmF
  have hlt' : k < s.fields.length := by rw [← hk]; rwa [List.length_map] at hlt
  refine ⟨s.fields[k], List.getElem?_eq_getElem hlt', hI.sub _ (List.getElem_mem _), ?_, ?_⟩
  · have : (s.fields.map Field.key)[(s.fields.map Field.key).idxOf d.key] = d.key :=
      List.getElem_idxOf hlt
    simp only [hk, List.getElem_map] at this
    exact this
  · have hkey : s.fields[k].key = d.key := by
      have : (s.fields.map Field.key)[(s.fields.map Field.key).idxOf d.key] = d.key :=
        List.getElem_idxOf hlt
      simp only [hk, List.getElem_map] at this
      exact this
    exact hI.consistent _ (hI.sub _ (List.getElem_mem _)) d hdm hkey

theorem getFieldId_go (l : Str) (i : ℕ) (fs : List Field) :
    getFieldId.go l i fs = if l ∈ fs.map Field.label then some (i + (fs.map Field.label).idxOf l) else none := by
  induction fs generalizing i with
  | nil => simp [getFieldId.go]
  | cons f fs ih =>
    rw [getFieldId.go]
    by_cases hf : f.label = l
    · simp [hf]
    · rw [if_neg hf, ih, List.map_cons, List.idxOf_cons_ne _ hf]
      by_cases hm : l ∈ fs.map Field.label
      · rw [if_pos hm, if_pos (List.mem_cons_of_mem _ hm)]
        congr 1; omega
      · rw [if_neg hm, if_neg]
        rw [List.mem_cons]
        rintro (h | h)
        · exact hf h.symm
        · exact hm h

/-- C35: `GetFieldId` finds the id of a field under the spelling stored first, -/
theorem getFieldId_found {dim : ℕ} {ops : List Op} {ids : List ℕ} {s : State}
    (h : runOps (State.init dim) ops = some (ids, s)) {k : ℕ} {f : Field}
    (hf : s.fields[k]? = some f) : getFieldId s.fields f.label = some k := by
  obtain ⟨hI, -⟩ := history_inv h
  obtain ⟨hlt, hfk⟩ := List.getElem?_eq_some_iff.mp hf
  have hnd : (s.fields.map Field.label).Nodup := by
    refine List.Nodup.of_map lower ?_
    rw [List.map_map]
    exact hI.nodup
  have hlt' : k < (s.fields.map Field.label).length := by rwa [List.length_map]
  have he : f.label = (s.fields.map Field.label)[k] := by rw [List.getElem_map, hfk]
  rw [getFieldId, getFieldId_go, he, if_pos (List.getElem_mem _), hnd.idxOf_getElem _ hlt', Nat.zero_add]

/-- … and reports failure for every label that is not the stored spelling of a field; in particular
for every name that was never declared. -/
theorem getFieldId_unknown {dim : ℕ} {ops : List Op} {ids : List ℕ} {s : State}
    (h : runOps (State.init dim) ops = some (ids, s)) {l : Str} :
    getFieldId s.fields l = none ↔ ∀ f ∈ s.fields, f.label ≠ l := by
  rw [getFieldId, getFieldId_go]
  constructor
  · intro hn f hf hl
    rw [if_pos (List.mem_map.mpr ⟨f, hf, hl⟩)] at hn
    cases hn
  · intro hall
    rw [if_neg]
    intro hm
    obtain ⟨f, hf, hl⟩ := List.mem_map.mp hm
    exact hall f hf hl

/-- C35: a name never declared (in any spelling) is unknown. -/
theorem getFieldId_undeclared {dim : ℕ} {ops : List Op} {ids : List ℕ} {s : State}
    (h : runOps (State.init dim) ops = some (ids, s)) {l : Str}
    (hl : ∀ d ∈ declared ops, d.label ≠ l) : getFieldId s.fields l = none :=
  (getFieldId_unknown h).mpr fun f hf => hl f ((history_inv h).1.sub f hf)

/-- Ids are shared up to letter case but looked up case sensitively: after declaring `velocity` and
then `Velocity` both declarations succeed with id 0, yet looking up `Velocity` fails. -/
theorem getFieldId_second_spelling :
    ∃ s, runOps (State.init 3) [.node .vector "velocity".toList 2, .node .vector "Velocity".toList 2] =
      some ([0, 0], s) ∧ getFieldId s.fields "Velocity".toList = none := by
  refine ⟨_, rfl, ?_⟩
  decide +kernel

/-- A conflicting redeclaration aborts. -/
example : runOps (State.init 3) [.node .vector "a".toList 2, .node .scalar "A".toList 2] = none := rfl

example : (runOps (State.init 3) [.node .vector "displacement".toList 8, .node .scalar "lumped_mass".toList 8,
    .element 1 [("ipt01_stress".toList, .symmetricTensor), ("ipt02_stress".toList, .symmetricTensor)],
    .element 2 [("ipt01_stress".toList, .symmetricTensor)]]).map Prod.fst = some [0, 1, 2, 3, 2] := rfl

end NimbleSM.Fields
