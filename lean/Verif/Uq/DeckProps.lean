import Verif.Uq.ReadProps
import Mathlib.Data.List.Lex
import Mathlib.Data.Char

/-!
# C52 from the deck, C78: which blocks have sample parameters, C79: which column belongs to which parameter
-/

namespace NimbleSM.Uq

open NimbleSM.Parse NimbleSM.Constitutive
open NimbleSM.Deck (Str)

/-! ## The lines of the deck -/

/-- The names in a `uq parameters` line: every other word. -/
def namesOf : List Str → List Str
  | name :: _ :: rest => name :: namesOf rest
  | _ => []

theorem parseRanges_order {b : ℤ} : ∀ {items : List Str} {u u' : UqModel}, parseRanges b items u = .ok u' →
    u'.order = u.order ++ (namesOf items).map (fun n => (b, n)) ∧ u'.nominal = u.nominal ∧ items.length % 2 = 0
  | [], u, u', h => by cases h; simp [namesOf]
  | [_], u, u', h => by cases h
  | name :: value :: items, u, u', h => by
    obtain ⟨r, -, h⟩ := Outcome.bind_ok h
    have ih := parseRanges_order h
    refine ⟨?_, ih.2.1, by have := ih.2.2; simp; omega⟩
    rw [ih.1]
    simp [namesOf]

/-- One line: its names become the next columns, its material's nominal parameters are stored. -/
theorem parseBlockInput_ok {dmax : ℚ} {u u' : UqModel} {line nominal : Str} {b : ℤ}
    (h : parseBlockInput dmax u line b nominal = .ok u') :
    u'.order = u.order ++ (namesOf (split line)).map (fun n => (b, n)) ∧
      ∃ d, parseMaterialParamsStringToMap dmax nominal = .ok d ∧
        ∀ b', u'.nominal b' = if b' = b then some d else u.nominal b' := by
  unfold parseBlockInput at h
  split at h
  · cases h
  · obtain ⟨u1, h1, h⟩ := Outcome.bind_ok h
    obtain ⟨d, h2, h⟩ := Outcome.bind_ok h
    cases h
    have hr := parseRanges_order h1
    refine ⟨hr.1, d, ?_, fun b' => by simp only [hr.2.1]⟩
    unfold parseNominal at h2
    split at h2 <;> cases h2
    assumption

theorem parseBlocks_ok {dmax : ℚ} {blocks : Blocks} {materials : Str → Option Str} :
    ∀ {lines : List (Str × Str)} {u u' : UqModel}, parseBlocks dmax blocks materials lines u = .ok u' →
      u'.order = u.order ++ lines.flatMap (fun l => (namesOf (split l.2)).map fun n => (blockIdFromMaterial blocks l.1, n)) ∧
      ∀ b, (u'.nominal b).isSome ↔ (u.nominal b).isSome ∨ ∃ l ∈ lines, blockIdFromMaterial blocks l.1 = b
  | [], u, u', h => by cases h; simp
  | (key, line) :: lines, u, u', h => by
    unfold parseBlocks at h
    obtain ⟨nominal, h1, h⟩ := Outcome.bind_ok h
    obtain ⟨u1, h2, h⟩ := Outcome.bind_ok h
    have hb := parseBlockInput_ok h2
    have ih := parseBlocks_ok h
    obtain ⟨ho, d, -, hd⟩ := hb
    refine ⟨by rw [ih.1, ho]; simp, fun b => ?_⟩
    rw [ih.2 b, hd b]
    by_cases hk : b = blockIdFromMaterial blocks key
    · simp [hk]
    · simp only [if_neg hk, List.mem_cons, exists_eq_or_imp]
      constructor
      · rintro (h | h)
        · exact Or.inl h
        · exact Or.inr (Or.inr h)
      · rintro (h | h | h)
        · exact Or.inl h
        · exact absurd h.symm hk
        · exact Or.inr h

theorem order_has_nominal {dmax : ℚ} {blocks : Blocks} {materials : Str → Option Str} {lines : List (Str × Str)} {u : UqModel}
    (h : parseBlocks dmax blocks materials lines {} = .ok u) : ∀ e ∈ u.order, (u.nominal e.1).isSome := by
  have hp := parseBlocks_ok h
  intro e he
  rw [hp.1] at he
  simp only [List.nil_append, List.mem_flatMap, List.mem_map] at he
  obtain ⟨l, hl, n, -, rfl⟩ := he
  exact (hp.2 _).2 (Or.inr ⟨l, hl, rfl⟩)

/-- **C52**, from the deck and the sample file: whenever both can be read, the parameters of every sample
of every block with a `uq parameters` line are the nominal ones moved as `scaled_parameters` says; the
initialisation itself never runs past the end of a table. -/
theorem initialize_spec (dmax : ℚ) (blocks : Blocks) (materials : Str → Option Str) (lines : List (Str × Str))
    (file : Option Str) (u : UqModel) (r : Samples)
    (hu : parseBlocks dmax blocks materials (uqParamsStrings lines) {} = .ok u)
    (hr : readSamples file u.order.length = .ok r) :
    ∃ t, initializeSamples dmax blocks materials lines file = .ok (u, r, t) ∧
      ∀ b d, u.nominal b = some d → ∀ s row, r.xi[s]? = some row →
        ∃ d', parameters t b s = some d' ∧ ∀ name, d' name =
          if (b, name) ∈ u.order then some ((d name).getD 0 + u.range b name * deviation u.order row b name) else d name := by
  obtain ⟨t, ht, hv⟩ := scaled_parameters u r (sample_file_shape file _ r hr) (order_has_nominal hu)
  refine ⟨t, ?_, hv⟩
  unfold initializeSamples
  have hb : ∀ {α β : Type} (a : α) (g : α → Outcome β), (Outcome.ok a >>= g) = g a := fun _ _ => rfl
  simp only [hu, hb, hr, ht]

/-! ## The order of the lines -/

theorem mapSet_keys (key value : Str) (m : List (Str × Str)) (k : Str) :
    k ∈ (mapSet key value m).map Prod.fst ↔ k = key ∨ k ∈ m.map Prod.fst := by
  induction m with
  | nil => simp [mapSet]
  | cons e m ih =>
    obtain ⟨k1, v1⟩ := e
    unfold mapSet
    split
    · rename_i h; subst h; simp
    · split
      · simp
      · simp only [List.map_cons, List.mem_cons, ih]
        tauto

theorem mapSet_sorted (key value : Str) (m : List (Str × Str)) (h : (m.map Prod.fst).Pairwise (· < ·)) :
    ((mapSet key value m).map Prod.fst).Pairwise (· < ·) := by
  induction m with
  | nil => simp [mapSet]
  | cons e m ih =>
    obtain ⟨k1, v1⟩ := e
    simp only [List.map_cons, List.pairwise_cons] at h
    unfold mapSet
    split
    · simpa using h
    · rename_i hne
      split
      · rename_i hlt
        simp only [List.map_cons, List.pairwise_cons, List.mem_cons, forall_eq_or_imp]
        exact ⟨⟨hlt, fun k hk => lt_trans hlt (h.1 k hk)⟩, h.1, h.2⟩
      · rename_i hlt
        simp only [List.map_cons, List.pairwise_cons]
        refine ⟨fun k hk => ?_, ih h.2⟩
        rcases (mapSet_keys key value m k).1 hk with rfl | hk
        · exact lt_of_le_of_ne (not_lt.1 hlt) (Ne.symm hne)
        · exact h.1 k hk

theorem uqParamsStrings_spec (lines : List (Str × Str)) :
    ((uqParamsStrings lines).map Prod.fst).Pairwise (· < ·) ∧
      ∀ k, k ∈ (uqParamsStrings lines).map Prod.fst ↔ k ∈ lines.map Prod.fst := by
  have h : ∀ (lines : List (Str × Str)) (m : List (Str × Str)), (m.map Prod.fst).Pairwise (· < ·) →
      ((lines.foldl (fun m l => mapSet l.1 l.2 m) m).map Prod.fst).Pairwise (· < ·) ∧
        ∀ k, k ∈ (lines.foldl (fun m l => mapSet l.1 l.2 m) m).map Prod.fst ↔ k ∈ m.map Prod.fst ∨ k ∈ lines.map Prod.fst := by
    intro lines
    induction lines with
    | nil => intro m hm; exact ⟨hm, by simp⟩
    | cons l lines ih =>
      intro m hm
      obtain ⟨h1, h2⟩ := ih (mapSet l.1 l.2 m) (mapSet_sorted _ _ _ hm)
      refine ⟨h1, fun k => ?_⟩
      rw [List.foldl_cons, h2 k, mapSet_keys]
      simp only [List.map_cons, List.mem_cons]
      tauto
  obtain ⟨h1, h2⟩ := h lines [] List.Pairwise.nil
  exact ⟨h1, fun k => by rw [uqParamsStrings, h2 k]; simp⟩

theorem mapSet_mem (key value : Str) (m : List (Str × Str)) (h : (m.map Prod.fst).Pairwise (· < ·)) (k v : Str) :
    (k, v) ∈ mapSet key value m ↔ if k = key then v = value else (k, v) ∈ m := by
  have habs : ∀ (m : List (Str × Str)) (k v : Str), (∀ k' ∈ m.map Prod.fst, k < k') → (k, v) ∉ m := by
    intro m k v hm hc
    exact lt_irrefl k (hm k (List.mem_map.2 ⟨(k, v), hc, rfl⟩))
  induction m with
  | nil => by_cases hk : k = key <;> simp [mapSet, hk]
  | cons e m ih =>
    obtain ⟨k1, v1⟩ := e
    simp only [List.map_cons, List.pairwise_cons] at h
    unfold mapSet
    split
    · rename_i he
      subst he
      have := habs m key v h.1
      by_cases hk : k = key
      · subst hk; simp [this]
      · simp [hk]
    · rename_i hne
      split
      · rename_i hlt
        have := habs m key v (fun k' hk' => lt_trans hlt (h.1 k' hk'))
        by_cases hk : k = key
        · subst hk; simp [this, hne]
        · simp [hk]
      · have ih := ih h.2
        rw [List.mem_cons]
        by_cases hk : k = key
        · subst hk
          rw [if_pos rfl] at ih ⊢
          exact ⟨fun h => h.elim (fun he => absurd (congrArg Prod.fst he) hne) ih.1, fun h => Or.inr (ih.2 h)⟩
        · rw [if_neg hk] at ih ⊢
          exact ⟨fun h => List.mem_cons.2 (h.imp_right ih.1), fun h => (List.mem_cons.1 h).imp_right ih.2⟩

/-- The value of the last line with the given key. -/
def lastLine (lines : List (Str × Str)) (k : Str) : Option Str := ((lines.filter fun l => l.1 = k).getLast?).map Prod.snd

theorem uqParamsStrings_mem (lines : List (Str × Str)) (k v : Str) :
    (k, v) ∈ uqParamsStrings lines ↔ lastLine lines k = some v := by
  induction lines using List.reverseRecOn with
  | nil => simp [uqParamsStrings, lastLine]
  | append_singleton lines l ih =>
    have hstep : uqParamsStrings (lines ++ [l]) = mapSet l.1 l.2 (uqParamsStrings lines) := by
      unfold uqParamsStrings
      rw [List.foldl_append]
      rfl
    rw [hstep, mapSet_mem _ _ _ (uqParamsStrings_spec lines).1]
    by_cases hk : k = l.1
    · subst hk
      simp [lastLine, eq_comm]
    · rw [if_neg hk, ih]
      simp [lastLine, Ne.symm hk]

/-- **C79**, as the code has it: the columns of the sample file belong to the named parameters line by line, the lines
taken in alphabetical order of the materials (of several lines for a material the last one), and within a line from left
to right. -/
theorem column_order (dmax : ℚ) (blocks : Blocks) (materials : Str → Option Str) (lines : List (Str × Str)) (u : UqModel)
    (hu : parseBlocks dmax blocks materials (uqParamsStrings lines) {} = .ok u) :
    ∃ sorted : List (Str × Str), (sorted.map Prod.fst).Pairwise (· < ·) ∧
      (∀ k v, (k, v) ∈ sorted ↔ lastLine lines k = some v) ∧
      u.order = sorted.flatMap (fun l => (namesOf (split l.2)).map fun n => (blockIdFromMaterial blocks l.1, n)) := by
  refine ⟨uqParamsStrings lines, (uqParamsStrings_spec lines).1, uqParamsStrings_mem lines, ?_⟩
  rw [(parseBlocks_ok hu).1]
  rfl

theorem mapSet_last (key value : Str) (m : List (Str × Str)) (h : ∀ k ∈ m.map Prod.fst, k < key) :
    mapSet key value m = m ++ [(key, value)] := by
  induction m with
  | nil => rfl
  | cons e m ih =>
    obtain ⟨k1, v1⟩ := e
    have hk := h k1 (by simp)
    unfold mapSet
    rw [if_neg (ne_of_gt hk), if_neg (not_lt.2 hk.le), ih (fun k hm => h k (by simp [hm])), List.cons_append]

theorem uqParamsStrings_sorted (lines : List (Str × Str)) (h : (lines.map Prod.fst).Pairwise (· < ·)) :
    uqParamsStrings lines = lines := by
  have key : ∀ (rest done : List (Str × Str)), ((done ++ rest).map Prod.fst).Pairwise (· < ·) →
      rest.foldl (fun m l => mapSet l.1 l.2 m) done = done ++ rest := by
    intro rest
    induction rest with
    | nil => intro done _; simp
    | cons l rest ih =>
      intro done hp
      rw [List.foldl_cons, mapSet_last, ih]
      · simp
      · simpa using hp
      · intro k hk
        rw [List.map_append, List.pairwise_append] at hp
        exact hp.2.2 k hk l.1 (by simp)
  simpa [uqParamsStrings] using key lines [] (by simpa using h)

/-- **C79**, as far as the order in the deck counts: if the deck names the materials in alphabetical order, the
columns follow the deck. -/
theorem column_order_partial (dmax : ℚ) (blocks : Blocks) (materials : Str → Option Str) (lines : List (Str × Str)) (u : UqModel)
    (hs : (lines.map Prod.fst).Pairwise (· < ·))
    (hu : parseBlocks dmax blocks materials (uqParamsStrings lines) {} = .ok u) :
    u.order = lines.flatMap (fun l => (namesOf (split l.2)).map fun n => (blockIdFromMaterial blocks l.1, n)) := by
  rw [(parseBlocks_ok hu).1, uqParamsStrings_sorted lines hs]
  rfl

/-! ## Which blocks have parameters -/

theorem scaleOne_length {u : UqModel} {xi : List (List ℚ)} {i : ℕ} {blk : ℤ} {nm : Str} {s : ℕ} {t t' : Table}
    (h : scaleOne u xi i blk nm s t = some t') (b : ℤ) : (t' b).length = (t b).length := by
  unfold scaleOne at h
  simp only [Option.bind_eq_bind, Option.bind_eq_some_iff, Option.some.injEq] at h
  obtain ⟨d, -, row, -, x, -, rfl⟩ := h
  simp only
  split <;> simp

theorem scaleSamples_length {u : UqModel} {xi : List (List ℚ)} {i : ℕ} {blk : ℤ} {nm : Str} (l : List ℕ) :
    ∀ {t t' : Table}, l.foldlM (fun t s => scaleOne u xi i blk nm s t) t = some t' → ∀ b, (t' b).length = (t b).length := by
  induction l with
  | nil => intro t t' h b; cases h; rfl
  | cons s l ih =>
    intro t t' h b
    simp only [List.foldlM_cons, Option.bind_eq_bind, Option.bind_eq_some_iff] at h
    obtain ⟨t1, h1, h2⟩ := h
    rw [ih h2 b, scaleOne_length h1 b]

theorem scaleLoop_length {u : UqModel} {xi : List (List ℚ)} {ns : ℕ} (rest : List (ℤ × Str)) :
    ∀ {i : ℕ} {t t' : Table}, scaleLoop u xi ns i rest t = some t' → ∀ b, (t' b).length = (t b).length := by
  induction rest with
  | nil => intro i t t' h b; cases h; rfl
  | cons e rest ih =>
    intro i t t' h b
    obtain ⟨blk, nm⟩ := e
    simp only [scaleLoop, Option.bind_eq_bind, Option.bind_eq_some_iff] at h
    obtain ⟨t1, h1, h2⟩ := h
    rw [ih h2 b, scaleSamples_length _ h1 b]

/-- **C78**, exactly when it holds: after initialisation the parameters of sample `s` exist for a block of the deck
iff its material has a `uq parameters` line and no block with a smaller number uses the same material. -/
theorem parameters_exist_iff (dmax : ℚ) (blocks : Blocks) (hblocks : (blocks.map Prod.fst).Pairwise (· < ·))
    (hpos : ∀ e ∈ blocks, 0 ≤ e.1)
    (materials : Str → Option Str) (lines : List (Str × Str)) (file : Option Str) (u : UqModel) (r : Samples) (t : Table)
    (h : initializeSamples dmax blocks materials lines file = .ok (u, r, t)) (b : ℤ) (key : Str) (hb : (b, key) ∈ blocks)
    (s : ℕ) (hs : s < r.nexact + r.napprox) :
    (parameters t b s).isSome ↔ key ∈ lines.map Prod.fst ∧ ∀ b', (b', key) ∈ blocks → b ≤ b' := by
  unfold initializeSamples at h
  obtain ⟨u', hu, h⟩ := Outcome.bind_ok h
  obtain ⟨r', hr, h⟩ := Outcome.bind_ok h
  split at h
  swap
  · cases h
  rename_i t' ht
  cases h
  have hlen := scaleLoop_length _ ht b
  have hdist : ∀ b k1 k2, (b, k1) ∈ blocks → (b, k2) ∈ blocks → k1 = k2 := by
    intro b k1 k2 h1 h2
    have hnd : (blocks.map Prod.fst).Nodup := hblocks.imp (fun h => ne_of_lt h)
    obtain ⟨i, hi, hi'⟩ := List.mem_iff_getElem.1 h1
    obtain ⟨j, hj, hj'⟩ := List.mem_iff_getElem.1 h2
    have : i = j := by
      have := List.nodup_iff_injective_get.1 hnd
      have h3 := @this ⟨i, by simpa using hi⟩ ⟨j, by simpa using hj⟩ (by simp [hi', hj'])
      simpa using h3
    subst this
    rw [hi'] at hj'
    exact (Prod.mk.inj hj').2
  have hfirst : ∀ k b, blockIdFromMaterial blocks k = b → (b, key) ∈ blocks → k = key ∧ ∀ b', (b', key) ∈ blocks → b ≤ b' := by
    intro k b hkb hbm
    unfold blockIdFromMaterial at hkb
    split at hkb
    · rename_i e he
      obtain ⟨hk, as, bs, rfl, has⟩ := List.find?_eq_some_iff_append.1 he
      simp only [decide_eq_true_eq] at hk
      have hek : (b, k) ∈ as ++ e :: bs := by
        subst hkb; subst hk
        exact List.mem_append_right _ List.mem_cons_self
      have hkk := hdist b k key hek hbm
      refine ⟨hkk, fun b' hb' => ?_⟩
      rcases List.mem_append.1 hb' with h | h
      · have := has _ h
        simp [hkk] at this
      · rcases List.mem_cons.1 h with h | h
        · rw [← hkb, ← h]
        · rw [List.map_append, List.pairwise_append] at hblocks
          have h2 := (List.pairwise_cons.1 hblocks.2.1).1 b' (List.mem_map_of_mem h)
          rw [← hkb]; exact h2.le
    · have := hpos _ hbm
      omega
  have hiff : (∃ l ∈ uqParamsStrings lines, blockIdFromMaterial blocks l.1 = b) ↔
      key ∈ lines.map Prod.fst ∧ ∀ b', (b', key) ∈ blocks → b ≤ b' := by
    constructor
    · rintro ⟨l, hl, hlb⟩
      obtain ⟨h1, h2⟩ := hfirst l.1 b hlb hb
      refine ⟨?_, h2⟩
      rw [← (uqParamsStrings_spec lines).2 key, ← h1]
      exact List.mem_map_of_mem hl
    · rintro ⟨h1, h2⟩
      rw [← (uqParamsStrings_spec lines).2 key] at h1
      obtain ⟨l, hl, rfl⟩ := List.mem_map.1 h1
      refine ⟨l, hl, ?_⟩
      unfold blockIdFromMaterial
      split
      · rename_i e he
        obtain ⟨hk, as, bs, heq, has⟩ := List.find?_eq_some_iff_append.1 he
        simp only [decide_eq_true_eq] at hk
        have hem : (e.1, l.1) ∈ blocks := by rw [← hk]; exact heq ▸ List.mem_append_right _ List.mem_cons_self
        have h3 := (hfirst l.1 e.1 (by unfold blockIdFromMaterial; rw [he]) hem).2 b hb
        have h4 := h2 e.1 hem
        omega
      · rename_i he
        have := List.find?_eq_none.1 he (b, l.1) hb
        simp at this
  have hnom := (parseBlocks_ok hu).2 b
  rw [← hiff]
  unfold parameters
  have hsome : ((t b)[s]?).isSome ↔ s < (t b).length := by simp
  rw [hsome, hlen]
  have hzero : (({} : UqModel).nominal b).isSome = false := rfl
  rw [hzero] at hnom
  simp only [Bool.false_eq_true, false_or] at hnom
  rw [← hnom]
  unfold initialTable
  split
  · rename_i d hd; simp [hd]; omega
  · rename_i hd; simp [hd]

/-! ## Concrete cases -/

/-- Two materials. -/
def demoMaterials (k : Str) : Option Str :=
  if k = "steel".toList then some "neohookean density 7.8 bulk_modulus 100 shear_modulus 50".toList
  else if k = "aluminum".toList then some "neohookean density 2.7 bulk_modulus 60 shear_modulus 20".toList
  else none

/-- The deck: steel first, then aluminum. -/
def demoLines : List (Str × Str) :=
  [("steel".toList, "bulk_modulus 10".toList), ("aluminum".toList, "bulk_modulus 2 shear_modulus 1".toList)]

/-- Block 1 is steel, block 2 aluminum. -/
def demoBlocks : Blocks := [(1, "steel".toList), (2, "aluminum".toList)]

/-- Order of the columns after initialisation. -/
def columns : Outcome (UqModel × Samples × Table) → Option (List (ℤ × Str))
  | .ok (u, _, _) => some u.order
  | _ => none

/-- A parameter after initialisation. -/
def parameterOf (x : Outcome (UqModel × Samples × Table)) (b : ℤ) (s : ℕ) (name : String) : Option ℚ :=
  match x with
  | .ok (_, _, t) => (parameters t b s).bind fun d => d name.toList
  | _ => none

/-- **C79** is violated: the deck names steel first, but the first column is taken for aluminum. -/
theorem columns_not_in_deck_order :
    columns (initializeSamples 0 demoBlocks demoMaterials demoLines (some "1 0\n1 0 0\n".toList)) =
      some [(2, "bulk_modulus".toList), (2, "shear_modulus".toList), (1, "bulk_modulus".toList)] ∧
    parameterOf (initializeSamples 0 demoBlocks demoMaterials demoLines (some "1 0\n1 0 0\n".toList)) 1 0 "bulk_modulus" = some 100 ∧
    parameterOf (initializeSamples 0 demoBlocks demoMaterials demoLines (some "1 0\n1 0 0\n".toList)) 2 0 "bulk_modulus" = some 62 := by
  refine ⟨?_, ?_, ?_⟩ <;> decide +kernel

/-- Numbers sort as text: material_10 comes before material_2. -/
theorem ten_before_two : "material_10".toList < "material_2".toList := by decide

/-- **C78** is violated: blocks 1 and 3 share the uncertain steel; block 3 has no parameters for the sample, though
block 1 has. -/
theorem shared_material_has_no_parameters :
    parameterOf (initializeSamples 0 [(1, "steel".toList), (3, "steel".toList)] demoMaterials
      [("steel".toList, "bulk_modulus 10".toList)] (some "1 0\n1\n".toList)) 1 0 "bulk_modulus" = some 110 ∧
    parameterOf (initializeSamples 0 [(1, "steel".toList), (3, "steel".toList)] demoMaterials
      [("steel".toList, "bulk_modulus 10".toList)] (some "1 0\n1\n".toList)) 3 0 "bulk_modulus" = none := by
  refine ⟨?_, ?_⟩ <;> decide +kernel

/-- ... and so is it when a material has no line. -/
theorem material_without_line_has_no_parameters :
    parameterOf (initializeSamples 0 demoBlocks demoMaterials
      [("steel".toList, "bulk_modulus 10".toList)] (some "1 0\n1\n".toList)) 2 0 "bulk_modulus" = none := by
  decide +kernel

example : (demoBlocks.map Prod.fst).Pairwise (· < ·) ∧ ∀ e ∈ demoBlocks, 0 ≤ e.1 := by
  refine ⟨by decide, ?_⟩
  intro e he
  simp [demoBlocks] at he
  rcases he with rfl | rfl <;> simp

end NimbleSM.Uq
