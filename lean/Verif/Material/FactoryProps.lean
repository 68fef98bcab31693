import Verif.Material.Factory
import Verif.Parse.TokensProps

/-!
# C32: material parameter strings

`material_string_parse_partial`: well-formed lines give exactly the map they spell out.
`unknown_parameter_rejected`: an unknown name raises an error.
The two remaining parts of C32 are false of the code: `non_numeric_value_accepted`,
`missing_value_overreads`.
-/

namespace NimbleSM.Constitutive

open NimbleSM.Parse

/-- The text of a parameter line: model name, then name and value for each entry, with the given
gaps. -/
def Line (words : List (List Char)) (text : List Char) : Prop :=
  ∃ (lead : List Char) (l : List (List Char × List Char)), Blank lead ∧ Gaps l ∧
    l.map Prod.fst = words ∧ (∀ w ∈ words, Word w) ∧ text = lead ++ layout l

theorem blank_nil : Blank [] := by intro c hc; cases hc

theorem tokenize_line {words : List (List Char)} {text : List Char} (h : Line words text) :
    tokenize text = words := by
  obtain ⟨lead, l, h1, h2, h3, h4, rfl⟩ := h
  rw [tokenize_words lead h1 l (fun p hp => h4 _ (h3 ▸ List.mem_map_of_mem hp)) h2, h3]

/-- The words of a list of entries. -/
def entryWords (es : List (List Char × List Char)) : List (List Char) :=
  es.flatMap fun e => [e.1, e.2]

theorem parsePairs_entries (validD validS : List (List Char)) (dmax : ℚ)
    (es : List (List Char × List Char)) (hv : ∀ e ∈ es, e.1 ∈ validD) (tail : List (List Char)) :
    ∀ (d : DMap) (s : List Char → Option (List Char)),
    parsePairs validD validS dmax (entryWords es ++ tail) d s
      = parsePairs validD validS dmax tail
          (es.foldl (fun d e => DMap.insert d e.1 (stringToDouble dmax e.2)) d) s := by
  induction es with
  | nil => intro d s; rfl
  | cons e es ih =>
    intro d s
    have h1 := hv e (by simp)
    have h2 : entryWords (e :: es) ++ tail = e.1 :: e.2 :: (entryWords es ++ tail) := by
      simp [entryWords]
    rw [h2, parsePairs, if_pos h1, ih (fun e' he' => hv e' (by simp [he']))]
    rfl

/-- First entry with a given name wins. -/
theorem foldl_insert (dmax : ℚ) (es : List (List Char × List Char)) : ∀ (d : DMap) (k : List Char),
    es.foldl (fun d e => DMap.insert d e.1 (stringToDouble dmax e.2)) d k
      = (d k).or ((es.find? fun e => e.1 = k).map fun e => stringToDouble dmax e.2) := by
  induction es with
  | nil => intro d k; cases h : d k <;> simp [h]
  | cons e es ih =>
    intro d k
    rw [List.foldl_cons, ih]
    by_cases h : e.1 = k
    · subst h
      simp only [List.find?_cons, decide_true, Option.map_some, DMap.insert]
      cases hd : d e.1 <;> simp
    · have h' : ¬ (k = e.1 ∧ d e.1 = none) := fun hh => h hh.1.symm
      simp only [List.find?_cons, h, decide_false, DMap.insert, if_neg h']

/-- **C32.**  For a line consisting of a model name and name/value pairs with distinct registered
names and decimal literals as values, the parser returns the model name and exactly that map. -/
theorem material_string_parse_partial (dmax : ℚ) (name : List Char)
    (es : List (List Char × Lit)) (text : List Char)
    (hline : Line (name :: entryWords (es.map fun e => (e.1, e.2.text))) text) (hne : es ≠ [])
    (hvalid : ∀ e ∈ es, e.1 ∈ validNames ∧ e.2.Valid) (hdist : (es.map Prod.fst).Nodup) :
    ∃ p, parseMaterialParametersString dmax text = .ok p ∧ p.name = name ∧
      parseMaterialParamsStringToMap dmax text = .ok p.dbl ∧
      ∀ k v, p.dbl k = some v ↔ ∃ l, (k, l) ∈ es ∧ l.value = v := by
  have ht := tokenize_line hline
  have hpairs := parsePairs_entries validNames [] dmax (es.map fun e => (e.1, e.2.text))
    (by intro e he; obtain ⟨e', he', rfl⟩ := List.mem_map.mp he; exact (hvalid e' he').1) []
    (fun _ => none) (fun _ => none)
  rw [List.append_nil, parsePairs] at hpairs
  obtain ⟨e₀, es', rfl⟩ := List.exists_cons_of_ne_nil hne
  have hw : entryWords ((e₀ :: es').map fun e => (e.1, e.2.text))
      = e₀.1 :: (e₀.2.text :: entryWords (es'.map fun e => (e.1, e.2.text))) := rfl
  rw [hw] at hpairs ht
  refine ⟨⟨name, ((e₀ :: es').map fun e => (e.1, e.2.text)).foldl
    (fun d e => DMap.insert d e.1 (stringToDouble dmax e.2)) (fun _ => none), fun _ => none⟩,
    ?_, rfl, ?_, ?_⟩
  rotate_left
  · unfold parseMaterialParamsStringToMap
    rw [ht]
    simp only [hpairs]
  · intro k v
    simp only
    rw [foldl_insert]
    simp only [Option.none_or]
    constructor
    · intro h
      obtain ⟨e, he, hev⟩ := Option.map_eq_some_iff.mp h
      have hm := List.mem_of_find?_eq_some he
      have hk : e.1 = k := by simpa using List.find?_some he
      obtain ⟨e', he', rfl⟩ := List.mem_map.mp hm
      refine ⟨e'.2, ?_, ?_⟩
      · rw [← hk]; exact he'
      · rw [← hev, stringToDouble_literal _ _ (hvalid e' he').2]
    · rintro ⟨l, hl, rfl⟩
      have : ((e₀ :: es').map fun e => (e.1, e.2.text)).find? (fun e => e.1 = k) = some (k, l.text) := by
        clear hpairs ht hw hline hne hvalid
        generalize e₀ :: es' = L at *
        induction L with
        | nil => simp at hl
        | cons e L ih =>
          rw [List.map_cons, List.nodup_cons] at hdist
          rcases List.mem_cons.mp hl with h | h
          · subst h; simp
          · have hne : e.1 ≠ k := by
              intro he
              exact hdist.1 (List.mem_map.mpr ⟨(k, l), h, he.symm⟩)
            simp only [List.map_cons, List.find?_cons, hne, decide_false]
            exact ih hdist.2 h
      rw [this, Option.map_some, stringToDouble_literal _ _ (hvalid (k, l) hl).2]
  · unfold parseMaterialParametersString
    rw [ht]
    simp only [hpairs]

/-- **C32.**  The material built from such a line has the density and moduli the line gives, whatever
the order of the entries. -/
theorem material_created_partial (dmax : ℚ) (model : Model) (es : List (List Char × Lit))
    (text : List Char)
    (hline : Line ((match model with
      | .neohookean => "neohookean".toList
      | .elastic => "elastic".toList) :: entryWords (es.map fun e => (e.1, e.2.text))) text)
    (hvalid : ∀ e ∈ es, e.1 ∈ validNames ∧ e.2.Valid) (hdist : (es.map Prod.fst).Nodup)
    (d k g : Lit) (hd : ("density".toList, d) ∈ es) (hk : ("bulk_modulus".toList, k) ∈ es)
    (hg : ("shear_modulus".toList, g) ∈ es) :
    parseAndCreate dmax text = .ok (model, ⟨d.value, k.value, g.value⟩) := by
  have hne : es ≠ [] := by intro h; rw [h] at hd; simp at hd
  obtain ⟨p, hp, hname, -, hmap⟩ := material_string_parse_partial dmax _ es text hline hne hvalid hdist
  have h1 := (hmap _ _).mpr ⟨d, hd, rfl⟩
  have h2 := (hmap _ _).mpr ⟨k, hk, rfl⟩
  have h3 := (hmap _ _).mpr ⟨g, hg, rfl⟩
  have hc : construct p = .ok ⟨d.value, k.value, g.value⟩ := by
    simp only [construct, getParameterValue, h1, h2, h3]
  unfold parseAndCreate
  rw [hp]
  simp only [create, hname, hc]
  cases model
  · simp
  · simp only [if_neg (show ¬ ("elastic".toList = "neohookean".toList) by decide +kernel)]
    simp

/-- **C32.**  An unknown parameter name raises an error: whatever valid entries precede it, whatever
follows it. -/
theorem unknown_parameter_rejected (dmax : ℚ) (name key val : List Char)
    (es : List (List Char × List Char)) (rest : List (List Char)) (text : List Char)
    (hline : Line (name :: (entryWords es ++ key :: val :: rest)) text)
    (hvalid : ∀ e ∈ es, e.1 ∈ validNames) (hkey : key ∉ validNames) :
    parseMaterialParametersString dmax text = .invalidArgument ∧
      parseMaterialParamsStringToMap dmax text = .invalidArgument ∧
      parseAndCreate dmax text = .invalidArgument := by
  have ht := tokenize_line hline
  have hpairs := parsePairs_entries validNames [] dmax es hvalid (key :: val :: rest)
    (fun _ => none) (fun _ => none)
  rw [parsePairs, if_neg hkey, if_neg (by simp)] at hpairs
  obtain ⟨t, ts, hts⟩ : ∃ t ts, entryWords es ++ key :: val :: rest = t :: ts := by
    cases h : entryWords es with
    | nil => exact ⟨key, val :: rest, rfl⟩
    | cons a b => exact ⟨a, b ++ key :: val :: rest, rfl⟩
  rw [hts] at ht hpairs
  have h1 : parseMaterialParametersString dmax text = .invalidArgument := by
    unfold parseMaterialParametersString; rw [ht]; simp only [hpairs]
  refine ⟨h1, ?_, ?_⟩
  · unfold parseMaterialParamsStringToMap; rw [ht]; simp only [hpairs]
  · unfold parseAndCreate; rw [h1]

/-- An unknown model name raises an error when the material is created. -/
theorem unknown_model_rejected (p : Params) (h1 : p.name ≠ "neohookean".toList)
    (h2 : p.name ≠ "elastic".toList) : create p = .invalidArgument := by
  simp only [create, if_neg h1, if_neg h2]

/-- A missing parameter raises an error when the material is created. -/
theorem missing_parameter_rejected (p : Params)
    (h : p.dbl "density".toList = none ∨ p.dbl "bulk_modulus".toList = none ∨
      p.dbl "shear_modulus".toList = none) : create p = .invalidArgument := by
  have hc : construct p = .invalidArgument := by
    unfold construct getParameterValue
    rcases h with h | h | h
    · rw [h]
    · rw [h]; cases p.dbl "density".toList <;> rfl
    · rw [h]; cases p.dbl "density".toList <;> cases p.dbl "bulk_modulus".toList <;> rfl
  unfold create
  rw [hc]
  split_ifs <;> rfl

/-- **C32 fails (values).**  A value that is not a number is accepted and read as zero. -/
theorem non_numeric_value_accepted (dmax : ℚ) :
    ∃ p, parseMaterialParametersString dmax "elastic density steel".toList = .ok p ∧
      p.dbl "density".toList = some 0 := by
  have ht : tokenize "elastic density steel".toList
      = ["elastic".toList, "density".toList, "steel".toList] :=
    tokenize_words [] blank_nil [("elastic".toList, " ".toList),
      ("density".toList, " ".toList), ("steel".toList, [])]
      (by simp only [Word]; decide +kernel)
      (.cons _ _ _ blank_nil (.cons _ _ _ blank_nil (.last _)))
  have hz : stringToDouble dmax "steel".toList = 0 :=
    stringToDouble_not_a_number dmax 's' "teel".toList (by decide) (by decide) (by decide)
  refine ⟨⟨"elastic".toList, DMap.insert (fun _ => none) "density".toList 0, fun _ => none⟩, ?_, ?_⟩
  · unfold parseMaterialParametersString
    rw [ht]
    have : "density".toList ∈ validNames := by decide +kernel
    simp only [parsePairs, if_pos this, hz]
  · simp [DMap.insert]

/-- **C32 fails (missing value).**  If the last value is missing the parser does not report it: it
reads past the end of the token vector, whatever the last name is. -/
theorem missing_value_overreads (dmax : ℚ) (name key : List Char) (es : List (List Char × List Char))
    (text : List Char) (hline : Line (name :: (entryWords es ++ [key])) text)
    (hvalid : ∀ e ∈ es, e.1 ∈ validNames) :
    parseMaterialParametersString dmax text = .overread := by
  have ht := tokenize_line hline
  have hpairs := parsePairs_entries validNames [] dmax es hvalid [key] (fun _ => none) (fun _ => none)
  rw [parsePairs] at hpairs
  obtain ⟨t, ts, hts⟩ : ∃ t ts, entryWords es ++ [key] = t :: ts := by
    cases h : entryWords es with
    | nil => exact ⟨key, [], rfl⟩
    | cons a b => exact ⟨a, b ++ [key], rfl⟩
  rw [hts] at ht hpairs
  unfold parseMaterialParametersString; rw [ht]; simp only [hpairs]

/-- Non-vacuity: a complete line. -/
example : parseAndCreate 0 "neohookean density 7.8 shear_modulus 8e11 bulk_modulus 1.6e12".toList
    = .ok (.neohookean, ⟨39 / 5, 1600000000000, 800000000000⟩) := by
  have h := material_created_partial 0 .neohookean
    [("density".toList, ⟨none, [7], some [8], none⟩),
     ("shear_modulus".toList, ⟨none, [8], none, some (false, none, [1, 1])⟩),
     ("bulk_modulus".toList, ⟨none, [1], some [6], some (false, none, [1, 2])⟩)]
    "neohookean density 7.8 shear_modulus 8e11 bulk_modulus 1.6e12".toList
    ⟨[], [("neohookean".toList, " ".toList), ("density".toList, " ".toList), ("7.8".toList, " ".toList),
      ("shear_modulus".toList, " ".toList), ("8e11".toList, " ".toList),
      ("bulk_modulus".toList, " ".toList), ("1.6e12".toList, [])],
      blank_nil,
      .cons _ _ _ blank_nil (.cons _ _ _ blank_nil
        (.cons _ _ _ blank_nil (.cons _ _ _ blank_nil
        (.cons _ _ _ blank_nil (.cons _ _ _ blank_nil (.last _)))))),
      by decide +kernel, (by simp only [Word]; decide +kernel), by decide +kernel⟩
    (by
      intro e he
      simp only [List.mem_cons, List.not_mem_nil, or_false] at he
      rcases he with rfl | rfl | rfl
      · exact ⟨by decide +kernel, by simp [Lit.Valid]⟩
      · exact ⟨by decide +kernel, by simp [Lit.Valid]⟩
      · exact ⟨by decide +kernel, by simp [Lit.Valid]⟩)
    (by decide +kernel)
    ⟨none, [7], some [8], none⟩ ⟨none, [1], some [6], some (false, none, [1, 2])⟩
    ⟨none, [8], none, some (false, none, [1, 1])⟩
    (by simp) (by simp) (by simp)
  rw [h]
  congr 2
  have e1 : Lit.value ⟨none, [7], some [8], none⟩ = 39 / 5 := by decide +kernel
  have e2 : Lit.value ⟨none, [1], some [6], some (false, none, [1, 2])⟩ = 1600000000000 := by
    decide +kernel
  have e3 : Lit.value ⟨none, [8], none, some (false, none, [1, 1])⟩ = 800000000000 := by decide +kernel
  rw [e1, e2, e3]

/-- Non-vacuity: a line whose last value is missing. -/
example : parseMaterialParametersString 0 "elastic density".toList = .overread :=
  missing_value_overreads 0 "elastic".toList "density".toList [] _
    ⟨[], [("elastic".toList, " ".toList), ("density".toList, [])], blank_nil,
      .cons _ _ _ blank_nil (.last _), rfl, (by simp only [Word]; decide +kernel),
      by decide +kernel⟩ (by simp)

end NimbleSM.Constitutive
