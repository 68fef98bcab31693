import Verif.Parse.FileName
import Verif.Parse.DeckLemmas
import Verif.Parse.DeckSettingsProps

/-!
# C39: file names of ranks
-/

namespace NimbleSM.FileName

open NimbleSM.Parse NimbleSM.Deck
open NimbleSM.Fields (decimal decimal_digits digitsVal_decimal decimal_ne_nil)

/-! ## Specification -/

/-- No white space. -/
def Solid (s : Str) : Prop := ∀ c ∈ s, isSpace c = false

/-- The text does not contain `.g` or `.e`. -/
def NoSuffixInside (s : Str) : Prop :=
  ∀ a b : Str, s ≠ a ++ ('.' :: 'g' :: b) ∧ s ≠ a ++ ('.' :: 'e' :: b)

/-- `f` is the number `r` written with as many digits as `n` has. -/
def IsPadded (f : Str) (r n : ℕ) : Prop :=
  f.length = (decimal n).length ∧ (∀ c ∈ f, isDigit c = true) ∧ digitsVal f = r

/-- `stem[.label].extension`. -/
def serialName (stem label extension : Str) : Str :=
  if label = [] then stem ++ '.' :: extension else stem ++ '.' :: label ++ '.' :: extension

/-! ## Decimal numbers -/

theorem decimal_length_mono {a b : ℕ} (h : a ≤ b) : (decimal a).length ≤ (decimal b).length := by
  induction b using Nat.strong_induction_on generalizing a with
  | _ b ih =>
    rw [decimal, decimal.eq_def b]
    by_cases hb : b < 10
    · simp [hb, show a < 10 by omega]
    · by_cases ha : a < 10
      · simp [hb, ha]
      · have := ih (b / 10) (by omega) (a := a / 10) (by omega)
        simp [hb, ha, this]

theorem digitsVal_cons (c : Char) (s : Str) : digitsVal (c :: s) = digitVal c * 10 ^ s.length + digitsVal s := by
  have aux : ∀ (s : Str) (x : ℕ), s.foldl (fun a c => 10 * a + digitVal c) x
      = x * 10 ^ s.length + s.foldl (fun a c => 10 * a + digitVal c) 0 := by
    intro s
    induction s with
    | nil => intro x; simp
    | cons d s ih =>
      intro x
      rw [List.foldl_cons, List.foldl_cons, ih (10 * x + digitVal d), ih (10 * 0 + digitVal d), List.length_cons,
        pow_succ]
      ring
  unfold digitsVal
  rw [List.foldl_cons, aux]
  simp

theorem digitsVal_lt (s : Str) (h : ∀ c ∈ s, isDigit c = true) : digitsVal s < 10 ^ s.length := by
  induction s with
  | nil => simp [digitsVal]
  | cons c s ih =>
    rw [digitsVal_cons, List.length_cons, pow_succ]
    have h1 := ih fun x hx => h x (by simp [hx])
    have h2 : digitVal c ≤ 9 := by
      have := h c (by simp)
      simp only [isDigit, Bool.and_eq_true, decide_eq_true_eq] at this
      unfold digitVal
      have e0 : ('0' : Char).toNat = 48 := rfl
      have e9 : ('9' : Char).toNat = 57 := rfl
      omega
    nlinarith

theorem digitsVal_zeros (k : ℕ) (s : Str) : digitsVal (List.replicate k '0' ++ s) = digitsVal s := by
  induction k with
  | zero => rfl
  | succ k ih =>
    rw [List.replicate_succ, List.cons_append, digitsVal_cons, ih]
    simp [digitVal]

theorem padded_spec {r n : ℕ} (h : r < n) :
    IsPadded (List.replicate ((decimal n).length - (decimal r).length) '0' ++ decimal r) r n := by
  have hl := decimal_length_mono (Nat.le_of_lt h)
  refine ⟨by simp; omega, fun c hc => ?_, ?_⟩
  · rcases List.mem_append.1 hc with h | h
    · rw [List.eq_of_mem_replicate h]; decide
    · exact decimal_digits r c h
  · rw [digitsVal_zeros, digitsVal_decimal]

/-- Equally long digit strings are ordered as their values. -/
theorem lex_of_digitsVal {a b : Str} (hl : a.length = b.length) (ha : ∀ c ∈ a, isDigit c = true)
    (hb : ∀ c ∈ b, isDigit c = true) (h : digitsVal a < digitsVal b) : a < b := by
  induction a generalizing b with
  | nil => cases b with
    | nil => simp at h
    | cons => simp at hl
  | cons x a ih =>
    cases b with
    | nil => simp at hl
    | cons y b =>
      simp only [List.length_cons, Nat.add_right_cancel_iff] at hl
      rw [digitsVal_cons, digitsVal_cons, hl] at h
      have hx := ha x (by simp)
      have hy := hb y (by simp)
      simp only [isDigit, Bool.and_eq_true, decide_eq_true_eq] at hx hy
      have e0 : ('0' : Char).toNat = 48 := rfl
      have hA := digitsVal_lt a fun c hc => ha c (by simp [hc])
      have hB := digitsVal_lt b fun c hc => hb c (by simp [hc])
      rw [hl] at hA
      rcases lt_trichotomy x.toNat y.toNat with hxy | hxy | hxy
      · exact List.cons_lt_cons_iff.2 (.inl hxy)
      · have : x = y := by rw [← Char.ofNat_toNat x, hxy, Char.ofNat_toNat]
        subst this
        refine List.cons_lt_cons_iff.2 (.inr ⟨rfl, ih hl (fun c hc => ha c (by simp [hc]))
          (fun c hc => hb c (by simp [hc])) (by omega)⟩)
      · exfalso
        have : digitVal y + 1 ≤ digitVal x := by unfold digitVal; omega
        have := Nat.mul_le_mul_right (10 ^ b.length) this
        rw [Nat.add_mul] at this
        omega

/-! ## The stem -/

theorem rfind2_none {c d : Char} {s : Str} (h : ∀ a b, s ≠ a ++ c :: d :: b) : rfind2 c d s = none := by
  unfold rfind2
  rw [List.find?_eq_none]
  intro i _ hp
  simp only [pairAt, Bool.and_eq_true, decide_eq_true_eq] at hp
  apply h (s.take i) (s.drop (i + 2))
  obtain ⟨h1, h2⟩ := hp
  have l1 := (List.getElem?_eq_some_iff.1 h1).1
  have l2 := (List.getElem?_eq_some_iff.1 h2).1
  have e1 := (List.getElem?_eq_some_iff.1 h1).2
  have e2 := (List.getElem?_eq_some_iff.1 h2).2
  conv_lhs => rw [← List.take_append_drop i s]
  rw [List.drop_eq_getElem_cons l1, List.drop_eq_getElem_cons l2, e1, e2]

theorem rfind2_last {c d : Char} {s : Str} (hcd : c ≠ d) : rfind2 c d (s ++ [c, d]) = some s.length := by
  unfold rfind2
  have hlen : (s ++ [c, d]).length = s.length + 1 + 1 := by simp
  rw [hlen, List.range_succ, List.reverse_append, List.range_succ, List.reverse_append]
  have h1 : pairAt c d (s ++ [c, d]) (s.length + 1) = false := by
    simp [pairAt, List.getElem?_append_right]
  have h2 : pairAt c d (s ++ [c, d]) s.length = true := by
    simp [pairAt, List.getElem?_append_right]
  simp [h1, h2]

theorem cutAt_subset {c d : Char} {s : Str} : ∀ x ∈ cutAt c d s, x ∈ s := by
  intro x hx
  unfold cutAt at hx
  split at hx
  · exact List.mem_of_mem_take hx
  · exact hx

theorem stem_of_g {stem : Str} (h : NoSuffixInside stem) :
    cutAt '.' 'e' (cutAt '.' 'g' (stem ++ ".g".toList)) = stem := by
  have h1 : cutAt '.' 'g' (stem ++ ".g".toList) = stem := by
    unfold cutAt
    rw [show stem ++ ".g".toList = stem ++ ['.', 'g'] from rfl, rfind2_last (by decide)]
    simp
  rw [h1]
  unfold cutAt
  rw [rfind2_none fun a b => (h a b).2]

theorem stem_of_e {stem : Str} (h : NoSuffixInside stem) :
    cutAt '.' 'e' (cutAt '.' 'g' (stem ++ ".e".toList)) = stem := by
  have h1 : cutAt '.' 'g' (stem ++ ".e".toList) = stem ++ ".e".toList := by
    unfold cutAt
    rw [rfind2_none]
    intro a b e
    rcases List.eq_nil_or_concat b with rfl | ⟨b', x, rfl⟩
    · have : stem ++ ['.', 'e'] = a ++ ['.', 'g'] := e
      have := congrArg List.getLast? this
      simp [List.getLast?_append] at this
    · rcases List.eq_nil_or_concat b' with rfl | ⟨b'', y, rfl⟩
      · have e' : (stem ++ ['.']) ++ ['e'] = (a ++ ['.', 'g']) ++ [x] := by simpa using e
        have e'' := (List.append_inj' e' rfl).1
        have : stem ++ ['.'] = (a ++ ['.']) ++ ['g'] := by simpa using e''
        have := (List.append_inj' this rfl).2
        simp at this
      · have e' : stem ++ ['.', 'e'] = (a ++ ('.' :: 'g' :: b'')) ++ [y, x] := by simpa using e
        exact (h a b'').1 (List.append_inj' e' rfl).1
  rw [h1]
  unfold cutAt
  rw [show stem ++ ".e".toList = stem ++ ['.', 'e'] from rfl, rfind2_last (by decide)]
  simp

theorem withLabel_eq (base label extension : Str) : withLabel base label extension = serialName base label extension := by
  unfold withLabel serialName
  by_cases h : label = [] <;> simp [h]

theorem first_word {s : Str} (h : Solid s) :
    (s.dropWhile isSpace).takeWhile (fun c => !isSpace c) = s := by
  cases s with
  | nil => rfl
  | cons c s =>
    rw [List.dropWhile_cons_of_neg (by simp [h c (by simp)])]
    exact takeWhile_eq_self fun x hx => by simp [h x hx]

theorem rankSuffix_solid (r n : ℕ) : Solid (rankSuffix r n) := by
  intro c hc
  have hd : ∀ k : ℕ, ∀ c ∈ decimal k, isSpace c = false := fun k c hc => (isDigit_not_space (decimal_digits k c hc)).1
  simp only [rankSuffix, List.mem_cons, List.mem_append] at hc
  rcases hc with rfl | hc | rfl | hc | hc
  · decide
  · exact hd _ c hc
  · decide
  · rw [List.eq_of_mem_replicate hc]; decide
  · exact hd _ c hc

theorem serialName_solid {stem label extension : Str} (hs : Solid stem) (hl : Solid label) (he : Solid extension) :
    Solid (serialName stem label extension) := by
  intro c hc
  unfold serialName at hc
  split at hc
  · simp only [List.mem_append, List.mem_cons] at hc
    rcases hc with hc | rfl | hc
    · exact hs c hc
    · decide
    · exact he c hc
  · simp only [List.mem_append, List.mem_cons] at hc
    rcases hc with (hc | rfl | hc) | rfl | hc
    · exact hs c hc
    · decide
    · exact hl c hc
    · decide
    · exact he c hc

/-! ## C39 -/

theorem g_ne_none (stem : Str) : stem ++ ".g".toList ≠ "none".toList ∧ stem ++ ".e".toList ≠ "none".toList := by
  constructor
  · intro h
    have := congrArg List.getLast? h
    simp [List.getLast?_append] at this
  · intro h
    have : stem ++ ['.', 'e'] = ['n', 'o'] ++ ['n', 'e'] := h
    have := (List.append_inj' this rfl).2
    simp at this

/-- **C39 (partial).**  For a base name `stem.g` or `stem.e` whose stem contains no white space and no
further `.g` or `.e`, the name is `stem[.label].extension`, followed in a run with `n > 1` ranks by
`.n.r` with the rank written with as many digits as `n`.  With one rank there is no suffix (and white
space does no harm).  Missing, because false: white space, and `.g`/`.e` inside the stem. -/
theorem rank_name_form_partial (stem label extension : Str) (suffix : Str)
    (hsuf : suffix = ".g".toList ∨ suffix = ".e".toList) (hstem : NoSuffixInside stem) (r n : ℕ) (hr : r < n) :
    (n = 1 → ioFileName (stem ++ suffix) extension label r n = serialName stem label extension) ∧
    (1 < n → Solid stem → Solid label → Solid extension → ∃ f, IsPadded f r n ∧
      ioFileName (stem ++ suffix) extension label r n
        = serialName stem label extension ++ '.' :: (decimal n ++ '.' :: f)) := by
  have hne : stem ++ suffix ≠ "none".toList := by
    rcases hsuf with rfl | rfl
    · exact (g_ne_none stem).1
    · exact (g_ne_none stem).2
  have hcut : cutAt '.' 'e' (cutAt '.' 'g' (stem ++ suffix)) = stem := by
    rcases hsuf with rfl | rfl
    · exact stem_of_g hstem
    · exact stem_of_e hstem
  constructor
  · rintro rfl
    unfold ioFileName
    simp only [if_neg hne, hcut, withLabel_eq]
    simp
  · intro h1 hs hl he
    refine ⟨_, padded_spec hr, ?_⟩
    unfold ioFileName
    simp only [if_neg hne, hcut, withLabel_eq, if_pos h1]
    rw [first_word]
    · rfl
    · intro c hc
      rcases List.mem_append.1 hc with h | h
      · exact serialName_solid hs hl he c h
      · exact rankSuffix_solid r n c h

/-- On several ranks, for a name without white space: a common start, then the padded rank. -/
theorem name_prefix (name label extension : Str) (hn : name ≠ "none".toList) (hs : Solid name) (hl : Solid label)
    (he : Solid extension) (n : ℕ) :
    ∃ base, ∀ r, 1 < n → r < n → ∃ f, IsPadded f r n ∧ ioFileName name extension label r n = base ++ f := by
  refine ⟨serialName (cutAt '.' 'e' (cutAt '.' 'g' name)) label extension ++ '.' :: (decimal n ++ ['.']),
    fun r h1 hr => ⟨_, padded_spec hr, ?_⟩⟩
  unfold ioFileName
  simp only [if_neg hn, withLabel_eq, if_pos h1]
  rw [first_word]
  · simp [rankSuffix]
  · intro c hc
    rcases List.mem_append.1 hc with h | h
    · refine serialName_solid (fun c hc => hs c ?_) hl he c h
      exact cutAt_subset c (cutAt_subset c hc)
    · exact rankSuffix_solid r n c h

/-- **C39 (partial).**  Whatever the base name (other than "none"), as long as there is no white space in
name, label and extension: different ranks get different names, and names sort in rank order. -/
theorem rank_names_sorted_partial (name label extension : Str) (hn : name ≠ "none".toList) (hs : Solid name)
    (hl : Solid label) (he : Solid extension) (n r r' : ℕ) (hrr : r < r') (hr' : r' < n) :
    ioFileName name extension label r n < ioFileName name extension label r' n ∧
    ioFileName name extension label r n ≠ ioFileName name extension label r' n := by
  obtain ⟨base, h⟩ := name_prefix name label extension hn hs hl he n
  obtain ⟨f, ⟨hf1, hf2, hf3⟩, e⟩ := h r (by omega) (by omega)
  obtain ⟨f', ⟨hf1', hf2', hf3'⟩, e'⟩ := h r' (by omega) (by omega)
  have hlt : f < f' := lex_of_digitsVal (by omega) hf2 hf2' (by omega)
  have hlt' : base ++ f < base ++ f' := List.append_left_lt hlt
  rw [e, e']
  refine ⟨hlt', fun h => ?_⟩
  have := List.append_cancel_left h
  rw [this] at hf3
  omega

example : NoSuffixInside "cubes/two_cubes".toList ∧ Solid "cubes/two_cubes".toList ∧
    ioFileName "cubes/two_cubes.g".toList "e".toList "kokkos".toList 7 12 = "cubes/two_cubes.kokkos.e.12.07".toList ∧
    ioFileName "cubes/two_cubes.g".toList "e".toList "kokkos".toList 10 12 = "cubes/two_cubes.kokkos.e.12.10".toList := by
  refine ⟨fun a b => ⟨fun h => ?_, fun h => ?_⟩, by unfold Solid; decide, by decide +kernel, by decide +kernel⟩
  all_goals
    have : '.' ∈ "cubes/two_cubes".toList := by rw [h]; simp
    revert this; decide

/-- **C39 fails: white space.**  With a blank in the base name every rank of a parallel run gets the same
file name, which also lacks label, extension and rank. -/
theorem blank_in_name_all_ranks_collide (r n : ℕ) (hn : 1 < n) :
    ioFileName "my mesh.g".toList "e".toList [] r n = "my".toList := by
  unfold ioFileName
  have hc : withLabel (cutAt '.' 'e' (cutAt '.' 'g' "my mesh.g".toList)) [] "e".toList
      = 'm' :: 'y' :: ' ' :: "mesh.e".toList := by decide +kernel
  rw [if_neg (by decide)]
  simp only [hc, if_pos hn]
  rfl

/-- **C39 fails: `.g` or `.e` inside a path.**  Everything from the last `.e` on is cut off, so different
meshes in a directory such as `run.early` lead to the same output file. -/
theorem suffix_inside_path_cuts : ioFileName "run.early/a.g".toList "e".toList [] 0 1 = "run.e".toList ∧
    ioFileName "run.early/b.g".toList "e".toList [] 0 1 = "run.e".toList := by decide +kernel

/-! ### The version with threads -/

theorem rankSuffix_inj {r r' n : ℕ} (hr : r < n) (hr' : r' < n) (h : rankSuffix r n = rankSuffix r' n) : r = r' := by
  unfold rankSuffix at h
  have h1 := (List.cons.inj h).2
  have h2 := (List.cons.inj (List.append_cancel_left h1)).2
  rw [← (padded_spec hr).2.2, ← (padded_spec hr').2.2, h2]

theorem rankSuffix_length {r r' n : ℕ} (hr : r < n) (hr' : r' < n) :
    (rankSuffix r n).length = (rankSuffix r' n).length := by
  have h1 := (padded_spec hr).1
  have h2 := (padded_spec hr').1
  simp only [rankSuffix, List.length_cons, List.length_append] at h1 h2 ⊢
  omega

/-- **C39.**  The thread-safe version never overruns for valid ranks and gives different names to
different (rank, thread) pairs, whatever characters the name contains. -/
theorem thread_names_distinct (name label extension : Str) (n m r r' t t' : ℕ) (hr : r < n) (hr' : r' < n)
    (ht : t < m) (ht' : t' < m) :
    (∃ f, ioFileNameThreadSafe name extension label r n t m = some f) ∧
    (ioFileNameThreadSafe name extension label r n t m = ioFileNameThreadSafe name extension label r' n t' m →
      r = r' ∧ t = t') := by
  have hp : ∀ {r n : ℕ}, r < n → paddedSuffix r n = some (rankSuffix r n) := fun h => by
    unfold paddedSuffix
    rw [if_pos (decimal_length_mono (Nat.le_of_lt h))]
  unfold ioFileNameThreadSafe
  simp only [hp hr, hp hr', hp ht, hp ht', Option.map_some]
  generalize (if extension.length > 0 then _ else _ : Str) = base
  by_cases hn : n > 1 <;> by_cases hm : m > 1
  · simp only [if_pos hn, if_pos hm, Option.bind_some, Option.some.injEq, exists_eq', true_and]
    intro h
    rw [List.append_assoc, List.append_assoc] at h
    obtain ⟨e1, e2⟩ := List.append_inj (List.append_cancel_left h) (rankSuffix_length hr hr')
    exact ⟨rankSuffix_inj hr hr' e1, rankSuffix_inj ht ht' e2⟩
  · simp only [if_pos hn, if_neg hm, Option.bind_some, Option.some.injEq, exists_eq', true_and]
    intro h
    exact ⟨rankSuffix_inj hr hr' (List.append_cancel_left h), by omega⟩
  · simp only [if_neg hn, if_pos hm, Option.bind_some, Option.some.injEq, exists_eq', true_and]
    intro h
    exact ⟨by omega, rankSuffix_inj ht ht' (List.append_cancel_left h)⟩
  · simp only [if_neg hn, if_neg hm, Option.bind_some, Option.some.injEq, exists_eq', true_and]
    intro _
    exact ⟨by omega, by omega⟩

example : ioFileNameThreadSafe "my mesh.g".toList "e".toList "out".toList 3 16 1 4
    = some "my mesh.out.e.16.03.4.1".toList := by decide +kernel

end NimbleSM.FileName
