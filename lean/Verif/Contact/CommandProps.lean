import Verif.Contact.Command
import Verif.Uq.ReadProps

/-!
# C15: contact commands
-/

namespace NimbleSM.Contact

open NimbleSM.Parse NimbleSM.Uq
open NimbleSM.Deck (Str)

/-- The stream will deliver exactly these words. -/
def Delivers (ws : List Str) (s : Stream) : Prop := split s.rest = ws ∧ (s.good = false → s.rest = [])

theorem extractWord_nil {s : Stream} (h : Delivers [] s) : (extractWord s).1 = [] ∧ (extractWord s).2 = ⟨[], false⟩ := by
  unfold extractWord
  by_cases hg : s.good = true
  · rw [if_pos hg]
    have := h.1
    rw [split] at this
    split at this
    · rename_i h1; rw [h1]; exact ⟨rfl, rfl⟩
    · cases this
  · rw [if_neg hg]
    have hr := h.2 (by simpa using hg)
    refine ⟨rfl, ?_⟩
    cases s
    simp only at hr hg
    simp only [hr, Stream.mk.injEq, true_and]
    simpa using hg

theorem extractWord_cons {w : Str} {ws : List Str} {s : Stream} (h : Delivers (w :: ws) s) :
    s.good = true ∧ (extractWord s).1 = w ∧ Delivers ws (extractWord s).2 ∧ ((extractWord s).2.good = false → ws = []) := by
  have hg : s.good = true := by
    by_contra hn
    have hr := h.2 (by simpa using hn)
    have := h.1
    rw [hr, split_nil_of_blank (by intro c hc; cases hc)] at this
    cases this
  refine ⟨hg, ?_⟩
  have h1 := h.1
  rw [split] at h1
  split at h1
  · cases h1
  · rename_i c cs hd
    rw [List.cons.injEq] at h1
    unfold extractWord
    rw [if_pos hg, hd]
    simp only
    refine ⟨h1.1, ⟨h1.2, fun hb => by simpa using hb⟩, fun hb => ?_⟩
    have : (c :: cs).dropWhile (fun c => !isSpace c) = [] := by simpa using hb
    rw [← h1.2, this]
    exact split_nil_of_blank (by intro c hc; cases hc)

/-- The loop: it stops at the first key word; names are the words before it. -/
theorem readUntil_spec (keys : List Str) (hk : [] ∉ keys) (ws : List Str) : ∀ (names : List Str) (s : Stream), Delivers ws s →
    ((∃ w ∈ ws, w ∈ keys) ↔ (readUntil keys names s).1 = true) ∧
    ((readUntil keys names s).1 = true → ∃ before key after, ws = before ++ key :: after ∧ (∀ w ∈ before, w ∉ keys) ∧ key ∈ keys ∧
      (readUntil keys names s).2.1 = names ++ before ∧ Delivers after (readUntil keys names s).2.2) := by
  induction ws with
  | nil =>
    intro names s h
    rw [readUntil]
    obtain ⟨e1, e2⟩ := extractWord_nil h
    rw [e1, e2]
    by_cases hg : s.good = true <;> simp [hk, hg]
  | cons w ws ih =>
    intro names s h
    obtain ⟨hg, e1, e2, e3⟩ := extractWord_cons h
    rw [readUntil, dif_pos hg, e1]
    by_cases hw : w ∈ keys
    · rw [if_pos hw]
      exact ⟨⟨fun _ => rfl, fun _ => ⟨w, by simp, hw⟩⟩, fun _ => ⟨[], w, ws, rfl, by simp, hw, by simp, e2⟩⟩
    · rw [if_neg hw]
      by_cases h2 : (extractWord s).2.good = true
      · rw [dif_pos h2]
        obtain ⟨i1, i2⟩ := ih (names ++ [w]) _ e2
        refine ⟨?_, fun hf => ?_⟩
        · rw [← i1]
          simp [hw]
        · obtain ⟨before, key, after, rfl, hb, hkey, hn, hd⟩ := i2 hf
          refine ⟨w :: before, key, after, rfl, ?_, hkey, by rw [hn]; simp, hd⟩
          intro x hx
          rcases List.mem_cons.mp hx with rfl | hx
          · exact hw
          · exact hb x hx
      · rw [dif_neg h2, e3 (by simpa using h2)]
        simp [hw]

/-! ## Numbers -/

theorem lit_no_space (l : Lit) : ∀ c ∈ l.text, isSpace c = false := by
  intro c hc
  have hd : ∀ (d : List (Fin 10)), ∀ c ∈ d.map digitChar, isSpace c = false := by
    intro d c hc
    obtain ⟨x, -, rfl⟩ := List.mem_map.mp hc
    exact (digitChar_not_sign x).2.2.2
  have hs : ∀ (s : Option Bool), ∀ c ∈ signChars s, isSpace c = false := by
    intro s c hc
    rcases s with _ | _ | _ <;> simp [signChars] at hc <;> subst hc <;> decide
  unfold Lit.text at hc
  simp only [List.mem_append] at hc
  rcases hc with ((hc | hc) | hc) | hc
  · exact hs _ _ hc
  · exact hd _ _ hc
  · cases hf : l.fp with
    | none => rw [hf] at hc; cases hc
    | some d =>
      rw [hf] at hc
      rcases List.mem_cons.mp hc with rfl | hc
      · decide
      · exact hd _ _ hc
  · cases hf : l.ex with
    | none => rw [hf] at hc; cases hc
    | some x =>
      obtain ⟨b, s, d⟩ := x
      rw [hf] at hc
      rcases List.mem_cons.mp hc with rfl | hc
      · cases b <;> decide
      · rcases List.mem_append.mp hc with hc | hc
        · exact hs _ _ hc
        · exact hd _ _ hc

theorem space_not {c : Char} (h : isSpace c = true) : isDigit c = false ∧ c ≠ 'e' ∧ c ≠ 'E' ∧ c ≠ '.' := by
  simp only [isSpace, Bool.or_eq_true, decide_eq_true_eq] at h
  rcases h with ((((h | h) | h) | h) | h) | h <;> subst h <;> decide

theorem stops_space (l : Lit) (t : Str) (ht : ∀ c ∈ t.head?, isSpace c = true) : Stops l t := by
  refine ⟨fun c hc => (space_not (ht c hc)).1, fun _ => ⟨?_, fun _ c hc => (space_not (ht c hc)).2.2.2⟩⟩
  unfold expLetter
  split
  · exact absurd rfl (space_not (ht _ rfl)).2.1
  · exact absurd rfl (space_not (ht _ rfl)).2.2.1
  · rfl

/-- A word at the front of the text. -/
theorem split_cons {t w : Str} {ws : List Str} (h : split t = w :: ws) :
    ∃ rest, t.dropWhile isSpace = w ++ rest ∧ w ≠ [] ∧ (∀ c ∈ rest.head?, isSpace c = true) ∧ split rest = ws := by
  have hw := words_split t
  rw [h] at hw
  cases hw with
  | cons g w rest ws hg hne hsp hr hws =>
    refine ⟨rest, ?_, hne, hr, split_words hws⟩
    obtain ⟨c, w', rfl⟩ := List.exists_cons_of_ne_nil hne
    rw [List.append_assoc, dropWhile_blank hg, List.cons_append, List.dropWhile_cons_of_neg]
    simp [hsp c (by simp)]

theorem extractNumber_spec {ws : List Str} {s : Stream} (h : Delivers ws s) :
    (extractNumber s = none ↔ ws = []) ∧ ∀ l : Lit, l.Valid → ws.head? = some l.text → extractNumber s = some l.value := by
  cases ws with
  | nil =>
    refine ⟨⟨fun _ => rfl, fun _ => ?_⟩, fun l _ hh => by cases hh⟩
    unfold extractNumber
    by_cases hg : s.good = true
    · rw [if_pos hg]
      have := h.1
      rw [split] at this
      split at this
      · rename_i h1; rw [h1]
      · cases this
    · rw [if_neg hg]
  | cons w ws =>
    have hg := (extractWord_cons h).1
    obtain ⟨rest, hd, hne, hsp, -⟩ := split_cons h.1
    obtain ⟨c, w', rfl⟩ := List.exists_cons_of_ne_nil hne
    unfold extractNumber
    rw [if_pos hg, hd]
    refine ⟨by simp, fun l hl hh => ?_⟩
    simp only [List.head?_cons, Option.some.injEq] at hh
    simp only [List.cons_append]
    rw [← List.cons_append, hh, scanDouble_literal l hl rest (stops_space l rest hsp)]

/-! ## The command -/

/-- The key words of the command, as in the user documentation. -/
def PrimaryWords : List Str := ["primary_blocks".toList, "master_blocks".toList]
def SecondaryWords : List Str := ["secondary_blocks".toList, "slave_blocks".toList]
def PenaltyWord : Str := "penalty_parameter".toList

/-- A text that `ParseContactCommand` understands: the words of the command are a primary key, the primary names, a secondary key,
the secondary names, the penalty key, and further words. -/
def WellFormedCommand (text : Str) (primary secondary more : List Str) : Prop :=
  ∃ k1 ∈ PrimaryWords, ∃ k2 ∈ SecondaryWords, Words (k1 :: primary ++ k2 :: secondary ++ PenaltyWord :: more) text ∧
    (∀ w ∈ primary, w ∉ SecondaryWords) ∧ ∀ w ∈ secondary, w ≠ PenaltyWord

theorem keys_eq : primaryKeys = PrimaryWords ∧ secondaryKeys = SecondaryWords ∧ penaltyKey = PenaltyWord := ⟨rfl, rfl, rfl⟩

theorem keys_nonempty : ([] : Str) ∉ secondaryKeys ∧ ([] : Str) ∉ [penaltyKey] ∧ ([] : Str) ∉ primaryKeys := by decide

/-- The words before the first key determine the split. -/
theorem first_key_unique {keys : List Str} {a b a' b' : List Str} {k k' : Str} (h : a ++ k :: b = a' ++ k' :: b')
    (ha : ∀ w ∈ a, w ∉ keys) (hk : k ∈ keys) (ha' : ∀ w ∈ a', w ∉ keys) (hk' : k' ∈ keys) : a = a' ∧ k = k' ∧ b = b' := by
  induction a generalizing a' with
  | nil =>
    cases a' with
    | nil => simpa using h
    | cons x a' =>
      simp only [List.nil_append, List.cons_append, List.cons.injEq] at h
      exact absurd (h.1 ▸ hk) (ha' x (by simp))
  | cons y a ih =>
    cases a' with
    | nil =>
      simp only [List.nil_append, List.cons_append, List.cons.injEq] at h
      exact absurd (h.1 ▸ hk') (ha y (by simp))
    | cons x a' =>
      simp only [List.cons_append, List.cons.injEq] at h
      obtain ⟨h1, h2, h3⟩ := ih h.2 (fun w hw => ha w (by simp [hw])) (fun w hw => ha' w (by simp [hw]))
      exact ⟨by rw [h.1, h1], h2, h3⟩

/-- The penalty that results from the words after the penalty key. -/
def PenaltyOf (more : List Str) (p : Option ℚ) : Prop :=
  (p = none ↔ more = []) ∧ ∀ l : Lit, l.Valid → more.head? = some l.text → p = some l.value

/-- **C15.**  A command is accepted exactly if it is well formed, in any layout of white space; the names are the words between the key
words, in order, and the penalty is the number after its key. -/
theorem contact_command (text : Str) :
    (∀ primary secondary more, WellFormedCommand text primary secondary more →
      ∃ p, parseContactCommand text = some ⟨primary, secondary, p⟩ ∧ PenaltyOf more p) ∧
    (parseContactCommand text ≠ none → ∃ primary secondary more, WellFormedCommand text primary secondary more) := by
  have start : Delivers (split text) ⟨text, true⟩ := ⟨rfl, fun h => by cases h⟩
  simp only [WellFormedCommand, ← keys_eq.1, ← keys_eq.2.1, ← keys_eq.2.2]
  constructor
  · rintro primary secondary more ⟨k1, hk1, k2, hk2, hw, hp, hs⟩
    have hsp := split_words hw
    rw [hsp] at start
    have start' : Delivers (k1 :: (primary ++ k2 :: (secondary ++ penaltyKey :: more))) ⟨text, true⟩ := by simpa using start
    obtain ⟨-, e1, e2, -⟩ := extractWord_cons start'
    obtain ⟨i1, i2⟩ := readUntil_spec secondaryKeys keys_nonempty.1 _ [] _ e2
    have f1 := i1.mp ⟨k2, by simp, hk2⟩
    obtain ⟨b, k, a, heq, hb, hk, hn, hd⟩ := i2 f1
    obtain ⟨rfl, rfl, rfl⟩ := first_key_unique heq hp hk2 hb hk
    obtain ⟨j1, j2⟩ := readUntil_spec [penaltyKey] keys_nonempty.2.1 _ [] _ hd
    have f2 := j1.mp ⟨penaltyKey, by simp, by simp⟩
    obtain ⟨b', k', a', heq', hb', hk', hn', hd'⟩ := j2 f2
    obtain ⟨rfl, -, rfl⟩ := first_key_unique heq' (fun w hw => by simpa using hs w hw) (by simp) hb' hk'
    refine ⟨extractNumber (readUntil [penaltyKey] [] (readUntil secondaryKeys [] (extractWord ⟨text, true⟩).2).2.2).2.2, ?_,
      extractNumber_spec hd'⟩
    unfold parseContactCommand
    simp only [e1, hk1, not_true_eq_false, if_false, f1, f2, Bool.not_true, Bool.false_eq_true, hn, hn', List.nil_append]
  · intro hne
    unfold parseContactCommand at hne
    simp only at hne
    by_cases hk1 : (extractWord ⟨text, true⟩).1 ∈ primaryKeys
    swap
    · rw [if_pos hk1] at hne; exact absurd rfl hne
    rw [if_neg (by simpa using hk1)] at hne
    cases hws : split text with
    | nil =>
      rw [hws] at start
      rw [(extractWord_nil start).1] at hk1
      exact absurd hk1 keys_nonempty.2.2
    | cons k1 ws =>
      rw [hws] at start
      obtain ⟨-, e1, e2, -⟩ := extractWord_cons start
      rw [e1] at hk1
      obtain ⟨-, i2⟩ := readUntil_spec secondaryKeys keys_nonempty.1 _ [] _ e2
      by_cases f1 : (readUntil secondaryKeys [] (extractWord ⟨text, true⟩).2).1 = true
      swap
      · rw [if_pos (by simpa using f1)] at hne; exact absurd rfl hne
      rw [if_neg (by simp [f1])] at hne
      obtain ⟨b, k, a, rfl, hb, hk, hn, hd⟩ := i2 f1
      obtain ⟨-, j2⟩ := readUntil_spec [penaltyKey] keys_nonempty.2.1 _ [] _ hd
      by_cases f2 : (readUntil [penaltyKey] [] (readUntil secondaryKeys [] (extractWord ⟨text, true⟩).2).2.2).1 = true
      swap
      · rw [if_pos (by simpa using f2)] at hne; exact absurd rfl hne
      obtain ⟨b', k', a', rfl, hb', hk', hn', hd'⟩ := j2 f2
      rw [List.mem_singleton] at hk'
      subst hk'
      have hW := words_split text
      rw [hws] at hW
      exact ⟨b, b', a', k1, hk1, k, hk, by simpa using hW, hb, fun w hw => by simpa using hb' w hw⟩

/-- **C15, main case.**  A command with valid key words, any names and a number is read as written. -/
theorem contact_command_read (text : Str) (primary secondary rest : List Str) (l : Lit) (hl : l.Valid)
    (h : WellFormedCommand text primary secondary (l.text :: rest)) :
    parseContactCommand text = some ⟨primary, secondary, some l.value⟩ := by
  obtain ⟨p, h1, h2⟩ := (contact_command text).1 _ _ _ h
  rw [h1, h2.2 l hl rfl]

/-- **C15 (partial).**  Commands without primary key at the start, without secondary key after it, or without penalty key after that
are refused.  Missing: commands without a number (`contact_command_without_number`). -/
theorem contact_command_refused_partial (text : Str) (ws : List Str) (hw : Words ws text)
    (h : (∀ k ∈ ws.head?, k ∉ PrimaryWords) ∨ (∀ w ∈ ws.tail, w ∉ SecondaryWords) ∨
      (∀ w ∈ ws, w ≠ PenaltyWord) ∨ (∃ a b, ws = a ++ PenaltyWord :: b ∧ (∀ w ∈ a.tail, w ∉ SecondaryWords) ∧ ∀ w ∈ b, w ≠ PenaltyWord)) :
    parseContactCommand text = none := by
  by_contra hne
  simp only [← keys_eq.1, ← keys_eq.2.1, ← keys_eq.2.2] at h
  obtain ⟨primary, secondary, more, k1, hk1, k2, hk2, hW, hp, hs⟩ := (contact_command text).2 hne
  rw [← keys_eq.1] at hk1
  rw [← keys_eq.2.1] at hk2
  rw [← keys_eq.2.2] at hW
  have heq : ws = k1 :: primary ++ k2 :: secondary ++ penaltyKey :: more := by rw [← split_words hw, split_words hW]
  subst heq
  rcases h with h | h | h | ⟨a, b, hab, h1, h2⟩
  · exact h k1 rfl hk1
  · exact h k2 (by simp) hk2
  · exact h penaltyKey (by simp) rfl
  · -- the last penalty key of the text would have a secondary key before it
    have hk1p : k1 ≠ penaltyKey := by
      rintro rfl; revert hk1; decide
    have hk2p : k2 ≠ penaltyKey := by
      rintro rfl; revert hk2; decide
    -- `a` is longer than `k1 :: primary ++ [k2]`
    have : k2 ∈ a.tail := by
      have h3 : (k1 :: primary ++ k2 :: secondary) ++ penaltyKey :: more = a ++ penaltyKey :: b := by simpa using hab
      rw [List.append_eq_append_iff] at h3
      rcases h3 with ⟨c, hc, hd⟩ | ⟨c, hc, hd⟩
      · rw [hc]; simp
      · cases c with
        | nil => rw [List.append_nil] at hc; rw [← hc]; simp
        | cons x c =>
          simp only [List.cons_append, List.cons.injEq] at hd
          exact absurd rfl (h2 penaltyKey (by rw [hd.2]; simp))
    exact h1 k2 this hk2

/-- **C15 fails for a missing number**: every command that ends after the penalty key is accepted, and the penalty parameter of the
caller is left uninitialised. -/
theorem contact_command_without_number (text : Str) (primary secondary : List Str) (h : WellFormedCommand text primary secondary []) :
    parseContactCommand text = some ⟨primary, secondary, none⟩ := by
  obtain ⟨p, h1, h2⟩ := (contact_command text).1 _ _ _ h
  rw [h1, h2.1.mpr rfl]

/-- The command of the test problems, with irregular white space. -/
def demoText : Str := " primary_blocks block_1\tblock_2  slave_blocks block_3 penalty_parameter 1.5e6 ".toList

example : parseContactCommand demoText = some ⟨["block_1".toList, "block_2".toList], ["block_3".toList], some 1500000⟩ := by
  decide +kernel

/-- `demoText` meets the hypotheses of `contact_command_read`. -/
example : WellFormedCommand demoText ["block_1".toList, "block_2".toList] ["block_3".toList] ["1.5e6".toList] := by
  refine ⟨"primary_blocks".toList, by decide, "slave_blocks".toList, by decide, ?_, by decide, by decide⟩
  have h := words_split demoText
  have e : split demoText = "primary_blocks".toList :: ["block_1".toList, "block_2".toList] ++ "slave_blocks".toList ::
    ["block_3".toList] ++ PenaltyWord :: ["1.5e6".toList] := by decide +kernel
  rwa [e] at h

/-- A text that is no number gives penalty zero; nothing after the number is looked at. -/
example : parseContactCommand "master_blocks a secondary_blocks b penalty_parameter high".toList =
      some ⟨["a".toList], ["b".toList], some 0⟩ ∧
    parseContactCommand "master_blocks secondary_blocks penalty_parameter 1 2".toList = some ⟨[], [], some 1⟩ ∧
    parseContactCommand "master_blocks a secondary_blocks b penalty_parameter".toList = some ⟨["a".toList], ["b".toList], none⟩ ∧
    parseContactCommand "secondary_blocks b master_blocks a penalty_parameter 1".toList = none := by
  decide +kernel

end NimbleSM.Contact
