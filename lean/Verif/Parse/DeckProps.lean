import Verif.Parse.DeckLemmas

/-!
# C38: which (key, value) pairs `Parser::ReadFile` finds in a text
-/

namespace NimbleSM.Deck

open NimbleSM.Parse

/-! ## Specification of well-formed decks -/

/-- A line of a deck, as a user writes it. -/
inductive Line where
  | empty
  /-- `#` in the first column, then anything -/
  | comment (text : Str)
  /-- `<indent>key<gap>:<gap>value<trail>[#comment]` -/
  | setting (indent key gap₁ gap₂ value trail : Str) (comment : Option Str)

/-- An optional comment. -/
def commentText : Option Str → Str
  | none => []
  | some c => '#' :: c

/-- The text of a line. -/
def Line.text : Line → Str
  | .empty => []
  | .comment t => '#' :: t
  | .setting i k g₁ g₂ v t c =>
    i ++ (k ++ g₁ ++ ':' :: (g₂ ++ v)) ++ t ++ commentText c

/-- What the user means by a line: a (key, value) pair, or nothing. -/
def Line.meaning : Line → List (Str × Str)
  | .empty => []
  | .comment _ => []
  | .setting _ k _ _ v _ _ => [(k, v)]

/-- The text is not empty and neither starts nor ends with a blank or tab. -/
def Trimmed (t : Str) : Prop :=
  t ≠ [] ∧ (∀ c, t.head? = some c → c ≠ ' ' ∧ c ≠ '\t') ∧ ∀ c, t.getLast? = some c → c ≠ ' ' ∧ c ≠ '\t'

/-- Lines the reader handles: at most 999 characters, no line feed or null character inside; indentation
and trailing space of blanks and tabs; only blanks around the colon; key and value not empty. -/
def Line.Good (l : Line) : Prop :=
  l.text.length < 1000 ∧ '\n' ∉ l.text ∧ '\x00' ∉ l.text ∧
  match l with
  | .empty => True
  | .comment _ => True
  | .setting i k g₁ g₂ v t _ =>
    (∀ c ∈ i, c = ' ' ∨ c = '\t') ∧ (∀ c ∈ t, c = ' ' ∨ c = '\t') ∧ (∀ c ∈ g₁, c = ' ') ∧ (∀ c ∈ g₂, c = ' ') ∧
    Trimmed k ∧ Trimmed v ∧ ':' ∉ k ∧ '#' ∉ k ∧ '#' ∉ v

/-- A file: lines, each ended by a line feed, and a last line that is not (empty, if the file ends with a
line feed). -/
def fileText (lines : List Line) (last : Line) : Str :=
  (lines.flatMap fun l => l.text ++ ['\n']) ++ last.text

variable {σ : Type}

/-- Handling pairs one after the other; an error stops everything. -/
def handleAll (handle : σ → Str → Str → Option σ) : List (Str × Str) → σ → Option σ
  | [], s => some s
  | (k, v) :: r, s => (handle s k v).bind (handleAll handle r)

/-- Normal end, or the handler's error. -/
def finished : Option σ → Outcome σ
  | some s => .done s
  | none => .invalidArgument

/-! ## C38 -/

theorem Trimmed.tight {t : Str} (h : Trimmed t) : Tight [' ', '\t'] t :=
  ⟨h.1, fun c hc => by have := h.2.1 c hc; simp [this.1, this.2], fun c hc => by
    have := h.2.2 c hc; simp [this.1, this.2]⟩

theorem Trimmed.tight' {t : Str} (h : Trimmed t) : Tight [' '] t :=
  ⟨h.1, fun c hc => by have := h.2.1 c hc; simp [this.1], fun c hc => by
    have := h.2.2 c hc; simp [this.1]⟩

theorem handleAll_append (handle : σ → Str → Str → Option σ) (a b : List (Str × Str)) (s : σ) :
    handleAll handle (a ++ b) s = (handleAll handle a s).bind (handleAll handle b) := by
  induction a generalizing s with
  | nil => rfl
  | cons p a ih =>
    obtain ⟨k, v⟩ := p
    simp only [List.cons_append, handleAll, Option.bind_assoc]
    congr 1
    funext s'
    exact ih s'

/-- One line. -/
theorem processLine_good (handle : σ → Str → Str → Option σ) (l : Line) (hl : l.Good) (s : σ) :
    processLine handle l.text s = finished (handleAll handle l.meaning s) := by
  cases l with
  | empty => simp [processLine, Line.text, stripComment, find, trimLine, Line.meaning, handleAll, finished]
  | comment t =>
    have : stripComment ('#' :: t) = [] := stripComment_append (a := []) (by simp)
    simp [processLine, Line.text, this, trimLine, Line.meaning, handleAll, finished]
  | setting i k g₁ g₂ v t c =>
    obtain ⟨-, -, -, hi, ht, hg₁, hg₂, hk, hv, hkc, hkh, hvh⟩ := hl
    have hsp : ∀ (x : Str), (∀ c ∈ x, c = ' ' ∨ c = '\t') → '#' ∉ x := fun x hx hm => by
      rcases hx _ hm with h | h <;> simp at h
    have hno : '#' ∉ i ++ (k ++ g₁ ++ ':' :: (g₂ ++ v)) ++ t := by
      simp only [List.mem_append, List.mem_cons, not_or]
      refine ⟨⟨hsp i hi, ⟨hkh, hsp g₁ fun c hc => .inl (hg₁ c hc)⟩, by decide, ?_, hvh⟩, hsp t ht⟩
      exact hsp g₂ fun c hc => .inl (hg₂ c hc)
    have hs : stripComment (Line.text (.setting i k g₁ g₂ v t c))
        = i ++ (k ++ g₁ ++ ':' :: (g₂ ++ v)) ++ t := by
      simp only [Line.text]
      cases c with
      | none => rw [commentText]; rw [List.append_nil]; exact stripComment_none hno
      | some c => exact stripComment_append hno
    have hcore : Tight [' ', '\t'] (k ++ g₁ ++ ':' :: (g₂ ++ v)) := by
      refine ⟨by simp, fun c hc => ?_, fun c hc => ?_⟩
      · obtain ⟨d, r, hd, hdn⟩ := hk.tight.head
        rw [hd] at hc
        simp only [List.cons_append, List.head?_cons, Option.some.injEq] at hc
        rw [← hc]; exact hdn
      · obtain ⟨r, d, hd, hdn⟩ := hv.tight.last
        rw [hd] at hc
        have : k ++ g₁ ++ ':' :: (g₂ ++ (r ++ [d])) = (k ++ g₁ ++ ':' :: (g₂ ++ r)) ++ [d] := by simp
        rw [this, List.getLast?_concat, Option.some.injEq] at hc
        rw [← hc]; exact hdn
    have htr : trimLine (i ++ (k ++ g₁ ++ ':' :: (g₂ ++ v)) ++ t) = some (k ++ g₁ ++ ':' :: (g₂ ++ v)) :=
      trimLine_of_tight (fun x hx => by simpa using hi x hx) (fun x hx => by simpa using ht x hx) hcore
    unfold processLine
    rw [hs, htr]
    simp only [keyValue_of_colon hk.tight' hkc hg₁ hg₂ hv.tight']
    rw [if_pos (by simp; omega)]
    simp only [Line.meaning, handleAll]
    cases handle s k v <;> rfl

theorem readLoop_good (handle : σ → Str → Str → Option σ) (lines : List Line) (last : Line)
    (hl : ∀ l ∈ lines, l.Good) (hlast : last.Good) (s : σ) (n : ℕ) (hn : lines.length + 2 ≤ n) :
    readLoop handle n ⟨fileText lines last, false, false⟩ s
      = finished (handleAll handle ((lines ++ [last]).flatMap Line.meaning) s) := by
  induction lines generalizing s n with
  | nil =>
    obtain ⟨n, rfl⟩ : ∃ m, n = m + 2 := ⟨n - 2, by simp at hn; omega⟩
    have hg := getline_last hlast.2.1 hlast.2.2.1 hlast.1
    simp only [fileText, List.flatMap_nil, List.nil_append, List.flatMap_cons, List.append_nil]
    rw [readLoop]
    simp only [Bool.false_eq_true, if_false, hg, processLine_good handle last hlast]
    cases handleAll handle last.meaning s with
    | none => rfl
    | some s' => simp [finished, readLoop]
  | cons l lines ih =>
    obtain ⟨n, rfl⟩ : ∃ m, n = m + 1 := ⟨n - 1, by simp at hn; omega⟩
    have hlg := hl l (by simp)
    have ht : fileText (l :: lines) last = l.text ++ '\n' :: fileText lines last := by
      simp [fileText]
    have hg := getline_newline (rest := fileText lines last) hlg.2.1 hlg.2.2.1 hlg.1
    rw [readLoop]
    simp only [Bool.false_eq_true, if_false, ht, hg, processLine_good handle l hlg]
    rw [List.cons_append, List.flatMap_cons, handleAll_append]
    cases handleAll handle l.meaning s with
    | none => rfl
    | some s' =>
      simp only [finished, Option.bind_some]
      rw [ih (fun x hx => hl x (by simp [hx])) s' n (by simp at hn; omega)]
      rfl

/-- **C38 (partial).**  A file all of whose lines are empty, comments starting in the first column, or
`key : value` lines (indented and followed by blanks and tabs or a comment, at most 999 characters) is
read completely, and its pairs are handled in order, exactly as written; the loop ends.  Missing, because
false: whitespace-only lines, indented comments, long lines, tabs around the colon, empty values, CRLF. -/
theorem deck_pairs_partial (handle : σ → Str → Str → Option σ) (lines : List Line) (last : Line)
    (hl : ∀ l ∈ lines, l.Good) (hlast : last.Good) (s : σ) :
    ∃ N, ∀ n, N ≤ n → readFile handle (fileText lines last) s n
      = finished (handleAll handle ((lines ++ [last]).flatMap Line.meaning) s) :=
  ⟨lines.length + 2, fun n hn => readLoop_good handle lines last hl hlast s n hn⟩

/-- A deck with an empty line, two comments, indentation and a colon inside a value. -/
def demoLines : List Line :=
  [.comment " a deck".toList,
   .setting [] "genesis input file".toList [] [' '] "c:/mesh.g".toList [' ', '\t'] none,
   .empty,
   .setting ['\t', ' '] "final time".toList [' '] [' ', ' '] "1.5e-3".toList [] (some " s".toList)]

example : (∀ l ∈ demoLines, l.Good) ∧ Line.empty.Good ∧
    fileText demoLines .empty =
      "# a deck\ngenesis input file: c:/mesh.g \t\n\n\t final time :  1.5e-3# s\n".toList ∧
    ((demoLines ++ [Line.empty]).flatMap Line.meaning)
      = [("genesis input file".toList, "c:/mesh.g".toList), ("final time".toList, "1.5e-3".toList)] := by
  refine ⟨?_, ?_, by decide, by decide⟩
  · intro l hl
    simp only [demoLines, List.mem_cons, List.not_mem_nil, or_false] at hl
    rcases hl with rfl | rfl | rfl | rfl
    · exact ⟨by decide, by decide, by decide, trivial⟩
    · refine ⟨by decide, by decide, by decide, by decide, by decide, by decide, by decide, ?_, ?_, by decide,
        by decide, by decide⟩ <;>
      exact ⟨by decide, by intro c h; cases h; decide, by intro c h; cases h; decide⟩
    · exact ⟨by decide, by decide, by decide, trivial⟩
    · refine ⟨by decide, by decide, by decide, by decide, by decide, by decide, by decide, ?_, ?_, by decide,
        by decide, by decide⟩ <;>
      exact ⟨by decide, by intro c h; cases h; decide, by intro c h; cases h; decide⟩
  · exact ⟨by decide, by decide, by decide, trivial⟩

/-! ### What is wrong -/

theorem readFile_bad_line (handle : σ → Str → Str → Option σ) (line rest : Str) (s : σ) (h : '\n' ∉ line)
    (h0 : '\x00' ∉ line) (hl : line.length < 1000) (o : Outcome σ)
    (hp : processLine handle line s = o) (ho : ∀ s', o ≠ .done s') (n : ℕ) :
    readFile handle (line ++ '\n' :: rest) s (n + 1) = o := by
  unfold readFile
  rw [readLoop]
  simp only [Bool.false_eq_true, if_false, getline_newline (rest := rest) h h0 hl, hp]

/-- **C38 fails: whitespace-only lines.**  A line of blanks and tabs only (at least one), with or without a
comment behind them, makes the reader stop with `std::out_of_range`, whatever the handler. -/
theorem whitespace_line_out_of_range (handle : σ → Str → Str → Option σ) (blanks : Str) (comment : Option Str)
    (rest : Str) (s : σ) (hb : blanks ≠ []) (hbt : ∀ c ∈ blanks, c = ' ' ∨ c = '\t')
    (hc : ∀ c ∈ comment, '\n' ∉ c ∧ '\x00' ∉ c)
    (hl : (blanks ++ commentText comment).length < 1000) (n : ℕ) :
    readFile handle ((blanks ++ commentText comment) ++ '\n' :: rest) s
      (n + 1) = .outOfRange := by
  have hno : ∀ x : Char, x ≠ ' ' → x ≠ '\t' → x ∉ blanks := fun x h1 h2 hx => by
    rcases hbt x hx with h | h <;> contradiction
  have hmem : ∀ x : Char, x ≠ ' ' → x ≠ '\t' → x ≠ '#' → (∀ c ∈ comment, x ∉ c) →
      x ∉ blanks ++ commentText comment := by
    intro x h1 h2 h3 h4
    simp only [List.mem_append, not_or]
    refine ⟨hno x h1 h2, ?_⟩
    cases comment with
    | none => simp [commentText]
    | some c => simp [commentText, h3, h4 c rfl]
  apply readFile_bad_line
  · exact hmem _ (by decide) (by decide) (by decide) fun c h => (hc c h).1
  · exact hmem _ (by decide) (by decide) (by decide) fun c h => (hc c h).2
  · exact hl
  · have hs : stripComment (blanks ++ commentText comment) = blanks := by
      cases comment with
      | none => rw [commentText, List.append_nil]; exact stripComment_none (hno _ (by decide) (by decide))
      | some c => exact stripComment_append (hno _ (by decide) (by decide))
    unfold processLine
    rw [hs, trimLine_blank hb (by simpa using hbt)]
  · intro s' h; cases h

/-- **C38 fails: long lines.**  If the first line has 1000 characters or more — a long comment, say — the
loop never ends. -/
theorem long_line_loops_forever (handle : σ → Str → Str → Option σ) (text rest : Str) (s : σ)
    (ht : '\n' ∉ text) (hl : 999 ≤ text.length) (n : ℕ) :
    readFile handle ('#' :: text ++ '\n' :: rest) s n = .running := by
  cases n with
  | zero => rfl
  | succ n =>
    have h1 : ('#' :: text ++ '\n' :: rest).takeWhile (· ≠ '\n') = '#' :: text :=
      takeWhile_append_stop (fun x hx => by
        simp only [List.mem_cons] at hx
        rcases hx with rfl | hx
        · decide
        · simp; rintro rfl; exact ht hx) (by simp)
    have hg : ∃ l r, getline ⟨'#' :: text ++ '\n' :: rest, false, false⟩ = ('#' :: l, ⟨r, false, true⟩) := by
      refine ⟨(text.take 998).takeWhile (· ≠ '\x00'), List.drop 999 ('#' :: text ++ '\n' :: rest), ?_⟩
      unfold getline
      simp only [h1, maxChars]
      rw [if_neg (by simp), if_neg (by simp; omega)]
      simp
    obtain ⟨l, r, hg⟩ := hg
    have hp : processLine handle ('#' :: l) s = .done s := by
      have : stripComment ('#' :: l) = [] := stripComment_append (a := []) (by simp)
      simp [processLine, this, trimLine]
    unfold readFile
    rw [readLoop]
    simp only [Bool.false_eq_true, if_false, hg, hp]
    exact readLoop_failed handle n r s

/-- **C38 fails: a key without value**, `key:`, stops the reader with `std::out_of_range` instead of an
empty value or an error message about the key. -/
theorem empty_value_out_of_range (handle : σ → Str → Str → Option σ) (key rest : Str) (s : σ)
    (hk : Trimmed key) (hkc : ':' ∉ key) (hkh : '#' ∉ key) (hkn : '\n' ∉ key) (hk0 : '\x00' ∉ key)
    (hl : key.length < 999) (n : ℕ) :
    readFile handle ((key ++ [':']) ++ '\n' :: rest) s (n + 1) = .outOfRange := by
  apply readFile_bad_line
  · simp [hkn]
  · simp [hk0]
  · simp; omega
  · have hs : stripComment (key ++ [':']) = key ++ [':'] := stripComment_none (by simp [hkh])
    have hcore : Tight [' ', '\t'] (key ++ [':']) := by
      refine ⟨by simp, fun c hc => ?_, fun c hc => ?_⟩
      · obtain ⟨d, r, hd, hdn⟩ := hk.tight.head
        rw [hd] at hc
        simp only [List.cons_append, List.head?_cons, Option.some.injEq] at hc
        rw [← hc]; exact hdn
      · rw [List.getLast?_concat, Option.some.injEq] at hc
        rw [← hc]; decide
    have ht : trimLine (key ++ [':']) = some (key ++ [':']) := by
      have := trimLine_of_tight (ind := []) (trail := []) (by simp) (by simp) hcore
      simpa using this
    have hkv : keyValue (key ++ [':']) = none := by
      unfold keyValue
      simp only [find_append (b := []) hkc]
      have hd : List.drop (key.length + 1) (key ++ [':']) = [] := by simp
      rw [List.take_left, hd]
      have := substr_trim_key (gap := []) (by simp) hk.tight'
      rw [List.append_nil] at this
      rw [this]
      simp [substr, findFirstNotOf]
    unfold processLine
    rw [hs, ht]
    simp [hkv]
  · intro s' h; cases h

/-- The handler that only records what it is given. -/
def record (s : List (Str × Str)) (key value : Str) : Option (List (Str × Str)) := some (s ++ [(key, value)])

/-- **C38 fails: tabs around the colon** end up in the value (and a tab before the colon in the key). -/
theorem tab_stays_in_value : processLine record "final time\t:\t1".toList []
    = .done [("final time\t".toList, "\t1".toList)] := by decide

/-- **C38 fails: a line without a colon** is its own key and value. -/
theorem no_colon_key_is_value : processLine record "contact".toList []
    = .done [("contact".toList, "contact".toList)] := by decide

/-- **C38 fails: Windows line ends.**  The carriage return stays in the value, and a blank line is a key. -/
theorem carriage_return_stays : processLine record "final time: 1\r".toList []
      = .done [("final time".toList, "1\r".toList)] ∧
    processLine record "\r".toList [] = .done [("\r".toList, "\r".toList)] := by decide

end NimbleSM.Deck
