import Verif.Parse.Deck

/-!
# Input decks: lemmas about the string operations
-/

namespace NimbleSM.Deck

open NimbleSM.Parse

theorem findIdx?_append_cons {α : Type*} {p : α → Bool} {a : List α} {c : α} {b : List α}
    (ha : ∀ x ∈ a, p x = false) (hc : p c = true) : (a ++ c :: b).findIdx? p = some a.length := by
  induction a with
  | nil => simp [List.findIdx?_cons, hc]
  | cons x a ih =>
    have hx : p x = false := ha x (by simp)
    have := ih (fun y hy => ha y (by simp [hy]))
    simp [List.findIdx?_cons, hx, this]

theorem findIdx?_eq_none' {α : Type*} {p : α → Bool} {a : List α}
    (ha : ∀ x ∈ a, p x = false) : a.findIdx? p = none := by
  rw [List.findIdx?_eq_none_iff]; exact ha

theorem find_append {c : Char} {a b : Str} (ha : c ∉ a) : find c (a ++ c :: b) = some a.length := by
  apply findIdx?_append_cons
  · intro x hx; simp; rintro rfl; exact ha hx
  · simp

theorem find_none {c : Char} {a : Str} (ha : c ∉ a) : find c a = none := by
  apply findIdx?_eq_none'
  intro x hx; simp; rintro rfl; exact ha hx

theorem findFirstNotOf_append {set a : Str} {c : Char} {b : Str} (ha : ∀ x ∈ a, x ∈ set) (hc : c ∉ set) :
    findFirstNotOf set (a ++ c :: b) = some a.length := by
  apply findIdx?_append_cons
  · intro x hx; simpa using ha x hx
  · simpa using hc

theorem findFirstNotOf_none {set a : Str} (ha : ∀ x ∈ a, x ∈ set) : findFirstNotOf set a = none := by
  apply findIdx?_eq_none'
  intro x hx; simpa using ha x hx

theorem findLastNotOf_append {set a : Str} {c : Char} {b : Str} (hb : ∀ x ∈ b, x ∈ set) (hc : c ∉ set) :
    findLastNotOf set (a ++ c :: b) = some a.length := by
  unfold findLastNotOf
  have : (a ++ c :: b).reverse = b.reverse ++ c :: a.reverse := by simp
  rw [this, findIdx?_append_cons]
  · simp <;> omega
  · intro x hx; simpa using hb x (by simpa using hx)
  · simpa using hc

theorem findLastNotOf_none {set a : Str} (ha : ∀ x ∈ a, x ∈ set) : findLastNotOf set a = none := by
  unfold findLastNotOf
  rw [findIdx?_eq_none']
  · rfl
  · intro x hx; simpa using ha x (by simpa using hx)

/-- A text that neither starts nor ends with a character of `set`, and is not empty. -/
def Tight (set t : Str) : Prop := t ≠ [] ∧ (∀ c, t.head? = some c → c ∉ set) ∧ ∀ c, t.getLast? = some c → c ∉ set

theorem Tight.head {set t : Str} (h : Tight set t) : ∃ c r, t = c :: r ∧ c ∉ set := by
  obtain ⟨h0, h1, _⟩ := h
  cases t with
  | nil => exact absurd rfl h0
  | cons c r => exact ⟨c, r, rfl, h1 c rfl⟩

theorem Tight.last {set t : Str} (h : Tight set t) : ∃ r c, t = r ++ [c] ∧ c ∉ set := by
  obtain ⟨h0, _, h1⟩ := h
  refine ⟨t.dropLast, t.getLast h0, (List.dropLast_concat_getLast h0).symm, h1 _ ?_⟩
  exact List.getLast?_eq_some_getLast h0

theorem trimLine_of_tight {ind core trail : Str} (hi : ∀ x ∈ ind, x ∈ [' ', '\t'])
    (ht : ∀ x ∈ trail, x ∈ [' ', '\t']) (hc : Tight [' ', '\t'] core) :
    trimLine (ind ++ core ++ trail) = some core := by
  have hpos : (ind ++ core ++ trail).length > 0 := by
    obtain ⟨c, r, h, _⟩ := hc.head; subst h; simp; omega
  have hf : findFirstNotOf [' ', '\t'] (ind ++ core ++ trail) = some ind.length := by
    obtain ⟨c, r, h, hn⟩ := hc.head
    rw [h]
    have : ind ++ (c :: r) ++ trail = ind ++ c :: (r ++ trail) := by simp
    rw [this]; exact findFirstNotOf_append hi hn
  have hl : findLastNotOf [' ', '\t'] (ind ++ core ++ trail) = some (ind.length + core.length - 1) := by
    obtain ⟨r, c, h, hn⟩ := hc.last
    rw [h]
    have : ind ++ (r ++ [c]) ++ trail = (ind ++ r) ++ c :: trail := by simp
    rw [this, findLastNotOf_append ht hn]
    simp <;> omega
  have hlen : 0 < core.length := List.length_pos_iff.2 hc.1
  unfold trimLine
  rw [if_pos hpos]
  simp only [hf, hl, substr, Option.getD_some]
  rw [if_pos (by simp)]
  have : ind.length + core.length - 1 - ind.length + 1 = core.length := by omega
  rw [this, List.append_assoc, List.drop_left, List.take_left]

theorem trimLine_nil : trimLine [] = some [] := rfl

theorem trimLine_blank {t : Str} (h0 : t ≠ []) (h : ∀ x ∈ t, x ∈ [' ', '\t']) : trimLine t = none := by
  unfold trimLine
  rw [if_pos (List.length_pos_iff.2 h0)]
  simp [findFirstNotOf_none h, substr]

theorem substr_trim {gap t : Str} (hg : ∀ x ∈ gap, x = ' ') (ht : Tight [' '] t) :
    substr (gap ++ t) (findFirstNotOf [' '] (gap ++ t)) (((findLastNotOf [' '] (gap ++ t)).map (· + 1)).getD 0)
      = some t := by
  have hf : findFirstNotOf [' '] (gap ++ t) = some gap.length := by
    obtain ⟨c, r, h, hn⟩ := ht.head
    rw [h]; exact findFirstNotOf_append (by simpa using hg) hn
  have hl : findLastNotOf [' '] (gap ++ t) = some (gap.length + t.length - 1) := by
    obtain ⟨r, c, h, hn⟩ := ht.last
    rw [h]
    have : gap ++ (r ++ [c]) = (gap ++ r) ++ c :: [] := by simp
    rw [this, findLastNotOf_append (by simp) hn]
    simp <;> omega
  rw [hf, hl]
  simp only [substr, Option.map_some, Option.getD_some]
  rw [if_pos (by simp), List.drop_left, List.take_of_length_le]
  omega

theorem substr_trim_key {gap t : Str} (hg : ∀ x ∈ gap, x = ' ') (ht : Tight [' '] t) :
    substr (t ++ gap) (findFirstNotOf [' '] (t ++ gap)) (((findLastNotOf [' '] (t ++ gap)).map (· + 1)).getD 0)
      = some t := by
  have hf : findFirstNotOf [' '] (t ++ gap) = some 0 := by
    obtain ⟨c, r, h, hn⟩ := ht.head
    rw [h]; exact findFirstNotOf_append (a := []) (by simp) hn
  have hl : findLastNotOf [' '] (t ++ gap) = some (t.length - 1) := by
    obtain ⟨r, c, h, hn⟩ := ht.last
    rw [h]
    have : (r ++ [c]) ++ gap = r ++ c :: gap := by simp
    rw [this, findLastNotOf_append (by simpa using hg) hn]
    simp
  have hlen : 0 < t.length := List.length_pos_iff.2 ht.1
  rw [hf, hl]
  simp only [substr, Option.map_some, Option.getD_some]
  rw [if_pos (by simp), List.drop_zero]
  have : t.length - 1 + 1 = t.length := by omega
  rw [this, List.take_left]

theorem keyValue_of_colon {key gap1 gap2 value : Str} (hk : Tight [' '] key) (hkc : ':' ∉ key)
    (hg1 : ∀ x ∈ gap1, x = ' ') (hg2 : ∀ x ∈ gap2, x = ' ') (hv : Tight [' '] value) :
    keyValue (key ++ gap1 ++ ':' :: (gap2 ++ value)) = some (key, value) := by
  have hf : find ':' (key ++ gap1 ++ ':' :: (gap2 ++ value)) = some (key ++ gap1).length := by
    apply find_append
    simp only [List.mem_append, not_or]
    exact ⟨hkc, fun h => by have := hg1 _ h; simp at this⟩
  unfold keyValue
  simp only [hf]
  rw [List.take_left]
  have hd : List.drop ((key ++ gap1).length + 1) (key ++ gap1 ++ ':' :: (gap2 ++ value)) = gap2 ++ value := by
    rw [List.drop_append]; simp
  rw [hd, substr_trim_key hg1 hk, substr_trim hg2 hv]
  rfl

theorem stripComment_append {a b : Str} (ha : '#' ∉ a) : stripComment (a ++ '#' :: b) = a := by
  simp [stripComment, find_append ha]

theorem stripComment_none {a : Str} (ha : '#' ∉ a) : stripComment a = a := by
  simp [stripComment, find_none ha]

/-! ## Lines of the stream -/

theorem takeWhile_eq_self {p : Char → Bool} {l : Str} (h : ∀ x ∈ l, p x = true) : l.takeWhile p = l := by
  induction l with
  | nil => rfl
  | cons a l ih => simp [h a (by simp), ih (fun x hx => h x (by simp [hx]))]

theorem takeWhile_append_stop {p : Char → Bool} {l r : Str} {c : Char} (h : ∀ x ∈ l, p x = true)
    (hc : p c = false) : (l ++ c :: r).takeWhile p = l := by
  induction l with
  | nil => simp [hc]
  | cons a l ih => simp [h a (by simp), ih (fun x hx => h x (by simp [hx]))]

theorem getline_newline {l rest : Str} (h : '\n' ∉ l) (h0 : '\x00' ∉ l) (hl : l.length < 1000) :
    getline ⟨l ++ '\n' :: rest, false, false⟩ = (l, ⟨rest, false, false⟩) := by
  have h1 : (l ++ '\n' :: rest).takeWhile (· ≠ '\n') = l :=
    takeWhile_append_stop (fun x hx => by simp; rintro rfl; exact h hx) (by simp)
  have h2 : l.takeWhile (· ≠ '\x00') = l :=
    takeWhile_eq_self (fun x hx => by simp; rintro rfl; exact h0 hx)
  unfold getline
  simp only [h1, h2, maxChars]
  rw [if_neg (by simp), if_pos hl, if_neg (by simp)]
  have : List.drop (l.length + 1) (l ++ '\n' :: rest) = rest := by
    rw [List.drop_append]; simp
  rw [this]

theorem getline_last {l : Str} (h : '\n' ∉ l) (h0 : '\x00' ∉ l) (hl : l.length < 1000) :
    getline ⟨l, false, false⟩ = (l, ⟨[], true, l.length = 0⟩) := by
  have h1 : l.takeWhile (· ≠ '\n') = l :=
    takeWhile_eq_self (fun x hx => by simp; rintro rfl; exact h hx)
  have h2 : l.takeWhile (· ≠ '\x00') = l :=
    takeWhile_eq_self (fun x hx => by simp; rintro rfl; exact h0 hx)
  unfold getline
  simp only [h1, h2, maxChars]
  rw [if_neg (by simp), if_pos hl]
  simp

/-- Once a line is too long the loop never ends. -/
theorem readLoop_failed {σ : Type} (handle : σ → Str → Str → Option σ) (n : ℕ) (rest : Str) (s : σ) :
    readLoop handle n ⟨rest, false, true⟩ s = .running := by
  induction n with
  | zero => rfl
  | succ n ih =>
    have hg : getline ⟨rest, false, true⟩ = ([], ⟨rest, false, true⟩) := by simp [getline]
    have hp : processLine handle [] s = .done s := by
      simp [processLine, stripComment, find, trimLine]
    simp [readLoop, hg, hp, ih]

end NimbleSM.Deck
