import Verif.Timing.Timing
import Mathlib.Tactic.Ring
import Mathlib.Tactic.Linarith
import Mathlib.Data.Char

/-!
# C135: time stamps
-/

namespace NimbleSM.Timing

/-! ## Specification -/

/-- `l` comes before `l'` in alphabetical order: at the first difference it has the smaller character. -/
def Before (l l' : List Char) : Prop := ∃ p x y s t, l = p ++ x :: s ∧ l' = p ++ y :: t ∧ x < y

/-- What is needed of `strftime` up to the second `last` (the year 9999): dates consist of digits and full stops, and later
seconds come later in alphabetical order (a clock that is not set back by an hour). -/
structure Dates (date : ℕ → List Char) (last : ℕ) : Prop where
  sorted : ∀ s s', s < s' → s' ≤ last → Before (date s) (date s')
  chars : ∀ s ≤ last, ∀ c ∈ date s, c = '.' ∨ ('0' ≤ c ∧ c ≤ '9')

/-! ## Digits -/

theorem before_append {l l' : List Char} (h : Before l l') (a b : List Char) : Before (l ++ a) (l' ++ b) := by
  obtain ⟨p, x, y, s, t, rfl, rfl, hxy⟩ := h
  exact ⟨p, x, y, s ++ a, t ++ b, by simp, by simp, hxy⟩

theorem append_before (p : List Char) {l l' : List Char} (h : Before l l') : Before (p ++ l) (p ++ l') := by
  obtain ⟨q, x, y, s, t, rfl, rfl, hxy⟩ := h
  exact ⟨p ++ q, x, y, s, t, by simp, by simp, hxy⟩

theorem before_ne {l l' : List Char} (h : Before l l') : l ≠ l' := by
  obtain ⟨q, x, y, s, t, rfl, rfl, hxy⟩ := h
  intro e
  have := List.append_cancel_left e
  rw [List.cons.injEq] at this
  exact absurd (this.1 ▸ hxy) (lt_irrefl _)

/-- `k` decimal digits of a number, the most significant first. -/
def fixed : ℕ → ℕ → List Char
  | 0, _ => []
  | k + 1, m => fixed k (m / 10) ++ [digit (m % 10)]

theorem digit_lt {d e : ℕ} (h : d < e) (he : e < 10) : digit d < digit e := by
  have : ∀ e < 10, ∀ d < e, digit d < digit e := by decide
  exact this e he d h

theorem fixed_before (k : ℕ) : ∀ m m' : ℕ, m < m' → m' < 10 ^ k → Before (fixed k m) (fixed k m') := by
  induction k with
  | zero => intro m m' h h'; simp at h'; omega
  | succ k ih =>
    intro m m' h h'
    unfold fixed
    by_cases hd : m / 10 < m' / 10
    · exact before_append (ih _ _ hd (by rw [pow_succ] at h'; omega)) _ _
    · have e : m / 10 = m' / 10 := by omega
      rw [e]
      exact ⟨fixed k (m' / 10), digit (m % 10), digit (m' % 10), [], [], rfl, rfl, digit_lt (by omega) (by omega)⟩

theorem microsecond_eq (date : ℕ → List Char) (now : ℕ) :
    microsecondStamp date now = date (now / 1000000000) ++ fixed 6 (now % 1000000000 / 1000) := by
  have e : now - now / 1000000000 * 1000000000 = now % 1000000000 := by omega
  simp only [microsecondStamp, e, fixed, List.nil_append, List.cons_append, Nat.div_div_eq_div_mul]

theorem nanosecond_eq (date : ℕ → List Char) (now : ℕ) :
    nanosecondStamp date now = date (now / 1000000000) ++ fixed 9 (now % 1000000000) := by
  have e : now - now / 1000000000 * 1000000000 = now % 1000000000 := by omega
  simp only [nanosecondStamp, e, fixed, List.nil_append, List.cons_append, Nat.div_div_eq_div_mul]

theorem millisecond_eq (date : ℕ → List Char) (now later : ℕ) :
    millisecondStamp date now later = date (now / 1000000000) ++ fixed 3 (later / 1000000) := by
  simp only [millisecondStamp, fixed, List.nil_append, List.cons_append, Nat.div_div_eq_div_mul]

/-! ## C135 -/

/-- **C135 for microseconds.**  Stamps taken in a later microsecond come later in alphabetical order. -/
theorem microsecond_sorted {date : ℕ → List Char} {last : ℕ} (hd : Dates date last) (a b : ℕ) (hb : b / 1000000000 ≤ last) (h : a / 1000 < b / 1000) :
    Before (microsecondStamp date a) (microsecondStamp date b) := by
  rw [microsecond_eq, microsecond_eq]
  by_cases hs : a / 1000000000 < b / 1000000000
  · exact before_append (hd.sorted _ _ hs hb) _ _
  · have e : a / 1000000000 = b / 1000000000 := by omega
    rw [e]
    exact append_before _ (fixed_before 6 _ _ (by omega) (by norm_num; omega))

/-- **C135 for nanoseconds.** -/
theorem nanosecond_sorted {date : ℕ → List Char} {last : ℕ} (hd : Dates date last) (a b : ℕ) (hb : b / 1000000000 ≤ last) (h : a < b) :
    Before (nanosecondStamp date a) (nanosecondStamp date b) := by
  rw [nanosecond_eq, nanosecond_eq]
  by_cases hs : a / 1000000000 < b / 1000000000
  · exact before_append (hd.sorted _ _ hs hb) _ _
  · have e : a / 1000000000 = b / 1000000000 := by omega
    rw [e]
    exact append_before _ (fixed_before 9 _ _ (by omega) (by norm_num; omega))

theorem digit_char (d : ℕ) (h : d < 10) : '0' ≤ digit d ∧ digit d ≤ '9' := by
  have : ∀ d < 10, '0' ≤ digit d ∧ digit d ≤ '9' := by decide
  exact this d h

theorem fixed_chars (k m : ℕ) : ∀ c ∈ fixed k m, '0' ≤ c ∧ c ≤ '9' := by
  induction k generalizing m with
  | zero => simp [fixed]
  | succ k ih =>
    intro c hc
    rw [fixed, List.mem_append, List.mem_singleton] at hc
    rcases hc with hc | rfl
    · exact ih _ c hc
    · exact digit_char _ (Nat.mod_lt _ (by norm_num))

/-- **C135.**  Runs on equally many ranks that end in different microseconds write different timing files, and the name has no
blanks. -/
theorem timing_files_distinct {date : ℕ → List Char} {last : ℕ} (hd : Dates date last) (ranks : List Char)
    (hr : ∀ c ∈ ranks, '0' ≤ c ∧ c ≤ '9') (a b : ℕ) (ha : a / 1000000000 ≤ last)
    (hb : b / 1000000000 ≤ last)
    (h : timingFileName ranks (microsecondStamp date a) = timingFileName ranks (microsecondStamp date b)) :
    a / 1000 = b / 1000 ∧ ' ' ∉ timingFileName ranks (microsecondStamp date a) := by
  have key : ∀ n, n / 1000000000 ≤ last → timingFileName ranks (microsecondStamp date n)
      = "nimble_timing_data_n".toList ++ ranks ++ ['_'] ++ microsecondStamp date n ++ ".log".toList := by
    intro n hn
    unfold timingFileName
    rw [List.map_congr_left (g := id), List.map_id]
    intro c hc
    rw [id, if_neg]
    rintro rfl
    simp only [List.mem_append] at hc
    rcases hc with (((hc | hc) | hc) | hc) | hc
    · revert hc; decide
    · exact absurd (hr _ hc).1 (by decide)
    · revert hc; decide
    · rw [microsecond_eq, List.mem_append] at hc
      rcases hc with hc | hc
      · rcases hd.chars _ hn _ hc with hc | hc
        · revert hc; decide
        · exact absurd hc.1 (by decide)
      · exact absurd (fixed_chars _ _ _ hc).1 (by decide)
    · revert hc; decide
  constructor
  · rw [key a ha, key b hb] at h
    have e : microsecondStamp date a = microsecondStamp date b := List.append_cancel_left (List.append_cancel_right h)
    by_contra hne
    rcases lt_or_gt_of_ne hne with hlt | hlt
    · exact before_ne (microsecond_sorted hd a b hb hlt) e
    · exact before_ne (microsecond_sorted hd b a ha hlt) e.symm
  · unfold timingFileName
    rw [List.mem_map]
    rintro ⟨c, -, hc⟩
    split_ifs at hc with h'
    · revert hc; decide
    · exact h' hc

/-- **C135 is false for milliseconds**: the clock is read twice.  In every second there is a moment whose stamp comes before
the stamp of every earlier moment of that second but those of its first millisecond. -/
theorem millisecond_goes_back (date : ℕ → List Char) (s a : ℕ) (h1 : s * 1000000000 + 1000000 ≤ a)
    (h2 : a < s * 1000000000 + 999999999) :
    Before (millisecondStamp date (s * 1000000000 + 999999999) ((s + 1) * 1000000000)) (millisecondStamp date a a) := by
  rw [millisecond_eq, millisecond_eq]
  have e1 : (s * 1000000000 + 999999999) / 1000000000 = s := by omega
  have e2 : a / 1000000000 = s := by omega
  rw [e1, e2]
  have f3 : ∀ m, fixed 3 m = fixed 3 (m % 1000) := by
    intro m
    have h0 : m / 10 / 10 % 10 = m % 1000 / 10 / 10 % 10 := by omega
    have h1 : m / 10 % 10 = m % 1000 / 10 % 10 := by omega
    have h2 : m % 10 = m % 1000 % 10 := by omega
    simp only [fixed, List.nil_append, List.cons_append]
    rw [← h0, ← h1, ← h2]
  rw [f3 ((s + 1) * 1000000000 / 1000000), f3 (a / 1000000)]
  exact append_before _ (fixed_before 3 _ _ (by omega) (by norm_num; omega))

/-- The date of the demonstration: the number of the second with twelve digits. -/
def demoDate (s : ℕ) : List Char := fixed 12 s

/-- Non-vacuity: such dates exist. -/
theorem demo_dates : Dates demoDate 999999999999 where
  sorted s s' h h' := fixed_before 12 s s' h (by omega)
  chars s _ c hc := Or.inr (fixed_chars 12 s c hc)

/-- Non-vacuity: a stamp. -/
example : microsecondStamp demoDate 1700000000123456789 = "001700000000123456".toList := by decide +kernel

end NimbleSM.Timing
