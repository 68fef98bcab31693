import Mathlib.Data.List.Basic

/-!
# C56: `StringLength` and `StringsAreEqual` of `src/nimble_utils.h`

A `const char*` is an infinite memory `ℕ → Char` read from the pointer on; a C string is a memory
that starts with the characters of a list without NUL followed by a NUL.
-/

namespace NimbleSM.Strings

/-- The memory at `str` holds the C string `s`: its characters (none of them NUL), then NUL;
whatever follows is arbitrary. -/
def IsCString (str : Nat → Char) (s : List Char) : Prop :=
  (∀ c ∈ s, c ≠ '\x00') ∧ (∀ i (h : i < s.length), str i = s[i]) ∧ str s.length = '\x00'

/-- nimble_utils.h:59-66 `StringLength`: the loop `while (str[len] != '\0') len++`, started at
`len`; `fuel` bounds the number of iterations (`none` = still running). -/
def stringLengthFrom (str : Nat → Char) : (fuel len : Nat) → Option Nat
  | 0, _ => none
  | fuel + 1, len => if str len ≠ '\x00' then stringLengthFrom str fuel (len + 1) else some len

/-- nimble_utils.h:75-81: the comparison loop `for (i = 0; i < len; ++i) if (str1[i] != str2[i])
{ are_equal = false; break; }`, `n` iterations from index `i`. -/
def compareFrom (str1 str2 : Nat → Char) : (n i : Nat) → Bool
  | 0, _ => true
  | n + 1, i => if str1 i ≠ str2 i then false else compareFrom str1 str2 n (i + 1)

/-- nimble_utils.h:68-83 `StringsAreEqual`; `none` when one of the two length loops has not
finished within `fuel` iterations. -/
def stringsAreEqual (str1 str2 : Nat → Char) (fuel : Nat) : Option Bool :=
  match stringLengthFrom str1 fuel 0, stringLengthFrom str2 fuel 0 with
  | some len1, some len2 =>
    let len := if len1 < len2 then len1 else len2
    some (compareFrom str1 str2 len 0)
  | _, _ => none

theorem stringLengthFrom_spec (str : Nat → Char) (s : List Char) (h : IsCString str s) :
    ∀ fuel len, len ≤ s.length → s.length < fuel + len →
      stringLengthFrom str fuel len = some s.length := by
  intro fuel
  induction fuel with
  | zero => intro len h1 h2; omega
  | succ n ih =>
    intro len h1 h2
    unfold stringLengthFrom
    by_cases hl : len < s.length
    · have hne : str len ≠ '\x00' := by
        rw [h.2.1 len hl]; exact h.1 _ (List.getElem_mem _)
      rw [if_pos hne]
      exact ih (len + 1) (by omega) (by omega)
    · have : len = s.length := by omega
      subst this
      rw [if_neg (by simp [h.2.2])]

theorem compareFrom_iff (a b : Nat → Char) : ∀ n i,
    compareFrom a b n i = true ↔ ∀ k, k < n → a (i + k) = b (i + k) := by
  intro n
  induction n with
  | zero => intro i; simp [compareFrom]
  | succ n ih =>
    intro i
    unfold compareFrom
    by_cases h : a i = b i
    · simp only [h, ne_eq, not_true_eq_false, if_false, ih]
      constructor
      · intro hk k hkn
        rcases k with _ | k
        · simpa using h
        · have := hk k (by omega)
          rwa [show i + (k + 1) = i + 1 + k by omega]
      · intro hk k hkn
        have := hk (k + 1) (by omega)
        rwa [show i + 1 + k = i + (k + 1) by omega]
    · simp only [ne_eq, h, not_false_eq_true, if_true]
      constructor
      · intro hf; simp at hf
      · intro hk; exact absurd (hk 0 (by omega)) h

/-- The length loop terminates on every C string and returns its length. -/
theorem stringLength_spec (str : Nat → Char) (s : List Char) (h : IsCString str s) (fuel : Nat)
    (hf : s.length < fuel) : stringLengthFrom str fuel 0 = some s.length :=
  stringLengthFrom_spec str s h fuel 0 (by omega) (by omega)

/-- What the code computes: `StringsAreEqual(a, b)` is true exactly when one of the strings is a
prefix of the other. -/
theorem stringsAreEqual_iff_prefix (str1 str2 : Nat → Char) (s t : List Char)
    (hs : IsCString str1 s) (ht : IsCString str2 t) (fuel : Nat) (h1 : s.length < fuel)
    (h2 : t.length < fuel) :
    ∃ r, stringsAreEqual str1 str2 fuel = some r ∧ (r = true ↔ (s <+: t ∨ t <+: s)) := by
  unfold stringsAreEqual
  rw [stringLength_spec _ _ hs _ h1, stringLength_spec _ _ ht _ h2]
  refine ⟨_, rfl, ?_⟩
  rw [compareFrom_iff]
  simp only [Nat.zero_add]
  constructor
  · intro hk
    by_cases hlt : s.length < t.length
    · left
      rw [if_pos hlt] at hk
      rw [List.prefix_iff_eq_take]
      apply List.ext_getElem
      · simp; omega
      · intro i hi _
        have := hk i hi
        rw [hs.2.1 i hi, ht.2.1 i (by omega)] at this
        simpa using this
    · right
      rw [if_neg hlt] at hk
      rw [List.prefix_iff_eq_take]
      apply List.ext_getElem
      · simp; omega
      · intro i hi _
        have := hk i hi
        rw [ht.2.1 i hi, hs.2.1 i (by omega)] at this
        simpa using this.symm
  · have aux : ∀ (a b : List Char) (hab : a <+: b) (k : Nat) (hk : k < a.length),
        a[k] = b[k]'(Nat.lt_of_lt_of_le hk hab.length_le) := by
      intro a b hab k hk
      exact List.IsPrefix.getElem hab hk
    rintro (hp | hp) k hk
    · have hl := hp.length_le
      have hks : k < s.length := by split at hk <;> omega
      have hkt : k < t.length := by omega
      rw [hs.2.1 k hks, ht.2.1 k hkt]
      exact aux s t hp k hks
    · have hl := hp.length_le
      have hkt : k < t.length := by split at hk <;> omega
      have hks : k < s.length := by omega
      rw [hs.2.1 k hks, ht.2.1 k hkt]
      exact (aux t s hp k hkt).symm

/-- **C56, provable part.**  On strings of the same length the answer is right. -/
theorem stringsAreEqual_same_length_partial (str1 str2 : Nat → Char) (s t : List Char)
    (hs : IsCString str1 s) (ht : IsCString str2 t) (hlen : s.length = t.length) (fuel : Nat)
    (h1 : s.length < fuel) :
    ∃ r, stringsAreEqual str1 str2 fuel = some r ∧ (r = true ↔ s = t) := by
  obtain ⟨r, h, hr⟩ := stringsAreEqual_iff_prefix str1 str2 s t hs ht fuel h1 (hlen ▸ h1)
  refine ⟨r, h, hr.trans ⟨?_, fun h => Or.inl (h ▸ List.prefix_refl _)⟩⟩
  rintro (hp | hp)
  · exact hp.eq_of_length hlen
  · exact (hp.eq_of_length hlen.symm).symm

/-- **C56 is false of the code**: every string compares equal to each of its extensions. -/
theorem stringsAreEqual_wrong (str1 str2 : Nat → Char) (s t : List Char)
    (hs : IsCString str1 s) (ht : IsCString str2 t) (hpre : s <+: t) (fuel : Nat)
    (h1 : t.length < fuel) : stringsAreEqual str1 str2 fuel = some true := by
  obtain ⟨r, h, hr⟩ := stringsAreEqual_iff_prefix str1 str2 s t hs ht fuel
    (Nat.lt_of_le_of_lt hpre.length_le h1) h1
  rw [h, hr.mpr (Or.inl hpre)]

/-- The memory holding the characters of `s` and then zeros. -/
def cstr (s : List Char) : Nat → Char := fun i => s.getD i '\x00'

theorem cstr_ok (s : List Char) (h : ∀ c ∈ s, c ≠ '\x00') : IsCString (cstr s) s :=
  ⟨h, fun i hi => by simp [cstr, hi], by simp [cstr]⟩

/-- Concrete instance of the failure: "fx" and "fxy" compare equal. -/
example : IsCString (cstr ['f', 'x']) ['f', 'x'] ∧ IsCString (cstr ['f', 'x', 'y']) ['f', 'x', 'y'] ∧
    stringsAreEqual (cstr ['f', 'x']) (cstr ['f', 'x', 'y']) 10 = some true ∧
    stringsAreEqual (cstr ['f', 'x']) (cstr ['f', 'y']) 10 = some false := by
  refine ⟨cstr_ok _ (by decide), cstr_ok _ (by decide), by decide, by decide⟩

end NimbleSM.Strings
