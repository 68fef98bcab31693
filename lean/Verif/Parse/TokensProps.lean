import Verif.Parse.Tokens
import Mathlib.Tactic.Linarith
import Mathlib.Tactic.FinCases
import Mathlib.Data.Fintype.Basic
import Mathlib.Tactic.FieldSimp
import Mathlib.Tactic.NormNum
import Mathlib.Tactic.Ring

/-!
# Tokens and numbers: specification

`tokenize_words`: a text made of words separated by blanks yields its words.
`stringToDouble_literal`: a decimal literal yields its value.
-/

namespace NimbleSM.Parse

/-- Nothing but white space. -/
def Blank (s : List Char) : Prop := ∀ c ∈ s, isSpace c = true

/-- A nonempty string without white space and without quotes. -/
def Word (w : List Char) : Prop := w ≠ [] ∧ ∀ c ∈ w, isSpace c = false ∧ c ≠ '"'

/-- The text `w₁ g₁ w₂ g₂ …`. -/
def layout (l : List (List Char × List Char)) : List Char := l.flatMap fun p => p.1 ++ p.2

/-- All gaps are white space; they start with a blank, except that the last one may be empty. -/
inductive Gaps : List (List Char × List Char) → Prop
  | nil : Gaps []
  | last (w) : Gaps [(w, [])]
  | cons (w g l) : Blank g → Gaps l → Gaps ((w, ' ' :: g) :: l)

/-! ## White space -/

theorem dropWhile_blank {s : List Char} (h : Blank s) (t : List Char) :
    (s ++ t).dropWhile isSpace = t.dropWhile isSpace := by
  induction s with
  | nil => rfl
  | cons c s ih =>
    rw [List.cons_append, List.dropWhile_cons_of_pos (h c (by simp))]
    exact ih fun d hd => h d (by simp [hd])

theorem tokenizeSep_congr (sep : Char) (s t : List Char)
    (h : s.dropWhile isSpace = t.dropWhile isSpace) : tokenizeSep sep s = tokenizeSep sep t := by
  rw [tokenizeSep, tokenizeSep]
  split
  · rename_i h1
    rw [h] at h1
    split
    · rfl
    · rename_i c cs h2; rw [h1] at h2; cases h2
  · rename_i c cs h1
    rw [h] at h1
    split
    · rename_i h2; rw [h1] at h2; cases h2
    · rename_i c' cs' h2; rw [h1] at h2; cases h2; rfl

theorem tokenizeSep_blank (sep : Char) (s : List Char) (h : Blank s) (t : List Char) :
    tokenizeSep sep (s ++ t) = tokenizeSep sep t :=
  tokenizeSep_congr _ _ _ (dropWhile_blank h t)

theorem tokenizeSep_nil (sep : Char) : tokenizeSep sep [] = [] := by
  rw [tokenizeSep]
  simp

theorem tokenizeSep_cons (sep : Char) (c : Char) (cs : List Char) (hc : isSpace c = false) :
    tokenizeSep sep (c :: cs) = (c :: cs).takeWhile (· ≠ sep) ::
      tokenizeSep sep ((c :: cs).drop (((c :: cs).takeWhile (· ≠ sep)).length + 1)) := by
  have hd : (c :: cs).dropWhile isSpace = c :: cs := by
    rw [List.dropWhile_cons_of_neg]; simp [hc]
  conv_lhs => rw [tokenizeSep]
  split
  · rename_i h; rw [hd] at h; cases h
  · rename_i c' cs' h; rw [hd] at h; cases h; rfl

/-- A word followed by a separator. -/
theorem tokenizeSep_word (sep : Char) (w : List Char) (hw : w ≠ []) (hs : ∀ c ∈ w, c ≠ sep)
    (hsp : ∀ c ∈ w.head?, isSpace c = false) (t : List Char) :
    tokenizeSep sep (w ++ sep :: t) = w :: tokenizeSep sep t := by
  cases w with
  | nil => exact absurd rfl hw
  | cons c cs =>
    have htw : ((c :: cs) ++ sep :: t).takeWhile (· ≠ sep) = c :: cs := by
      rw [List.takeWhile_append_of_pos (by simpa using hs)]
      simp
    rw [List.cons_append] at htw ⊢
    rw [tokenizeSep_cons sep c _ (hsp c (by simp)), htw]
    congr 2
    have : c :: (cs ++ sep :: t) = ((c :: cs) ++ [sep]) ++ t := by simp
    rw [this, List.drop_left']
    simp

/-- A last word. -/
theorem tokenizeSep_last (sep : Char) (w : List Char) (hw : w ≠ []) (hs : ∀ c ∈ w, c ≠ sep)
    (hsp : ∀ c ∈ w.head?, isSpace c = false) : tokenizeSep sep w = [w] := by
  cases w with
  | nil => exact absurd rfl hw
  | cons c cs =>
    have htw : (c :: cs).takeWhile (· ≠ sep) = c :: cs := by
      rw [List.takeWhile_eq_self_iff]
      simpa using hs
    rw [tokenizeSep_cons sep c _ (hsp c (by simp)), htw, List.drop_eq_nil_of_le (by simp),
      tokenizeSep_nil]

theorem head_of_word {w : List Char} (h : Word w) : ∀ c ∈ w.head?, isSpace c = false := by
  intro c hc
  exact (h.2 c (List.mem_of_mem_head? hc)).1

theorem tokenizeSep_layout (l : List (List Char × List Char)) (hw : ∀ p ∈ l, Word p.1)
    (hg : Gaps l) : tokenizeSep ' ' (layout l) = l.map Prod.fst := by
  induction hg with
  | nil => exact tokenizeSep_nil _
  | last w =>
    have h := hw (w, []) (by simp)
    simp only [layout, List.flatMap_cons, List.flatMap_nil, List.append_nil, List.map_cons,
      List.map_nil]
    exact tokenizeSep_last ' ' w h.1 (fun c hc he => by
      have := (h.2 c hc).1; rw [he] at this; exact absurd this (by decide)) (head_of_word h)
  | cons w g l hg hl ih =>
    have h := hw (w, ' ' :: g) (by simp)
    have e : layout ((w, ' ' :: g) :: l) = w ++ ' ' :: (g ++ layout l) := by
      simp [layout]
    rw [e, tokenizeSep_word ' ' w h.1 (fun c hc he => by
      have := (h.2 c hc).1; rw [he] at this; exact absurd this (by decide)) (head_of_word h),
      tokenizeSep_blank _ _ hg, ih (fun p hp => hw p (by simp [hp]))]
    rfl

/-- **Tokens.**  A text of words separated by blanks (possibly more white space after the first
blank, possibly white space in front) yields its words in order. -/
theorem tokenize_words (lead : List Char) (hlead : Blank lead) (l : List (List Char × List Char))
    (hw : ∀ p ∈ l, Word p.1) (hg : Gaps l) : tokenize (lead ++ layout l) = l.map Prod.fst := by
  have hnoq : ∀ (l : List (List Char × List Char)), (∀ p ∈ l, Word p.1) → Gaps l →
      ∀ c ∈ layout l, c ≠ '"' := by
    intro l hw hg
    induction hg with
    | nil => intro c hc; simp [layout] at hc
    | last w =>
      intro c hc
      simp only [layout, List.flatMap_cons, List.flatMap_nil, List.append_nil] at hc
      exact ((hw (w, []) (by simp)).2 c hc).2
    | cons w g l hg hl ih =>
      intro c hc
      have e : layout ((w, ' ' :: g) :: l) = w ++ ' ' :: (g ++ layout l) := by simp [layout]
      rw [e] at hc
      simp only [List.mem_append, List.mem_cons] at hc
      rcases hc with hc | hc | hc | hc
      · exact ((hw (w, ' ' :: g) (by simp)).2 c hc).2
      · rw [hc]; decide
      · intro he
        have := hg c hc
        rw [he] at this
        exact absurd this (by decide)
      · exact ih (fun p hp => hw p (by simp [hp])) c hc
  unfold tokenize
  rw [tokenizeSep_blank _ _ hlead]
  cases l with
  | nil => simp [layout, tokenizeSep_nil, tokenizeSegments]
  | cons p l =>
    have hp := hw p (by simp)
    have hne : layout (p :: l) ≠ [] := by
      simp [layout, hp.1]
    have hhead : ∀ c ∈ (layout (p :: l)).head?, isSpace c = false := by
      intro c hc
      have : (layout (p :: l)).head? = p.1.head? := by
        obtain ⟨w, g⟩ := p
        cases w with
        | nil => exact absurd rfl hp.1
        | cons c w => simp [layout]
      rw [this] at hc
      exact head_of_word hp c hc
    rw [tokenizeSep_last '"' _ hne (hnoq _ hw hg) hhead]
    simp only [tokenizeSegments, List.append_nil]
    exact tokenizeSep_layout _ hw hg

/-- A tab between two words does not separate them. -/
theorem tab_does_not_separate : tokenize "density\t7.8".toList = ["density\t7.8".toList] := by
  unfold tokenize
  rw [tokenizeSep_last _ _ (by decide) (by decide) (by decide)]
  simp only [tokenizeSegments, List.append_nil]
  exact tokenizeSep_last _ _ (by decide) (by decide) (by decide)

/-! ## Numbers -/

/-- A decimal literal. -/
structure Lit where
  /-- `some true` is a minus sign, `some false` a plus sign -/
  sign : Option Bool
  ip : List (Fin 10)
  /-- digits after the point, if there is a point -/
  fp : Option (List (Fin 10))
  /-- capital `E`?, sign and digits of the exponent -/
  ex : Option (Bool × Option Bool × List (Fin 10))

/-- There is a digit in the mantissa, and in the exponent if there is one. -/
def Lit.Valid (l : Lit) : Prop :=
  (l.ip ≠ [] ∨ ∃ d, l.fp = some d ∧ d ≠ []) ∧ ∀ b s d, l.ex = some (b, s, d) → d ≠ []

/-- The digit characters. -/
def digitChar (d : Fin 10) : Char :=
  (['0', '1', '2', '3', '4', '5', '6', '7', '8', '9'] : List Char)[d.val]'(by simp)

/-- Sign characters. -/
def signChars : Option Bool → List Char
  | none => []
  | some true => ['-']
  | some false => ['+']

/-- Fraction characters. -/
def fpChars : Option (List (Fin 10)) → List Char
  | none => []
  | some d => '.' :: d.map digitChar

/-- Exponent characters. -/
def exChars : Option (Bool × Option Bool × List (Fin 10)) → List Char
  | none => []
  | some (b, s, d) => (if b then 'E' else 'e') :: (signChars s ++ d.map digitChar)

/-- The text of a literal. -/
def Lit.text (l : Lit) : List Char :=
  signChars l.sign ++ l.ip.map digitChar ++ fpChars l.fp ++ exChars l.ex

/-- Value of a digit sequence. -/
def natVal (d : List (Fin 10)) : ℕ := d.foldl (fun a c => 10 * a + c.val) 0

/-- Value of a fraction. -/
def fracVal : Option (List (Fin 10)) → ℚ
  | none => 0
  | some d => natVal d / 10 ^ d.length

/-- Value of a literal. -/
def Lit.value (l : Lit) : ℚ :=
  let m : ℚ := natVal l.ip + fracVal l.fp
  let m := if l.sign = some true then -m else m
  match l.ex with
  | none => m
  | some (_, s, d) => if s = some true then m / 10 ^ natVal d else m * 10 ^ natVal d

theorem digitChar_isDigit (d : Fin 10) : isDigit (digitChar d) = true := by
  fin_cases d <;> decide

theorem digitChar_val (d : Fin 10) : digitVal (digitChar d) = d.val := by
  fin_cases d <;> decide

theorem digitChar_not_sign (d : Fin 10) : digitChar d ≠ '-' ∧ digitChar d ≠ '+' ∧ digitChar d ≠ '.'
    ∧ isSpace (digitChar d) = false := by
  fin_cases d <;> decide

theorem digitsVal_map (d : List (Fin 10)) : digitsVal (d.map digitChar) = natVal d := by
  unfold digitsVal natVal
  rw [List.foldl_map]
  simp only [digitChar_val]

theorem natVal_append_aux (b : List (Fin 10)) (x : ℕ) :
    b.foldl (fun a c => 10 * a + c.val) x = x * 10 ^ b.length + natVal b := by
  unfold natVal
  induction b generalizing x with
  | nil => simp
  | cons c b ih =>
    rw [List.foldl_cons, ih, List.foldl_cons, ih (10 * 0 + c.val), List.length_cons, pow_succ]
    ring

theorem natVal_append (a b : List (Fin 10)) :
    natVal (a ++ b) = natVal a * 10 ^ b.length + natVal b := by
  conv_lhs => unfold natVal
  rw [List.foldl_append, natVal_append_aux b]
  rfl

theorem takeWhile_digits (d : List (Fin 10)) (t : List Char)
    (ht : ∀ c ∈ t.head?, isDigit c = false) :
    (d.map digitChar ++ t).takeWhile isDigit = d.map digitChar ∧
    (d.map digitChar ++ t).dropWhile isDigit = t := by
  have h : ∀ c ∈ d.map digitChar, isDigit c = true := by
    intro c hc
    obtain ⟨x, -, rfl⟩ := List.mem_map.mp hc
    exact digitChar_isDigit x
  constructor
  · rw [List.takeWhile_append_of_pos h]
    cases t with
    | nil => simp
    | cons c t => rw [List.takeWhile_cons_of_neg (by simp [ht c (by simp)]), List.append_nil]
  · rw [List.dropWhile_append_of_pos h]
    cases t with
    | nil => simp
    | cons c t => rw [List.dropWhile_cons_of_neg (by simp [ht c (by simp)])]

theorem takeSign_spec (s : Option Bool) (t : List Char) (ht : ∀ c ∈ t.head?, c ≠ '-' ∧ c ≠ '+') :
    takeSign (signChars s ++ t) = (decide (s = some true), t) := by
  rcases s with _ | _ | _
  · cases t with
    | nil => rfl
    | cons c t =>
      obtain ⟨h1, h2⟩ := ht c (by simp)
      simp only [signChars, List.nil_append]
      unfold takeSign
      split
      · rename_i h; cases h; exact absurd rfl h1
      · rename_i h; cases h; exact absurd rfl h2
      · rfl
  · rfl
  · rfl

/-- What may follow a literal without changing how it is read. -/
def Stops (l : Lit) (t : List Char) : Prop :=
  (∀ c ∈ t.head?, isDigit c = false) ∧
  (l.ex = none → expLetter t = false ∧ (l.fp = none → ∀ c ∈ t.head?, c ≠ '.'))

/-- **Numbers.**  Scanning the text of a valid literal yields its value, and leaves what
follows. -/
theorem scanDouble_literal (l : Lit) (hl : l.Valid) (t : List Char) (ht : Stops l t) :
    scanDouble (l.text ++ t) = some (l.value, t) := by
  obtain ⟨sign, ip, fp, ex⟩ := l
  obtain ⟨hv1, hv2⟩ := hl
  obtain ⟨ht1, ht2⟩ := ht
  simp only at hv1 hv2 ht1 ht2
  -- the exponent part
  obtain ⟨E, hE⟩ : ∃ E, E = exChars ex := ⟨_, rfl⟩
  obtain ⟨Fp, hFp⟩ : ∃ Fp, Fp = fpChars fp := ⟨_, rfl⟩
  have hEhead : ∀ c ∈ (E ++ t).head?, isDigit c = false := by
    intro c hc
    rcases ex with _ | ⟨b, s, d⟩
    · exact ht1 c (by simpa [hE, exChars] using hc)
    · simp [hE, exChars] at hc
      subst hc
      cases b <;> decide
  have hEdot : fp = none → ∀ c ∈ (E ++ t).head?, c ≠ '.' := by
    intro hfp c hc
    rcases ex with _ | ⟨b, s, d⟩
    · exact (ht2 rfl).2 hfp c (by simpa [hE, exChars] using hc)
    · simp [hE, exChars] at hc
      subst hc
      cases b <;> decide
  have htext : Lit.text ⟨sign, ip, fp, ex⟩ ++ t
      = signChars sign ++ (ip.map digitChar ++ (Fp ++ (E ++ t))) := by
    simp only [Lit.text, hE, hFp, List.append_assoc]
  have hfphead : ∀ c ∈ (Fp ++ (E ++ t)).head?, isDigit c = false := by
    intro c hc
    rcases fp with _ | d
    · exact hEhead c (by simpa [hFp, fpChars] using hc)
    · simp [hFp, fpChars] at hc
      subst hc; decide
  have hsignhead : ∀ c ∈ (ip.map digitChar ++ (Fp ++ (E ++ t))).head?, c ≠ '-' ∧ c ≠ '+' := by
    intro c hc
    rcases ip with _ | ⟨d, ip⟩
    · rcases fp with _ | f
      · simp at hv1
      · simp [hFp, fpChars] at hc
        subst hc; decide
    · simp at hc
      subst hc
      exact ⟨(digitChar_not_sign d).1, (digitChar_not_sign d).2.1⟩
  obtain ⟨hip1, hip2⟩ := takeWhile_digits ip (Fp ++ (E ++ t)) hfphead
  have hfrac : takeFraction (Fp ++ (E ++ t)) = ((fp.getD []).map digitChar, E ++ t) := by
    rcases fp with _ | d
    · simp only [hFp, fpChars, List.nil_append, Option.getD_none, List.map_nil]
      cases hEt : E ++ t with
      | nil => rfl
      | cons c r =>
        have := hEdot rfl c (by rw [hEt]; simp)
        unfold takeFraction
        split
        · rename_i h; cases h; exact absurd rfl this
        · rfl
    · simp only [hFp, fpChars, Option.getD_some]
      obtain ⟨h1, h2⟩ := takeWhile_digits d (E ++ t) hEhead
      simp only [takeFraction, List.cons_append, h1, h2]
  unfold scanDouble
  rw [htext, takeSign_spec _ _ hsignhead]
  simp only [hip1, hip2, hfrac]
  have hne : ¬ (ip.map digitChar = [] ∧ (fp.getD []).map digitChar = []) := by
    rintro ⟨h1, h2⟩
    rcases hv1 with h | ⟨d, hd, hd2⟩
    · exact h (by simpa using h1)
    · subst hd; exact hd2 (by simpa using h2)
  rw [if_neg hne]
  have hm : ((digitsVal (ip.map digitChar ++ (fp.getD []).map digitChar) : ℕ) : ℚ)
      / 10 ^ ((fp.getD []).map digitChar).length
      = natVal ip + fracVal fp := by
    rw [← List.map_append, digitsVal_map, natVal_append, List.length_map]
    have h10 : (10 : ℚ) ^ (fp.getD []).length ≠ 0 := by positivity
    push_cast
    rw [add_div, mul_div_assoc, div_self h10, mul_one]
    rcases fp with _ | d
    · simp [natVal, fracVal]
    · rfl
  rw [hm]
  simp only [Lit.value, decide_eq_true_eq]
  generalize (natVal ip + fracVal fp : ℚ) = M
  rcases ex with _ | ⟨b, s, d⟩
  · have := (ht2 rfl).1
    simp only [hE, exChars, List.nil_append, this]
    rfl
  · have hd := hv2 b s d rfl
    have hexp : expLetter (E ++ t) = true := by
      simp only [hE, exChars]; cases b <;> rfl
    have htail : (E ++ t).tail = signChars s ++ (d.map digitChar ++ t) := by
      simp [hE, exChars]
    rw [if_pos hexp, htail, takeSign_spec]
    · obtain ⟨h1, h2⟩ := takeWhile_digits d t ht1
      simp only [h1, h2]
      have hd' : d.map digitChar ≠ [] := by simpa using hd
      rw [if_neg hd', digitsVal_map]
      simp
    · intro c hc
      cases d with
      | nil => exact absurd rfl hd
      | cons x d =>
        simp at hc
        subst hc
        exact ⟨(digitChar_not_sign x).1, (digitChar_not_sign x).2.1⟩

/-- **Numbers.**  `string_to_double` of a decimal literal is its value. -/
theorem stringToDouble_literal (dmax : ℚ) (l : Lit) (hl : l.Valid) :
    stringToDouble dmax l.text = l.value := by
  have h := scanDouble_literal l hl [] ⟨by simp, fun _ => ⟨rfl, by simp⟩⟩
  rw [List.append_nil] at h
  have hsp : l.text.dropWhile isSpace = l.text ∧ l.text ≠ [] := by
    have hh : ∃ c r, l.text = c :: r ∧ isSpace c = false := by
      obtain ⟨sign, ip, fp, ex⟩ := l
      rcases sign with _ | _ | _
      · rcases ip with _ | ⟨d, ip⟩
        · rcases fp with _ | f
          · rcases hl.1 with h | ⟨d, h, -⟩
            · exact absurd rfl h
            · cases h
          · exact ⟨'.', _, rfl, by decide⟩
        · exact ⟨digitChar d, _, rfl, (digitChar_not_sign d).2.2.2⟩
      · exact ⟨'+', _, rfl, by decide⟩
      · exact ⟨'-', _, rfl, by decide⟩
    obtain ⟨c, r, h1, h2⟩ := hh
    rw [h1]
    exact ⟨by rw [List.dropWhile_cons_of_neg]; simp [h2], by simp⟩
  unfold stringToDouble
  rw [hsp.1]
  cases ht : l.text with
  | nil => exact absurd ht hsp.2
  | cons c cs => rw [ht] at h; simp only [h]

/-- A text that does not start like a number yields zero, silently. -/
theorem stringToDouble_not_a_number (dmax : ℚ) (c : Char) (s : List Char)
    (hc : isSpace c = false) (hd : isDigit c = false) (hs : c ≠ '-' ∧ c ≠ '+' ∧ c ≠ '.') :
    stringToDouble dmax (c :: s) = 0 := by
  have hdw : (c :: s).dropWhile isSpace = c :: s := by
    rw [List.dropWhile_cons_of_neg]; simp [hc]
  have h1 : takeSign (c :: s) = (false, c :: s) :=
    takeSign_spec none (c :: s) (by simpa using ⟨hs.1, hs.2.1⟩)
  have h2 : takeFraction (c :: s) = ([], c :: s) := by
    unfold takeFraction
    split
    · rename_i h; cases h; exact absurd rfl hs.2.2
    · rfl
  have h3 : scanDouble (c :: s) = none := by
    unfold scanDouble
    rw [h1]
    simp [hd, h2]
  unfold stringToDouble
  rw [hdw]
  simp only [h3]

/-- Non-vacuity: `-12.50e-1` is read as -5/4. -/
example : (Lit.text ⟨some true, [1, 2], some [5, 0], some (false, some true, [1])⟩ = "-12.50e-1".toList) ∧
    stringToDouble 0 "-12.50e-1".toList = -5 / 4 := by
  constructor
  · decide +kernel
  · decide +kernel

/-- Non-vacuity: a typical parameter line. -/
example : tokenize "neohookean bulk_modulus 1.6e12  density 7.8 ".toList
    = ["neohookean".toList, "bulk_modulus".toList, "1.6e12".toList, "density".toList, "7.8".toList] := by
  refine tokenize_words [] (by intro c hc; cases hc) [("neohookean".toList, " ".toList),
    ("bulk_modulus".toList, " ".toList), ("1.6e12".toList, "  ".toList), ("density".toList, " ".toList),
    ("7.8".toList, " ".toList)] ?_ ?_
  · simp only [Word]; decide
  · exact .cons _ _ _ (by intro c hc; cases hc) (.cons _ _ _ (by intro c hc; cases hc)
      (.cons _ _ _ (by unfold Blank; decide) (.cons _ _ _ (by intro c hc; cases hc)
        (.cons _ _ _ (by intro c hc; cases hc) .nil))))

end NimbleSM.Parse
