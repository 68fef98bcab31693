import Verif.Expr.StageLemmas
import Verif.Parse.TokensProps

/-!
# Numbers in expressions
-/

namespace NimbleSM.Expr

open NimbleSM.Parse

theorem isInteger_cons (c : Char) (cs : Str) : isInteger (c :: cs) =
    if cs = [] ∧ (c = '-' ∨ c = '+') then false
    else if c ≠ '-' ∧ c ≠ '+' ∧ isDigit c = false then false
    else cs.all isDigit := rfl

theorem isNumber_cons (c : Char) (cs : Str) : isNumber (c :: cs) =
    if c = '-' ∨ c = '+' then numLoop false false cs else numLoop false false (c :: cs) := rfl

/-- The characters of numbers. -/
def numChar (c : Char) : Bool := isDigit c || c = '.' || c = 'e' || c = '+' || c = '-'

theorem numChar_digit {c : Char} (h : isDigit c = true) : numChar c = true := by simp [numChar, h]

theorem isInteger_mem {t : Str} (h : isInteger t = true) : ∀ c ∈ t, numChar c = true := by
  intro c hc
  rcases t with _ | ⟨a, t⟩
  · cases hc
  · rw [isInteger_cons] at h
    split_ifs at h with h1 h2
    simp only [List.mem_cons] at hc
    rcases hc with rfl | hc
    · by_cases ha : isDigit c = true
      · exact numChar_digit ha
      · simp only [not_and_or, not_not] at h2
        rcases h2 with h2 | h2 | h2
        · rw [h2]; decide
        · rw [h2]; decide
        · exact absurd (by simpa using h2) ha
    · exact numChar_digit (List.all_eq_true.1 h c hc)

theorem numLoop_mem {t : Str} : ∀ {d g : Bool}, numLoop d g t = true → ∀ c ∈ t, numChar c = true := by
  induction t with
  | nil => intro d g _ c hc; cases hc
  | cons a t ih =>
    intro d g h c hc
    unfold numLoop at h
    simp only [List.mem_cons] at hc
    split_ifs at h with h1 h2 h3
    · rcases hc with rfl | hc
      · exact numChar_digit h1
      · exact ih h c hc
    · rcases hc with rfl | hc
      · rw [h2.1]; decide
      · exact ih h c hc
    · rcases hc with rfl | hc
      · rw [h3.1]; decide
      · exact isInteger_mem h c hc

theorem isNumber_mem {t : Str} (h : isNumber t = true) : ∀ c ∈ t, numChar c = true := by
  intro c hc
  rcases t with _ | ⟨a, t⟩
  · cases hc
  · rw [isNumber_cons] at h
    split_ifs at h with h1
    · simp only [List.mem_cons] at hc
      rcases hc with rfl | hc
      · rcases h1 with h1 | h1 <;> (rw [h1]; decide)
      · exact numLoop_mem h c hc
    · exact numLoop_mem h c hc

theorem isNumber_false {t : Str} {c : Char} (hc : c ∈ t) (h : numChar c = false) : isNumber t = false := by
  by_contra hn
  rw [isNumber_mem (by simpa using hn) c hc] at h
  cases h

theorem isInteger_false {t : Str} {c : Char} (hc : c ∈ t) (h : numChar c = false) : isInteger t = false := by
  by_contra hn
  rw [isInteger_mem (by simpa using hn) c hc] at h
  cases h

/-- A text that a digit would complete to a number with exponent. -/
def NumE (a : Str) : Prop := ∃ a0, a = a0 ++ ['e'] ∧ isNumber (a0 ++ ['e', '0']) = true

theorem numLoop_op {c : Char} {b : Str} (hc : c = '+' ∨ c = '-') {a : Str} : ∀ {d g : Bool},
    numLoop d g (a ++ c :: b) = true → ∃ a0, a = a0 ++ ['e'] ∧ numLoop d g (a0 ++ ['e', '0']) = true := by
  induction a with
  | nil =>
    intro d g h
    rcases hc with rfl | rfl <;> (simp [numLoop, isDigit] at h)
  | cons x a ih =>
    intro d g h
    rw [List.cons_append] at h
    unfold numLoop at h
    split_ifs at h with h1 h2 h3
    · obtain ⟨a0, rfl, h0⟩ := ih h
      exact ⟨x :: a0, rfl, by rw [List.cons_append]; unfold numLoop; rw [if_pos h1]; exact h0⟩
    · obtain ⟨a0, rfl, h0⟩ := ih h
      exact ⟨x :: a0, rfl, by rw [List.cons_append]; unfold numLoop; rw [if_neg h1, if_pos h2]; exact h0⟩
    · rcases a with _ | ⟨y, a⟩
      · refine ⟨[], by rw [h3.1]; rfl, ?_⟩
        rw [h3.2]
        cases d <;> decide
      · exfalso
        rw [List.cons_append] at h
        rw [isInteger_cons] at h
        split_ifs at h
        have := List.all_eq_true.1 h c (by simp)
        rcases hc with rfl | rfl <;> revert this <;> decide

/-- A sum or difference is a number only if the left text ends like a number with an unfinished exponent. -/
theorem isNumber_op {c : Char} {a b : Str} (hc : c = '+' ∨ c = '-') (ha : a ≠ []) (h : isNumber (a ++ c :: b) = true) :
    NumE a := by
  obtain ⟨x, a, rfl⟩ := List.exists_cons_of_ne_nil ha
  rw [List.cons_append] at h
  rw [isNumber_cons] at h
  split_ifs at h with h1
  · obtain ⟨a0, rfl, h0⟩ := numLoop_op hc h
    refine ⟨x :: a0, rfl, ?_⟩
    rw [List.cons_append]
    rw [isNumber_cons]
    rw [if_pos h1]
    exact h0
  · rw [← List.cons_append] at h
    obtain ⟨a0, ha0, h0⟩ := numLoop_op hc h
    refine ⟨a0, ha0, ?_⟩
    rcases a0 with _ | ⟨y, a0⟩
    · revert h0; decide
    · rw [List.cons_append] at ha0
      obtain ⟨rfl, -⟩ := List.cons.inj ha0
      rw [List.cons_append] at h0 ⊢
      rw [isNumber_cons]
      rw [if_neg h1]
      exact h0

theorem not_numE_of_mem {a : Str} {c : Char} (hc : c ∈ a) (h : numChar c = false) : ¬ NumE a := by
  rintro ⟨a0, rfl, h0⟩
  have hce : c ≠ 'e' := by rintro rfl; revert h; decide
  have : c ∈ a0 ++ ['e', '0'] := by
    simp only [List.mem_append, List.mem_cons] at hc ⊢
    rcases hc with hc | hc | hc
    · exact Or.inl hc
    · exact Or.inr (Or.inl hc)
    · cases hc
  rw [isNumber_false this h] at h0
  cases h0

theorem not_numE_last {a : Str} (h : a.getLast? ≠ some 'e') : ¬ NumE a := by
  rintro ⟨a0, rfl, -⟩
  simp at h

theorem not_numE_op {c : Char} {a b : Str} (hc : c = '+' ∨ c = '-') (ha : a ≠ []) (h : ¬ NumE a) : ¬ NumE (a ++ c :: b) := by
  rintro ⟨a0, h0, hn⟩
  apply h
  rcases List.eq_nil_or_concat b with rfl | ⟨b', x, rfl⟩
  · have := congrArg List.getLast? h0
    simp only [List.getLast?_append, List.getLast?_singleton, Option.some_or, Option.some.injEq] at this
    subst this
    rcases hc with h | h <;> exact absurd h (by decide)
  · rw [List.concat_eq_append] at h0
    have h1 : (a ++ c :: b') ++ [x] = a0 ++ ['e'] := by rw [← h0]; simp
    obtain ⟨h2, -⟩ := List.append_inj' h1 rfl
    rw [← h2] at hn
    apply isNumber_op (b := b' ++ ['e', '0']) hc ha
    rw [← hn]
    simp

/-! ## Literals -/

/-- An unsigned literal as the parser sees it (lower case). -/
structure Num where
  lit : Lit
  valid : lit.Valid
  unsigned : lit.sign = none
  lower : ∀ b s d, lit.ex = some (b, s, d) → b = false

variable (l : Num)

theorem digit_numLoop (d : List (Fin 10)) (t : Str) (b g : Bool) :
    numLoop b g (d.map digitChar ++ t) = numLoop b (g || !d.isEmpty) t := by
  induction d generalizing g with
  | nil => simp
  | cons x d ih =>
    simp only [List.map_cons, List.cons_append]
    conv_lhs => unfold numLoop
    rw [if_pos (digitChar_isDigit x), ih]
    simp

theorem isInteger_digits (s : Option Bool) (d : List (Fin 10)) (hd : d ≠ []) :
    isInteger (signChars s ++ d.map digitChar) = true := by
  have hall : ∀ d : List (Fin 10), (d.map digitChar).all isDigit = true := by
    intro d
    simp [digitChar_isDigit]
  obtain ⟨x, d, rfl⟩ := List.exists_cons_of_ne_nil hd
  rcases s with _ | s
  · simp only [signChars, List.nil_append, List.map_cons]
    rw [isInteger_cons]
    rw [if_neg, if_neg, hall]
    · simp [digitChar_isDigit]
    · rintro ⟨-, h | h⟩
      · exact (digitChar_not_sign x).1 h
      · exact (digitChar_not_sign x).2.1 h
  · have : ∀ c : Char, (c = '-' ∨ c = '+') → isInteger (c :: (x :: d).map digitChar) = true := by
      intro c hc
      rw [isInteger_cons]
      rw [if_neg (by simp), if_neg (by rintro ⟨h1, h2, -⟩; rcases hc with h | h; exacts [h1 h, h2 h]), hall]
    cases s
    · exact this '+' (Or.inr rfl)
    · exact this '-' (Or.inl rfl)

theorem numLoop_exp (s : Option Bool) (d : List (Fin 10)) (hd : d ≠ []) (b : Bool) :
    numLoop b true ('e' :: (signChars s ++ d.map digitChar)) = true := by
  unfold numLoop
  rw [if_neg (by decide), if_neg (by rintro ⟨h, -⟩; exact absurd h (by decide)), if_pos ⟨rfl, rfl⟩, isInteger_digits s d hd]

theorem Num.loop : numLoop false false l.lit.text = true := by
  obtain ⟨⟨sign, ip, fp, ex⟩, ⟨hv1, hv2⟩, hs, hlow⟩ := l
  simp only at hs hv1 hv2 hlow
  subst hs
  simp only [Lit.text, signChars, List.nil_append, List.append_assoc]
  rw [digit_numLoop]
  have hex : ∀ b, numLoop b true (exChars ex) = true := by
    intro b
    rcases ex with _ | ⟨u, s, d⟩
    · rfl
    · have := hlow u s d rfl
      subst this
      exact numLoop_exp s d (hv2 _ _ _ rfl) b
  rcases fp with _ | d
  · have hip : ip ≠ [] := by simpa using hv1
    have : (false || !ip.isEmpty) = true := by simp [hip]
    rw [this]
    exact hex false
  · simp only [fpChars, List.cons_append]
    unfold numLoop
    rw [if_neg (by decide), if_pos ⟨rfl, rfl⟩, digit_numLoop]
    have : (false || !ip.isEmpty || !d.isEmpty) = true := by
      rcases hv1 with h | ⟨d', h, h'⟩
      · simp [h]
      · cases h; simp [h']
    rw [this]
    exact hex true

theorem Num.head : ∃ c r, l.lit.text = c :: r ∧ (isDigit c = true ∨ c = '.') := by
  obtain ⟨⟨sign, ip, fp, ex⟩, ⟨hv1, hv2⟩, hs, hlow⟩ := l
  simp only at hs hv1 hv2 hlow
  subst hs
  rcases ip with _ | ⟨x, ip⟩
  · rcases fp with _ | d
    · simp at hv1
    · exact ⟨'.', _, rfl, Or.inr rfl⟩
  · exact ⟨digitChar x, _, rfl, Or.inl (digitChar_isDigit x)⟩

theorem Num.isNumber : isNumber l.lit.text = true ∧ isNumber ('-' :: l.lit.text) = true := by
  constructor
  · obtain ⟨c, r, h, hc⟩ := l.head
    have := l.loop
    rw [h] at this ⊢
    rw [isNumber_cons]
    rw [if_neg]
    · exact this
    · rintro (rfl | rfl) <;> (revert hc; decide)
  · rw [isNumber_cons]
    rw [if_pos (Or.inl rfl)]
    exact l.loop

theorem Num.mem {c : Char} (hc : c ∈ l.lit.text) : numChar c = true := isNumber_mem l.isNumber.1 c hc

theorem Num.scan : scanDouble l.lit.text = some (l.lit.value, []) := by
  have h := scanDouble_literal l.lit l.valid [] ⟨by simp, fun _ => ⟨rfl, by simp⟩⟩
  rwa [List.append_nil] at h

theorem Num.scanNeg : scanDouble ('-' :: l.lit.text) = some (-l.lit.value, []) := by
  obtain ⟨⟨sign, ip, fp, ex⟩, hv, hs, hlow⟩ := l
  simp only at hs hlow
  subst hs
  have h := scanDouble_literal ⟨some true, ip, fp, ex⟩ hv [] ⟨by simp, fun _ => ⟨rfl, by simp⟩⟩
  rw [List.append_nil] at h
  have ht : Lit.text ⟨some true, ip, fp, ex⟩ = '-' :: Lit.text ⟨none, ip, fp, ex⟩ := by
    simp [Lit.text, signChars]
  have hval : Lit.value ⟨some true, ip, fp, ex⟩ = -Lit.value ⟨none, ip, fp, ex⟩ := by
    simp only [Lit.value]
    rcases ex with _ | ⟨b, s, d⟩
    · simp
    · simp only
      have hn : ¬ (none : Option Bool) = some true := by simp
      simp only [hn, if_true, if_false]
      by_cases hs : s = some true
      · rw [if_pos hs, if_pos hs, neg_div]
      · rw [if_neg hs, if_neg hs, neg_mul]
  rw [← ht, ← hval]
  exact h

theorem digits_last (d : List (Fin 10)) (hd : d ≠ []) (t : Str) : ∃ a c, t ++ d.map digitChar = a ++ [c] ∧ isDigit c = true := by
  rcases List.eq_nil_or_concat d with rfl | ⟨d', x, rfl⟩
  · exact absurd rfl hd
  · exact ⟨t ++ d'.map digitChar, digitChar x, by simp, digitChar_isDigit x⟩

theorem Num.last : ∃ a c, l.lit.text = a ++ [c] ∧ (isDigit c = true ∨ c = '.') := by
  obtain ⟨⟨sign, ip, fp, ex⟩, ⟨hv1, hv2⟩, hs, hlow⟩ := l
  simp only at hs hv1 hv2 hlow
  subst hs
  simp only [Lit.text, signChars, List.nil_append]
  rcases ex with _ | ⟨u, s, d⟩
  · simp only [exChars, List.append_nil]
    rcases fp with _ | f
    · simp only [fpChars, List.append_nil]
      have hip : ip ≠ [] := by simpa using hv1
      obtain ⟨a, c, h, hc⟩ := digits_last ip hip []
      exact ⟨a, c, by simpa using h, Or.inl hc⟩
    · by_cases hf : f = []
      · subst hf
        exact ⟨ip.map digitChar, '.', rfl, Or.inr rfl⟩
      · obtain ⟨a, c, h, hc⟩ := digits_last f hf (ip.map digitChar ++ ['.'])
        exact ⟨a, c, by simpa [fpChars] using h, Or.inl hc⟩
  · obtain ⟨a, c, h, hc⟩ := digits_last d (hv2 _ _ _ rfl) (ip.map digitChar ++ fpChars fp ++ (if u then 'E' else 'e') :: signChars s)
    exact ⟨a, c, by simpa [exChars] using h, Or.inl hc⟩

theorem Num.subFall : SubFall l.lit.text := by
  have hchars : ∀ (d : List (Fin 10)), Top (· ≠ '-') (d.map digitChar) := by
    intro d
    refine Top.of_chars fun c hc => ?_
    obtain ⟨x, -, rfl⟩ := List.mem_map.1 hc
    exact ⟨by fin_cases x <;> decide, by fin_cases x <;> decide, by fin_cases x <;> decide⟩
  obtain ⟨⟨sign, ip, fp, ex⟩, ⟨hv1, hv2⟩, hs, hlow⟩ := l
  simp only at hs hv1 hv2 hlow
  subst hs
  simp only [Lit.text, signChars, List.nil_append]
  have hfp : Top (· ≠ '-') (fpChars fp) := by
    rcases fp with _ | f
    · exact .nil
    · exact (hchars f).cons ⟨by decide, by decide⟩ (by decide)
  rcases ex with _ | ⟨u, s, d⟩
  · refine .none _ ?_
    simpa [exChars] using (hchars ip).append hfp
  · have := hlow u s d rfl
    subst this
    have hplain : ∀ s, s ≠ some true → Top (· ≠ '-') (signChars s) := by
      intro s hs
      rcases s with _ | _ | _
      · exact .nil
      · exact Top.of_chars (by decide)
      · exact absurd rfl hs
    by_cases hs : s = some true
    · subst hs
      have := SubFall.op (ip.map digitChar ++ fpChars fp) 'e' ['-'] (d.map digitChar) (by decide)
        (by intro c hc; simp at hc; exact Or.inl hc) (by simp) (hchars d)
      simpa [exChars, signChars] using this
    · refine .none _ ?_
      have := ((hchars ip).append hfp).append (((hplain s hs).append (hchars d)).cons (c := 'e') ⟨by decide, by decide⟩ (by decide))
      simpa [exChars] using this

/-- A text of digits only has no fraction and no exponent. -/
theorem Num.integer (h : ∀ c ∈ l.lit.text, isDigit c = true) :
    l.lit.text = l.lit.ip.map digitChar ∧ l.lit.value = natVal l.lit.ip := by
  obtain ⟨⟨sign, ip, fp, ex⟩, ⟨hv1, hv2⟩, hs, hlow⟩ := l
  simp only at hs hv1 hv2 hlow h ⊢
  subst hs
  have hfp : fp = none := by
    rcases fp with _ | f
    · rfl
    · have := h '.' (by simp [Lit.text, fpChars])
      exact absurd this (by decide)
  have hex : ex = none := by
    rcases ex with _ | ⟨u, s, d⟩
    · rfl
    · have := hlow u s d rfl
      subst this
      have := h 'e' (by simp [Lit.text, exChars])
      exact absurd this (by decide)
  subst hfp hex
  simp [Lit.text, signChars, fpChars, exChars, Lit.value, fracVal]

theorem Num.isInteger_digits (h : isInteger l.lit.text = true) : ∀ c ∈ l.lit.text, isDigit c = true := by
  obtain ⟨c, r, ht, hc⟩ := l.head
  rw [ht] at h ⊢
  rw [isInteger_cons] at h
  split_ifs at h with h1 h2
  intro x hx
  simp only [List.mem_cons] at hx
  rcases hx with rfl | hx
  · rcases hc with hc | rfl
    · exact hc
    · exfalso; exact h2 (by decide)
  · exact List.all_eq_true.1 h x hx

theorem Num.integerOf (h : isInteger l.lit.text = true) :
    ∃ v : ℤ, l.lit.value = v ∧ integerOf l.lit.text = toInt32 v := by
  obtain ⟨h1, h2⟩ := l.integer (l.isInteger_digits h)
  refine ⟨natVal l.lit.ip, by rw [h2]; simp, ?_⟩
  rw [h1]
  have hs := takeSign_spec none (l.lit.ip.map digitChar) (by
    intro c hc
    have := List.mem_of_mem_head? hc
    obtain ⟨x, -, rfl⟩ := List.mem_map.1 this
    exact ⟨(digitChar_not_sign x).1, (digitChar_not_sign x).2.1⟩)
  simp only [signChars, List.nil_append] at hs
  unfold Expr.integerOf
  rw [hs]
  simp [digitsVal_map]

theorem Num.integerOfNeg (h : isInteger ('-' :: l.lit.text) = true) :
    ∃ v : ℤ, -l.lit.value = v ∧ Expr.integerOf ('-' :: l.lit.text) = toInt32 v := by
  have hall : ∀ c ∈ l.lit.text, isDigit c = true := by
    rw [isInteger_cons] at h
    split_ifs at h with h1 h2
    exact List.all_eq_true.1 h
  obtain ⟨h1, h2⟩ := l.integer hall
  refine ⟨-natVal l.lit.ip, by rw [h2]; simp, ?_⟩
  rw [h1]
  unfold Expr.integerOf takeSign
  simp [digitsVal_map]

end NimbleSM.Expr
