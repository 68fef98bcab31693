import Verif.Expr.NumberLemmas

/-!
# What the parser makes of a text, one operator at a time
-/

namespace NimbleSM.Expr

open NimbleSM.Parse

variable {K : Type} (A : Arith K)

/-- `ParseEquation` after the formatting. -/
def rest (pe : Reader → Res (Node K)) (pb : Reader → Res (BNode K)) (r : Reader) : Res (Node K) :=
    if r.text = [] then .error .invalid
    else (parseConstant A r.text).bind fun
      | some n => .ok n
      | none => (parseOperation pe pb r).bind fun
        | some n => .ok n
        | none => (parseFunction pe r).bind fun
          | some n => .ok n
          | none =>
            match lookupVar r.text with
            | some v => .ok (.ref v)
            | none => .error .invalid

theorem equationBody_eq (pe : Reader → Res (Node K)) (pb : Reader → Res (BNode K)) (r : Reader) :
    equationBody A pe pb r = (format r).bind (rest A pe pb) := rfl

/-- `ParseBooleanExpression` after the formatting. -/
def restB (pe : Reader → Res (Node K)) (pb : Reader → Res (BNode K)) (r : Reader) : Res (BNode K) :=
    if r.text = "true".toList then .ok (.const true)
    else if r.text = "false".toList then .ok (.const false)
    else bopStage pb r '|' .or <| bopStage pb r '^' .xor <| bopStage pb r '&' .and <| notStage pb r <|
      cmpStage pe r '>' .gt .ge <| cmpStage pe r '<' .lt .le <| eqStage pe r

theorem booleanBody_eq (pe : Reader → Res (Node K)) (pb : Reader → Res (BNode K)) (r : Reader) :
    booleanBody pe pb r = (format r).bind (restB pe pb) := rfl

/-- The text is parsed to the tree, wherever it stands. -/
def Parses (t : Str) (n : Node K) : Prop :=
  ∀ af : Str, af ≠ [] → ∀ m, t.length < m → parseEquation A m ⟨t, af⟩ = .ok n

/-- The same without the formatting. -/
def Body (t : Str) (n : Node K) : Prop :=
  ∀ af : Str, af ≠ [] → ∀ m, t.length ≤ m → rest A (parseEquation A m) (parseBoolean A m) ⟨t, af⟩ = .ok n

/-- For conditions. -/
def ParsesB (t : Str) (n : BNode K) : Prop :=
  ∀ af : Str, af ≠ [] → ∀ m, t.length < m → parseBoolean A m ⟨t, af⟩ = .ok n

/-- The same without the formatting. -/
def BodyB (t : Str) (n : BNode K) : Prop :=
  ∀ af : Str, af ≠ [] → ∀ m, t.length ≤ m → restB (parseEquation A m) (parseBoolean A m) ⟨t, af⟩ = .ok n

/-- Not enclosed in parentheses. -/
def Opened (t : Str) : Prop := ∀ k (af : Str), af ≠ [] → removeParens k ⟨t, af⟩ = .ok ⟨t, af⟩

/-- `u` is `t` without enclosing parentheses. -/
def Strips (t u : Str) : Prop :=
  u.length ≤ t.length ∧ ∀ k (af : Str), af ≠ [] → t.length < k → ∃ af' : Str, af' ≠ [] ∧ removeParens k ⟨t, af⟩ = .ok ⟨u, af'⟩

/-- `t` is parsed to `n` after the removal of enclosing parentheses; `I` holds for its integer value, if it
is an integer. -/
def Core (t : Str) (n : Node K) (I : ℤ → Prop) : Prop :=
  ∃ u, Strips t u ∧ Body A u n ∧ Parses A u n ∧ (isInteger u = true → ∃ v, I v ∧ integerOf u = toInt32 v)

/-- For conditions. -/
def CoreB (t : Str) (n : BNode K) : Prop := ∃ u, Strips t u ∧ BodyB A u n

theorem Opened.strips {t : Str} (h : Opened t) : Strips t t := ⟨le_refl _, fun k af haf _ => ⟨af, haf, h k af haf⟩⟩

theorem format_trim (i t j af : Str) (hi : Blank i) (hj : Blank j) (ht : Trim t) :
    format ⟨i ++ t ++ j, af⟩ = removeParens (t.length + 1) ⟨t, j ++ af⟩ := by
  unfold format
  rw [if_neg (by
    have := ht.1
    intro h
    simp only [List.append_eq_nil_iff] at h
    exact this h.1.2), removeWhitespace_trim i t j af hi hj ht]

theorem format_strips {i t j u : Str} (hi : Blank i) (hj : Blank j) (ht : Trim t) (hu : Strips t u) (af : Str) (haf : af ≠ []) :
    ∃ af' : Str, af' ≠ [] ∧ format ⟨i ++ t ++ j, af⟩ = .ok ⟨u, af'⟩ := by
  rw [format_trim i t j af hi hj ht]
  exact hu.2 _ _ (by simp [haf]) (Nat.lt_succ_self _)

theorem parses_of_body {i t j u : Str} {n : Node K} (hi : Blank i) (hj : Blank j) (ht : Trim t) (hu : Strips t u)
    (h : Body A u n) : Parses A (i ++ t ++ j) n := by
  intro af haf m hm
  obtain ⟨m, rfl⟩ : ∃ m', m = m' + 1 := ⟨m - 1, by omega⟩
  obtain ⟨af', haf', hf⟩ := format_strips hi hj ht hu af haf
  show equationBody A (parseEquation A m) (parseBoolean A m) ⟨i ++ t ++ j, af⟩ = .ok n
  rw [equationBody_eq, hf]
  have := hu.1
  simp only [List.length_append] at hm
  exact h af' haf' m (by omega)

theorem parsesB_of_body {i t j u : Str} {n : BNode K} (hi : Blank i) (hj : Blank j) (ht : Trim t) (hu : Strips t u)
    (h : BodyB A u n) : ParsesB A (i ++ t ++ j) n := by
  intro af haf m hm
  obtain ⟨m, rfl⟩ : ∃ m', m = m' + 1 := ⟨m - 1, by omega⟩
  obtain ⟨af', haf', hf⟩ := format_strips hi hj ht hu af haf
  show booleanBody (parseEquation A m) (parseBoolean A m) ⟨i ++ t ++ j, af⟩ = .ok n
  rw [booleanBody_eq, hf]
  have := hu.1
  simp only [List.length_append] at hm
  exact h af' haf' m (by omega)

theorem blank_nil : Blank [] := by intro c hc; cases hc

theorem Core.parses {t : Str} {n : Node K} {I : ℤ → Prop} (h : Core A t n I) (ht : Trim t) {i j : Str} (hi : Blank i)
    (hj : Blank j) : Parses A (i ++ t ++ j) n := by
  obtain ⟨u, hu, hb, -, -⟩ := h
  exact parses_of_body A hi hj ht hu hb

theorem CoreB.parses {t : Str} {n : BNode K} (h : CoreB A t n) (ht : Trim t) {i j : Str} (hi : Blank i)
    (hj : Blank j) : ParsesB A (i ++ t ++ j) n := by
  obtain ⟨u, hu, hb⟩ := h
  exact parsesB_of_body A hi hj ht hu hb

/-- A text without enclosing parentheses; the blanks around it may be there inside a group. -/
theorem core_of_body {i t j : Str} {n : Node K} {I : ℤ → Prop} (hi : Blank i) (hj : Blank j) (ht : Trim t) (ho : Opened t)
    (hb : Body A t n) (ho' : Opened (i ++ t ++ j)) (hb' : Body A (i ++ t ++ j) n)
    (hint : isInteger (i ++ t ++ j) = true → ∃ v, I v ∧ integerOf (i ++ t ++ j) = toInt32 v) : Core A (i ++ t ++ j) n I :=
  ⟨i ++ t ++ j, ho'.strips, hb', parses_of_body A hi hj ht ho.strips hb, hint⟩

theorem core_atom {t : Str} {n : Node K} {I : ℤ → Prop} (ht : Trim t) (ho : Opened t)
    (hb : Body A t n) (hint : isInteger t = true → ∃ v, I v ∧ integerOf t = toInt32 v) : Core A t n I := by
  have := core_of_body A (i := []) (j := []) (I := I) blank_nil blank_nil ht ho hb (by simpa using ho) (by simpa using hb)
    (by simpa using hint)
  simpa using this

theorem Strips.group {t u : Str} (h : Strips t u) (hn : Nest '(' ')' t) : Strips ('(' :: (t ++ [')'])) u := by
  refine ⟨by have := h.1; simp; omega, fun k af haf hk => ?_⟩
  obtain ⟨k, rfl⟩ : ∃ k', k = k' + 1 := ⟨k - 1, by omega⟩
  rw [removeParens_group k t af hn haf]
  exact h.2 k _ (by simp) (by simp at hk; omega)

theorem Core.group {t : Str} {n : Node K} {I : ℤ → Prop} (h : Core A t n I) (hn : Nest '(' ')' t) :
    Core A ('(' :: (t ++ [')'])) n I := by
  obtain ⟨u, hu, hb⟩ := h
  exact ⟨u, hu.group hn, hb⟩

theorem CoreB.group {t : Str} {n : BNode K} (h : CoreB A t n) (hn : Nest '(' ')' t) :
    CoreB A ('(' :: (t ++ [')'])) n := by
  obtain ⟨u, hu, hb⟩ := h
  exact ⟨u, hu.group hn, hb⟩

theorem opened_op {a b : Str} {p : Char → Prop} (ha : Top p a) (hane : a ≠ []) (hb : b ≠ []) : Opened (a ++ b) :=
  fun k af haf => removeParens_id k a b af ha hane hb haf

theorem opened_head {c : Char} {t : Str} (h : c ≠ '(') : Opened (c :: t) := by
  intro k af haf
  rcases k with _ | k
  · rfl
  · unfold removeParens
    have hat := at_lt ⟨c :: t, af⟩ [] t c rfl
    simp only [List.length_nil] at hat
    rw [hat]
    simp only [Except.bind, if_neg h]

/-! ## Constants -/

/-- Not a letter of `e`, `pi`, `tau`. -/
def notName (c : Char) : Bool := c ≠ 'e' && c ≠ 'p' && c ≠ 'i' && c ≠ 't' && c ≠ 'a' && c ≠ 'u'

theorem parseConstant_none {t : Str} {c : Char} (hc : c ∈ t) (hn : notName c = true) (h : isNumber t = false) :
    parseConstant A t = .ok none := by
  have key : ∀ s : Str, (∀ x ∈ s, notName x = false) → t ≠ s := by
    intro s hs he
    rw [he] at hc
    rw [hs c hc] at hn
    cases hn
  unfold parseConstant
  rw [if_neg (key _ (by decide)), if_neg (key _ (by decide)), if_neg (key _ (by decide)), h]
  rfl

theorem rest_operation {pe : Reader → Res (Node K)} {pb : Reader → Res (BNode K)} {t af : Str} {n : Node K}
    (hne : t ≠ []) (h : parseConstant A t = .ok none) (ho : parseOperation pe pb ⟨t, af⟩ = .ok (some n)) :
    rest A pe pb ⟨t, af⟩ = .ok n := by
  unfold rest
  rw [if_neg hne]
  dsimp only
  rw [h]
  simp only [Except.bind, ho]

/-! ## Operations -/

/-- Characters allowed outside parentheses: nothing of a conditional. -/
abbrev N1 (c : Char) : Prop := c ≠ '?'
/-- ... nor `%`. -/
abbrev N2 (c : Char) : Prop := c ≠ '?' ∧ c ≠ '%'
/-- ... nor `+`. -/
abbrev N3 (c : Char) : Prop := c ≠ '?' ∧ c ≠ '%' ∧ c ≠ '+'
/-- ... nor `*`. -/
abbrev N4 (c : Char) : Prop := c ≠ '?' ∧ c ≠ '%' ∧ c ≠ '+' ∧ c ≠ '*'
/-- ... nor `/`. -/
abbrev N5 (c : Char) : Prop := c ≠ '?' ∧ c ≠ '%' ∧ c ≠ '+' ∧ c ≠ '*' ∧ c ≠ '/'
/-- ... nor `^`. -/
abbrev N6 (c : Char) : Prop := c ≠ '?' ∧ c ≠ '%' ∧ c ≠ '+' ∧ c ≠ '*' ∧ c ≠ '/' ∧ c ≠ '^'

section
variable {a b : Str} {na nb : Node K}

theorem body_mod (ha : Top N1 a) (hb : Top N2 b) (pa : Parses A a na) (pb : Parses A b nb) :
    Body A (a ++ '%' :: b) (.bin .mod na nb) := by
  intro af haf m hm
  have hne : a ++ '%' :: b ≠ [] := by simp
  simp only [List.length_append, List.length_cons] at hm
  refine rest_operation A hne (parseConstant_none A (c := '%') (by simp) (by decide) (isNumber_false (c := '%') (by simp) (by decide))) ?_
  unfold parseOperation
  rw [condStage_none _ _ haf (ha.op (hb.mono fun c h => h.1) (by decide) (by decide)) hne,
    binStage_split a b af '%' .mod (by decide) (hb.mono fun c h => h.2) na nb (pa _ (by simp) m (by omega)) (pb _ haf m (by omega))]

theorem body_add (ha : Top N2 a) (hb : Top N3 b) (hane : a ≠ []) (hnum : ¬ NumE a) (pa : Parses A a na) (pb : Parses A b nb) :
    Body A (a ++ '+' :: b) (.bin .add na nb) := by
  intro af haf m hm
  have hne : a ++ '+' :: b ≠ [] := by simp
  simp only [List.length_append, List.length_cons] at hm
  have hn : isNumber (a ++ '+' :: b) = false := by
    by_contra h
    exact hnum (isNumber_op (Or.inl rfl) hane (by simpa using h))
  refine rest_operation A hne (parseConstant_none A (c := '+') (by simp) (by decide) hn) ?_
  have ht : Top N2 (a ++ '+' :: b) := ha.op (hb.mono fun c h => ⟨h.1, h.2.1⟩) (by decide) (by decide)
  unfold parseOperation
  rw [condStage_none _ _ haf (ht.mono fun c h => h.1) hne, binStage_none _ _ '%' _ (by decide) (ht.mono fun c h => h.2) hne,
    binStage_split a b af '+' .add (by decide) (hb.mono fun c h => h.2.2) na nb (pa _ (by simp) m (by omega)) (pb _ haf m (by omega))]

theorem body_mul (ha : Top N3 a) (hb : Top N4 b) (hs : SubFall (a ++ '*' :: b)) (pa : Parses A a na) (pb : Parses A b nb) :
    Body A (a ++ '*' :: b) (.bin .mul na nb) := by
  intro af haf m hm
  have hne : a ++ '*' :: b ≠ [] := by simp
  simp only [List.length_append, List.length_cons] at hm
  refine rest_operation A hne (parseConstant_none A (c := '*') (by simp) (by decide) (isNumber_false (c := '*') (by simp) (by decide))) ?_
  have ht : Top N3 (a ++ '*' :: b) := ha.op (hb.mono fun c h => ⟨h.1, h.2.1, h.2.2.1⟩) (by decide) (by decide)
  unfold parseOperation
  rw [condStage_none _ _ haf (ht.mono fun c h => h.1) hne, binStage_none _ _ '%' _ (by decide) (ht.mono fun c h => h.2.1) hne,
    binStage_none _ _ '+' _ (by decide) (ht.mono fun c h => h.2.2) hne, subStage_fall _ _ hs hne,
    binStage_split a b af '*' .mul (by decide) (hb.mono fun c h => h.2.2.2) na nb (pa _ (by simp) m (by omega)) (pb _ haf m (by omega))]

theorem body_div (ha : Top N4 a) (hb : Top N5 b) (hs : SubFall (a ++ '/' :: b)) (pa : Parses A a na) (pb : Parses A b nb) :
    Body A (a ++ '/' :: b) (.bin .div na nb) := by
  intro af haf m hm
  have hne : a ++ '/' :: b ≠ [] := by simp
  simp only [List.length_append, List.length_cons] at hm
  refine rest_operation A hne (parseConstant_none A (c := '/') (by simp) (by decide) (isNumber_false (c := '/') (by simp) (by decide))) ?_
  have ht : Top N4 (a ++ '/' :: b) := ha.op (hb.mono fun c h => ⟨h.1, h.2.1, h.2.2.1, h.2.2.2.1⟩) (by decide) (by decide)
  unfold parseOperation
  rw [condStage_none _ _ haf (ht.mono fun c h => h.1) hne, binStage_none _ _ '%' _ (by decide) (ht.mono fun c h => h.2.1) hne,
    binStage_none _ _ '+' _ (by decide) (ht.mono fun c h => h.2.2.1) hne, subStage_fall _ _ hs hne,
    binStage_none _ _ '*' _ (by decide) (ht.mono fun c h => h.2.2.2) hne,
    binStage_split a b af '/' .div (by decide) (hb.mono fun c h => h.2.2.2.2) na nb (pa _ (by simp) m (by omega)) (pb _ haf m (by omega))]

/-- Up to the powers. -/
theorem parseOperation_n5 {pe : Reader → Res (Node K)} {pb : Reader → Res (BNode K)} {t af : Str} (haf : af ≠ []) (hne : t ≠ [])
    (ht : Top N5 t) (hs : SubFall t) : parseOperation pe pb ⟨t, af⟩ = powStage pe ⟨t, af⟩ (negStage pe ⟨t, af⟩) := by
  unfold parseOperation
  rw [condStage_none _ _ haf (ht.mono fun c h => h.1) hne, binStage_none _ _ '%' _ (by decide) (ht.mono fun c h => h.2.1) hne,
    binStage_none _ _ '+' _ (by decide) (ht.mono fun c h => h.2.2.1) hne, subStage_fall _ _ hs hne,
    binStage_none _ _ '*' _ (by decide) (ht.mono fun c h => h.2.2.2.1) hne,
    binStage_none _ _ '/' _ (by decide) (ht.mono fun c h => h.2.2.2.2) hne]

theorem body_pow_strips {i j u : Str} (hi : Blank i) (hj : Blank j) (ha : Top N6 a) (hb : Top N5 (i ++ b ++ j))
    (hs : SubFall (a ++ '^' :: (i ++ b ++ j))) (pa : Parses A a na) (htb : Trim b) (hu : Strips b u) (hp : Parses A u nb) :
    Body A (a ++ '^' :: (i ++ b ++ j)) (if isInteger u then .powi na (integerOf u) else .bin .pow na nb) := by
  have hne : a ++ '^' :: (i ++ b ++ j) ≠ [] := by simp
  have ht : Top N5 (a ++ '^' :: (i ++ b ++ j)) :=
    (ha.mono fun c h => ⟨h.1, h.2.1, h.2.2.1, h.2.2.2.1, h.2.2.2.2.1⟩).op hb (by decide) (by decide)
  have key : ∀ af : Str, af ≠ [] → ∀ m, (a ++ '^' :: (i ++ b ++ j)).length ≤ m →
      ∃ af' : Str, af' ≠ [] ∧ rest A (parseEquation A m) (parseBoolean A m) ⟨a ++ '^' :: (i ++ b ++ j), af⟩ =
        ((if isInteger u then .ok (some (.powi na (integerOf u)))
      else (parseEquation A m ⟨u, af'⟩).bind fun b => .ok (some (.bin .pow na b)) : Res (Option (Node K)))).bind fun
        | some n => .ok n
        | none => .error .invalid := by
    intro af haf m hm
    obtain ⟨af', haf', hf⟩ := format_strips hi hj htb hu af haf
    refine ⟨af', haf', ?_⟩
    have h1 : parseEquation A m ⟨a, '^' :: (i ++ b ++ j) ++ af⟩ = .ok na :=
      pa _ (by simp) m (by simp only [List.length_append, List.length_cons] at hm; omega)
    have h2 := powStage_split (pe := parseEquation A m)
      (k := negStage (parseEquation A m) ⟨a ++ '^' :: (i ++ b ++ j), af⟩) a (i ++ b ++ j) u af af' haf
      (ha.mono fun c h => h.2.2.2.2.2) na h1 hf
    unfold rest
    rw [if_neg hne]
    dsimp only
    rw [parseConstant_none A (c := '^') (by simp) (by decide) (isNumber_false (c := '^') (by simp) (by decide))]
    simp only [Except.bind]
    rw [parseOperation_n5 haf hne ht hs, h2]
    split_ifs with hint
    · rfl
    · have h3 : parseEquation A m ⟨u, af'⟩ = .ok nb := hp af' haf' m (by
        have := hu.1
        simp only [List.length_append, List.length_cons] at hm
        omega)
      rw [h3]
      rfl
  intro af haf m hm
  obtain ⟨af', haf', h⟩ := key af haf m hm
  rw [h]
  by_cases hi : isInteger u = true
  · rw [if_pos hi, if_pos hi]
    rfl
  · rw [if_neg hi, if_neg hi, hp af' haf' m (by
        have := hu.1
        simp only [List.length_append, List.length_cons] at hm
        omega)]
    rfl

theorem body_pow {i j : Str} (hi : Blank i) (hj : Blank j) (ha : Top N6 a) (hb : Top N5 (i ++ b ++ j))
    (hs : SubFall (a ++ '^' :: (i ++ b ++ j))) (pa : Parses A a na) (htb : Trim b) {I : ℤ → Prop} (cb : Core A b nb I) :
    (∃ v, I v ∧ Body A (a ++ '^' :: (i ++ b ++ j)) (.powi na (toInt32 v))) ∨
    Body A (a ++ '^' :: (i ++ b ++ j)) (.bin .pow na nb) := by
  obtain ⟨u, hu, -, hp, hint⟩ := cb
  have h := body_pow_strips A hi hj ha hb hs pa htb hu hp
  by_cases hi : isInteger u = true
  · obtain ⟨v, hv, he⟩ := hint hi
    rw [if_pos hi, he] at h
    exact Or.inl ⟨v, hv, h⟩
  · rw [if_neg hi] at h
    exact Or.inr h

theorem body_sub {a0 : Str} {ch : Char} {i m : Str} (hch : beforeNegation ch = false) (hch' : ch ≠ '-' ∧ ch ≠ ' ')
    (hi : Blank i) (ha : Top N3 (a0 ++ ch :: i)) (hm : Signs m) (hb : Top N3 b) (hb' : Top (· ≠ '-') b)
    (hnum : ¬ NumE (a0 ++ ch :: i)) (pa : Parses A (a0 ++ ch :: i) na) (pb : Parses A (m ++ b) nb) :
    Body A ((a0 ++ ch :: i) ++ '-' :: (m ++ b)) (.bin .sub na nb) := by
  intro af haf k hk
  have hne : (a0 ++ ch :: i) ++ '-' :: (m ++ b) ≠ [] := by simp
  simp only [List.length_append, List.length_cons] at hk
  have hn : isNumber ((a0 ++ ch :: i) ++ '-' :: (m ++ b)) = false := by
    by_contra h
    exact hnum (isNumber_op (Or.inr rfl) (by simp) (by simpa using h))
  refine rest_operation A hne (parseConstant_none A (c := '-') (by simp) (by decide) hn) ?_
  have hmt : Top N3 m := Top.of_chars fun c hc => by
    rcases hm c hc with rfl | rfl <;> decide
  have ht : Top N3 ((a0 ++ ch :: i) ++ '-' :: (m ++ b)) := ha.op (hmt.append hb) (by decide) (by decide)
  unfold parseOperation
  rw [condStage_none _ _ haf (ht.mono fun c h => h.1) hne, binStage_none _ _ '%' _ (by decide) (ht.mono fun c h => h.2.1) hne,
    binStage_none _ _ '+' _ (by decide) (ht.mono fun c h => h.2.2) hne]
  exact subStage_split a0 ch i m b af hch hch' hi hm hb' na nb
    (pa _ (by simp) k (by simp only [List.length_append, List.length_cons]; omega))
    (pb _ haf k (by simp only [List.length_append]; omega))

theorem body_neg (hb : Top N6 b) (hs : SubFall ('-' :: b)) (hn : isNumber ('-' :: b) = false) (pb : Parses A b nb) :
    Body A ('-' :: b) (.fn .neg nb) := by
  intro af haf m hm
  have hne : '-' :: b ≠ [] := by simp
  simp only [List.length_cons] at hm
  refine rest_operation A hne (parseConstant_none A (c := '-') (by simp) (by decide) hn) ?_
  have ht : Top N6 ('-' :: b) := hb.cons (by decide) (by decide)
  rw [parseOperation_n5 haf hne (ht.mono fun c h => ⟨h.1, h.2.1, h.2.2.1, h.2.2.2.1, h.2.2.2.2.1⟩) hs,
    powStage_none _ _ haf (ht.mono fun c h => h.2.2.2.2.2) hne, negStage_split b af nb (pb _ haf m (by omega))]

theorem body_cond {c : Str} {nc : BNode K} (hc : Top N1 c) (ha : Nest '?' ':' a) (pc : ParsesB A c nc) (pa : Parses A a na)
    (pb : Parses A b nb) : Body A (c ++ '?' :: (a ++ ':' :: b)) (.cond nc na nb) := by
  intro af haf m hm
  have hne : c ++ '?' :: (a ++ ':' :: b) ≠ [] := by simp
  simp only [List.length_append, List.length_cons] at hm
  refine rest_operation A hne (parseConstant_none A (c := '?') (by simp) (by decide) (isNumber_false (c := '?') (by simp) (by decide))) ?_
  unfold parseOperation
  exact condStage_split c a b af haf hc ha nc na nb (pc _ (by simp) m (by omega)) (pa _ (by simp) m (by omega)) (pb _ haf m (by omega))

/-- A text without operators. -/
theorem rest_atom {pe : Reader → Res (Node K)} {pb : Reader → Res (BNode K)} {c : Char} {t af : Str} (haf : af ≠ [])
    (ht : Top N6 (c :: t)) (hm : Top (· ≠ '-') (c :: t)) (h : parseConstant A (c :: t) = .ok none) :
    rest A pe pb ⟨c :: t, af⟩ = (parseFunction pe ⟨c :: t, af⟩).bind fun
          | some n => .ok n
          | none =>
            match lookupVar (c :: t) with
            | some v => .ok (.ref v)
            | none => .error .invalid := by
  have hne : c :: t ≠ [] := by simp
  have hc : c ≠ '-' := by
    cases hm with
    | char _ _ _ _ h _ => exact h
    | group s t _ _ => decide
  have ho : parseOperation pe pb ⟨c :: t, af⟩ = .ok none := by
    rw [parseOperation_n5 haf hne (ht.mono fun c h => ⟨h.1, h.2.1, h.2.2.1, h.2.2.2.1, h.2.2.2.2.1⟩) (.none _ hm),
      powStage_none _ _ haf (ht.mono fun c h => h.2.2.2.2.2) hne, negStage_none c t af hc]
  unfold rest
  rw [if_neg hne]
  dsimp only
  rw [h]
  simp only [Except.bind, ho]

end

theorem body_number {t : Str} {v : ℚ} {r : Str} (h : isNumber t = true) (hs : scanDouble t = some (v, r)) :
    Body A t (.const (A.ofRat v)) := by
  intro af _ m _
  have key : ∀ s : Str, isNumber s = false → t ≠ s := by
    rintro s hs rfl
    rw [h] at hs; cases hs
  unfold rest
  rw [if_neg (by rintro rfl; revert h; decide)]
  unfold parseConstant
  rw [if_neg (key _ (by decide)), if_neg (key _ (by decide)), if_neg (key _ (by decide)), if_pos h, hs]
  rfl

/-- The value of the named constants. -/
def constName (A : Arith K) : Str → Option K
  | ['e'] => some A.e
  | ['p', 'i'] => some A.pi
  | ['t', 'a', 'u'] => some A.tau
  | _ => none

theorem body_e : Body A "e".toList (.const A.e) := by intro af _ m _; rfl
theorem body_pi : Body A "pi".toList (.const A.pi) := by intro af _ m _; rfl
theorem body_tau : Body A "tau".toList (.const A.tau) := by intro af _ m _; rfl

/-- The name of a variable. -/
def Var.name : Var → Char
  | .x => 'x'
  | .y => 'y'
  | .z => 'z'
  | .t => 't'

theorem body_var (x : Var) : Body A [x.name] (.ref x) := by
  intro af haf m _
  rw [rest_atom A haf (Top.of_chars (by cases x <;> decide)) (Top.of_chars (by cases x <;> decide)) (by cases x <;> rfl)]
  cases x <;> rfl

/-- The names of the functions. -/
def Fn.name : Fn → Option Str
  | .sin => some "sin".toList
  | .cos => some "cos".toList
  | .tan => some "tan".toList
  | .erf => some "erf".toList
  | .exp => some "exp".toList
  | .log => some "log".toList
  | .abs => some "abs".toList
  | .asin => some "asin".toList
  | .acos => some "acos".toList
  | .atan => some "atan".toList
  | .sqrt => some "sqrt".toList
  | .cbrt => some "cbrt".toList
  | .erfc => some "erfc".toList
  | .ceil => some "ceil".toList
  | .round => some "round".toList
  | .floor => some "floor".toList
  | .log10 => some "log10".toList
  | .neg => none

theorem Fn.name_facts (f : Fn) (name : Str) (h : f.name = some name) :
    (∃ c t, name = c :: t ∧ isDigit c = false ∧ c ≠ '(' ∧ c ≠ '-' ∧ c ≠ ' ') ∧ (∀ x ∈ name, stopsName x = false) ∧
    (∀ x ∈ name, x ≠ '(' ∧ x ≠ ')' ∧ N6 x ∧ x ≠ '-' ∧ x ≠ ':') ∧ mathFunc name = some f := by
  cases f <;> simp only [Fn.name, Option.some.injEq, reduceCtorEq] at h <;> subst h <;>
    exact ⟨⟨_, _, rfl, by decide, by decide, by decide, by decide⟩, by decide, by decide, rfl⟩

theorem body_call (f : Fn) (name t : Str) (h : f.name = some name) (n : Node K) (ht : Nest '(' ')' t)
    (hp : Parses A ('(' :: (t ++ [')'])) n) : Body A (name ++ '(' :: (t ++ [')'])) (.fn f n) := by
  obtain ⟨⟨c, r, hcr, hd, hc1, hc2, -⟩, hstop, hchars, hf⟩ := f.name_facts name h
  intro af haf m hm
  simp only [List.length_append, List.length_cons] at hm
  have htop : ∀ {p : Char → Prop}, (∀ x ∈ name, p x) → Top p (name ++ '(' :: (t ++ [')'])) := fun {p} hp =>
    (Top.of_chars fun x hx => ⟨(hchars x hx).1, (hchars x hx).2.1, hp x hx⟩).append (Top.wrap ht)
  have h6 : Top N6 (name ++ '(' :: (t ++ [')'])) := htop fun x hx => (hchars x hx).2.2.1
  have hm' : Top (· ≠ '-') (name ++ '(' :: (t ++ [')'])) := htop fun x hx => (hchars x hx).2.2.2.1
  have hcst : parseConstant A (name ++ '(' :: (t ++ [')'])) = .ok none :=
    parseConstant_none A (c := '(') (by simp) (by decide) (isNumber_false (c := '(') (by simp) (by decide))
  have hcall := parseFunction_call (pe := parseEquation A m) name t af c (by rw [hcr]; rfl) haf ⟨hd, hc1, hc2⟩
    (by rw [hcr]; simp) hstop (fun x hx => (hchars x hx).1) ht f hf n
    (hp af haf m (by simp only [List.length_append, List.length_cons]; have : 1 ≤ name.length := by (rw [hcr]; simp)
                     simp only [List.length_nil] at *; omega))
  subst hcr
  rw [List.cons_append] at h6 hm' hcst hcall ⊢
  rw [rest_atom A haf h6 hm' hcst, hcall]
  rfl

/-! ## Conditions -/

/-- Characters allowed outside parentheses in operands of comparisons. -/
abbrev C1 (c : Char) : Prop := c ≠ '|' ∧ c ≠ '^' ∧ c ≠ '&' ∧ c ≠ '!' ∧ c ≠ '>' ∧ c ≠ '<' ∧ c ≠ '='

section
variable {pe : Reader → Res (Node K)} {pb : Reader → Res (BNode K)} {kb : Res (BNode K)}

theorem bopStage_none (t af : Str) (c : Char) (o : BOp) (hc : c ≠ '(' ∧ c ≠ ')') (h : Top (· ≠ c) t) (hne : t ≠ []) :
    bopStage pb ⟨t, af⟩ c o kb = kb := by
  obtain ⟨q, hq⟩ := shl_none ⟨t, af⟩ c hc h hne
  unfold bopStage
  rw [hq]
  rfl

theorem bopStage_split (a b af : Str) (c : Char) (o : BOp) (hc : c ≠ '(' ∧ c ≠ ')') (hb : Top (· ≠ c) b) (na nb : BNode K)
    (h1 : pb ⟨a, c :: b ++ af⟩ = .ok na) (h2 : pb ⟨b, af⟩ = .ok nb) :
    bopStage pb ⟨a ++ c :: b, af⟩ c o kb = .ok (.bop o na nb) := by
  unfold bopStage
  rw [shl_found ⟨a ++ c :: b, af⟩ c hc a b hb rfl]
  simp only [Except.bind, if_true]
  rw [split2_ok pb a c b af na nb h1 h2]

theorem notStage_none (t af : Str) (h : Top (· ≠ '!') t) (hne : t ≠ []) :
    notStage pb ⟨t, af⟩ kb = kb := by
  obtain ⟨q, hq⟩ := shl_none ⟨t, af⟩ '!' (by decide) h hne
  unfold notStage
  rw [hq]
  rfl

theorem cmpStage_none (t af : Str) (c : Char) (o oeq : Cmp) (hc : c ≠ '(' ∧ c ≠ ')') (h : Top (· ≠ c) t) (hne : t ≠ []) :
    cmpStage pe ⟨t, af⟩ c o oeq kb = kb := by
  obtain ⟨q, hq⟩ := shl_none ⟨t, af⟩ c hc h hne
  unfold cmpStage
  rw [hq]
  rfl

theorem cmpStage_split (a b af : Str) (c : Char) (o oeq : Cmp) (hc : c ≠ '(' ∧ c ≠ ')') (hb : Top (· ≠ c) b)
    (hbne : b ≠ []) (heq : b.head? ≠ some '=') (na nb : Node K)
    (h1 : pe ⟨a, c :: b ++ af⟩ = .ok na) (h2 : pe ⟨b, af⟩ = .ok nb) :
    cmpStage pe ⟨a ++ c :: b, af⟩ c o oeq kb = .ok (.cmp o na nb) := by
  obtain ⟨x, b, rfl⟩ := List.exists_cons_of_ne_nil hbne
  have hat := at_lt ⟨a ++ c :: x :: b, af⟩ (a ++ [c]) b x (by simp)
  have hl : (a ++ [c]).length = a.length + 1 := by simp
  rw [hl] at hat
  unfold cmpStage
  rw [shl_found ⟨a ++ c :: x :: b, af⟩ c hc a _ hb rfl]
  simp only [Except.bind, if_true, hat]
  rw [if_neg (by simpa using heq), split2_ok pe a c (x :: b) af na nb h1 h2]

theorem split2_two {α : Type} (pe : Reader → Res α) (a c d b af) (na nb : α) (ha : pe ⟨a, c :: d :: b ++ af⟩ = .ok na)
    (hb : pe ⟨b, af⟩ = .ok nb) : split2 pe ⟨a ++ c :: d :: b, af⟩ a.length 2 = .ok (na, nb) := by
  have hs := sub_right (a ++ [c]) d b af
  have hl : (a ++ [c]).length + 1 = a.length + 2 := by simp
  rw [hl] at hs
  have ht : a ++ [c] ++ d :: b = a ++ c :: d :: b := by simp
  rw [ht] at hs
  unfold split2
  rw [sub_left]
  simp only [Except.bind, ha]
  rw [hs]
  simp only [hb]

theorem cmpStage_splitEq (a b af : Str) (c : Char) (o oeq : Cmp) (hc : c ≠ '(' ∧ c ≠ ')') (hb : Top (· ≠ c) ('=' :: b))
    (na nb : Node K) (h1 : pe ⟨a, c :: '=' :: b ++ af⟩ = .ok na) (h2 : pe ⟨b, af⟩ = .ok nb) :
    cmpStage pe ⟨a ++ c :: '=' :: b, af⟩ c o oeq kb = .ok (.cmp oeq na nb) := by
  have hat := at_lt ⟨a ++ c :: '=' :: b, af⟩ (a ++ [c]) b '=' (by simp)
  have hl : (a ++ [c]).length = a.length + 1 := by simp
  rw [hl] at hat
  unfold cmpStage
  rw [shl_found ⟨a ++ c :: '=' :: b, af⟩ c hc a _ hb rfl]
  simp only [Except.bind, if_true, hat]
  rw [split2_two pe a c '=' b af na nb h1 h2]

theorem eqStage_split (a b af : Str) (hb : Top (· ≠ '=') b) (na nb : Node K)
    (h1 : pe ⟨a, '=' :: '=' :: b ++ af⟩ = .ok na) (h2 : pe ⟨b, af⟩ = .ok nb) :
    eqStage pe ⟨a ++ '=' :: '=' :: b, af⟩ = .ok (.cmp .eq nb na) := by
  have hf := shl_found ⟨a ++ '=' :: '=' :: b, af⟩ '=' (by decide) (a ++ ['=']) b hb (by simp)
  have hl : (a ++ ['=']).length = a.length + 1 := by simp
  rw [hl] at hf
  have hat := at_lt ⟨a ++ '=' :: '=' :: b, af⟩ a ('=' :: b) '=' rfl
  have hs := sub_right (a ++ ['=']) '=' b af
  have hl2 : (a ++ ['=']).length + 1 = a.length + 1 + 1 := by simp
  rw [hl2] at hs
  have ht : a ++ ['='] ++ '=' :: b = a ++ '=' :: '=' :: b := by simp
  rw [ht] at hs
  unfold eqStage
  rw [hf]
  simp only [Except.bind, if_true]
  rw [if_neg (by omega)]
  simp only [Nat.add_sub_cancel, hat, if_true]
  rw [hs]
  simp only [h2]
  rw [sub_left]
  simp only [h1]

end

theorem restB_ops {pe : Reader → Res (Node K)} {pb : Reader → Res (BNode K)} {t af : Str} {c : Char}
    (hc : c ∈ t) (hn : c = '|' ∨ c = '^' ∨ c = '&' ∨ c = '>' ∨ c = '<' ∨ c = '=') : restB pe pb ⟨t, af⟩ =
    (bopStage pb ⟨t, af⟩ '|' .or <| bopStage pb ⟨t, af⟩ '^' .xor <| bopStage pb ⟨t, af⟩ '&' .and <| notStage pb ⟨t, af⟩ <|
      cmpStage pe ⟨t, af⟩ '>' .gt .ge <| cmpStage pe ⟨t, af⟩ '<' .lt .le <| eqStage pe ⟨t, af⟩) := by
  have key : ∀ s : Str, c ∉ s → t ≠ s := by rintro s hs rfl; exact hs hc
  unfold restB
  rw [if_neg (key _ (by rcases hn with h | h | h | h | h | h <;> (rw [h]; decide))),
    if_neg (key _ (by rcases hn with h | h | h | h | h | h <;> (rw [h]; decide)))]

section
variable {a b : Str} {na nb : Node K} {ca cb : BNode K}

theorem bodyB_true : BodyB A "true".toList (.const true) := by intro af _ m _; rfl
theorem bodyB_false : BodyB A "false".toList (.const false) := by intro af _ m _; rfl

theorem bodyB_or (hb : Top (· ≠ '|') b) (pa : ParsesB A a ca) (pb : ParsesB A b cb) :
    BodyB A (a ++ '|' :: b) (.bop .or ca cb) := by
  intro af haf m hm
  simp only [List.length_append, List.length_cons] at hm
  rw [restB_ops (c := '|') (by simp) (by simp), bopStage_split a b af '|' .or (by decide) hb ca cb (pa _ (by simp) m (by omega)) (pb _ haf m (by omega))]

theorem bodyB_xor (ha : Top (· ≠ '|') a) (hb : Top (fun c => c ≠ '|' ∧ c ≠ '^') b) (pa : ParsesB A a ca) (pb : ParsesB A b cb) :
    BodyB A (a ++ '^' :: b) (.bop .xor ca cb) := by
  intro af haf m hm
  simp only [List.length_append, List.length_cons] at hm
  rw [restB_ops (c := '^') (by simp) (by simp),
    bopStage_none _ _ '|' _ (by decide) (ha.op (hb.mono fun c h => h.1) (by decide) (by decide)) (by simp),
    bopStage_split a b af '^' .xor (by decide) (hb.mono fun c h => h.2) ca cb (pa _ (by simp) m (by omega)) (pb _ haf m (by omega))]

theorem bodyB_and (ha : Top (fun c => c ≠ '|' ∧ c ≠ '^') a) (hb : Top (fun c => c ≠ '|' ∧ c ≠ '^' ∧ c ≠ '&') b)
    (pa : ParsesB A a ca) (pb : ParsesB A b cb) : BodyB A (a ++ '&' :: b) (.bop .and ca cb) := by
  intro af haf m hm
  simp only [List.length_append, List.length_cons] at hm
  have ht : Top (fun c => c ≠ '|' ∧ c ≠ '^') (a ++ '&' :: b) := ha.op (hb.mono fun c h => ⟨h.1, h.2.1⟩) (by decide) (by decide)
  rw [restB_ops (c := '&') (by simp) (by simp),
    bopStage_none _ _ '|' _ (by decide) (ht.mono fun c h => h.1) (by simp),
    bopStage_none _ _ '^' _ (by decide) (ht.mono fun c h => h.2) (by simp),
    bopStage_split a b af '&' .and (by decide) (hb.mono fun c h => h.2.2) ca cb (pa _ (by simp) m (by omega)) (pb _ haf m (by omega))]

/-- Comparison operators as written. -/
def Cmp.text : Cmp → Str
  | .gt => ['>']
  | .ge => ['>', '=']
  | .lt => ['<']
  | .le => ['<', '=']
  | .eq => ['=', '=']

/-- What the parser makes of a comparison: equality gets its operands the other way round. -/
def Cmp.node (o : Cmp) (a b : Node K) : BNode K := if o = .eq then .cmp .eq b a else .cmp o a b

theorem bodyB_cmp (o : Cmp) (ha : Top C1 a) (hb : Top C1 b) (hbne : b ≠ []) (pa : Parses A a na) (pb : Parses A b nb) :
    BodyB A (a ++ o.text ++ b) (o.node na nb) := by
  intro af haf m hm
  have heq : b.head? ≠ some '=' := by
    cases hb with
    | nil => exact absurd rfl hbne
    | char _ _ _ _ h _ => simpa using h.2.2.2.2.2.2
    | group s t _ _ => simp
  have hop : Top (fun c => c ≠ '|' ∧ c ≠ '^' ∧ c ≠ '&' ∧ c ≠ '!') (a ++ o.text ++ b) := by
    refine ((ha.mono ?_).append (Top.of_chars (by cases o <;> decide))).append (hb.mono ?_)
    · exact fun c h => ⟨h.1, h.2.1, h.2.2.1, h.2.2.2.1⟩
    · exact fun c h => ⟨h.1, h.2.1, h.2.2.1, h.2.2.2.1⟩
  have hne : a ++ o.text ++ b ≠ [] := by simp [hbne]
  have h0 : restB (parseEquation A m) (parseBoolean A m) ⟨a ++ o.text ++ b, af⟩ =
      (cmpStage (parseEquation A m) ⟨a ++ o.text ++ b, af⟩ '>' .gt .ge <|
        cmpStage (parseEquation A m) ⟨a ++ o.text ++ b, af⟩ '<' .lt .le <| eqStage (parseEquation A m) ⟨a ++ o.text ++ b, af⟩) := by
    have hmem : ∃ c, c ∈ a ++ o.text ++ b ∧ (c = '|' ∨ c = '^' ∨ c = '&' ∨ c = '>' ∨ c = '<' ∨ c = '=') := by
      cases o
      · exact ⟨'>', by simp [Cmp.text], by simp⟩
      · exact ⟨'>', by simp [Cmp.text], by simp⟩
      · exact ⟨'<', by simp [Cmp.text], by simp⟩
      · exact ⟨'<', by simp [Cmp.text], by simp⟩
      · exact ⟨'=', by simp [Cmp.text], by simp⟩
    obtain ⟨c, hc, hcs⟩ := hmem
    rw [restB_ops hc hcs, bopStage_none _ _ '|' _ (by decide) (hop.mono fun c h => h.1) hne,
      bopStage_none _ _ '^' _ (by decide) (hop.mono fun c h => h.2.1) hne,
      bopStage_none _ _ '&' _ (by decide) (hop.mono fun c h => h.2.2.1) hne,
      notStage_none _ _ (hop.mono fun c h => h.2.2.2) hne]
  rw [h0]
  simp only [List.length_append] at hm
  have hlen : 1 ≤ o.text.length := by cases o <;> decide
  have p1 : ∀ x : Str, x ≠ [] → parseEquation A m ⟨a, x ++ af⟩ = .ok na := fun x hx => pa _ (by simp [hx]) m (by omega)
  have p2 : parseEquation A m ⟨b, af⟩ = .ok nb := pb _ haf m (by omega)
  cases o
  · have e : a ++ Cmp.text .gt ++ b = a ++ '>' :: b := by simp [Cmp.text]
    rw [e, cmpStage_split a b af '>' _ _ (by decide) (hb.mono fun c h => h.2.2.2.2.1) hbne heq na nb (p1 ('>' :: b) (by simp)) p2]
    rfl
  · have e : a ++ Cmp.text .ge ++ b = a ++ '>' :: '=' :: b := by simp [Cmp.text]
    rw [e, cmpStage_splitEq a b af '>' _ _ (by decide) ((hb.mono fun c h => h.2.2.2.2.1).cons (by decide) (by decide)) na nb
      (p1 ('>' :: '=' :: b) (by simp)) p2]
    rfl
  · have e : a ++ Cmp.text .lt ++ b = a ++ '<' :: b := by simp [Cmp.text]
    have hg : Top (· ≠ '>') (a ++ '<' :: b) := (ha.mono fun c h => h.2.2.2.2.1).op (hb.mono fun c h => h.2.2.2.2.1) (by decide) (by decide)
    rw [e, cmpStage_none _ _ '>' _ _ (by decide) hg (by simp),
      cmpStage_split a b af '<' _ _ (by decide) (hb.mono fun c h => h.2.2.2.2.2.1) hbne heq na nb (p1 ('<' :: b) (by simp)) p2]
    rfl
  · have e : a ++ Cmp.text .le ++ b = a ++ '<' :: '=' :: b := by simp [Cmp.text]
    have hg : Top (· ≠ '>') (a ++ '<' :: '=' :: b) :=
      (ha.mono fun c h => h.2.2.2.2.1).op ((hb.mono fun c h => h.2.2.2.2.1).cons (by decide) (by decide)) (by decide) (by decide)
    rw [e, cmpStage_none _ _ '>' _ _ (by decide) hg (by simp),
      cmpStage_splitEq a b af '<' _ _ (by decide) ((hb.mono fun c h => h.2.2.2.2.2.1).cons (by decide) (by decide)) na nb
      (p1 ('<' :: '=' :: b) (by simp)) p2]
    rfl
  · have e : a ++ Cmp.text .eq ++ b = a ++ '=' :: '=' :: b := by simp [Cmp.text]
    have hg : Top (fun c => c ≠ '>' ∧ c ≠ '<') (a ++ '=' :: '=' :: b) :=
      (ha.mono fun c h => ⟨h.2.2.2.2.1, h.2.2.2.2.2.1⟩).op
        ((hb.mono fun c h => ⟨h.2.2.2.2.1, h.2.2.2.2.2.1⟩).cons (by decide) (by decide)) (by decide) (by decide)
    rw [e, cmpStage_none _ _ '>' _ _ (by decide) (hg.mono fun c h => h.1) (by simp),
      cmpStage_none _ _ '<' _ _ (by decide) (hg.mono fun c h => h.2) (by simp),
      eqStage_split a b af (hb.mono fun c h => h.2.2.2.2.2.2) na nb (p1 ('=' :: '=' :: b) (by simp)) p2]
    rfl

end

end NimbleSM.Expr
