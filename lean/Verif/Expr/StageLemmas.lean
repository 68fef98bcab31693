import Verif.Expr.SplitLemmas

/-!
# What each stage of the parser does on a well-formed text
-/

namespace NimbleSM.Expr

open NimbleSM.Parse

variable {K : Type} (A : Arith K)

/-- Only blanks. -/
def Blank (t : Str) : Prop := ∀ c ∈ t, c = ' '

/-- No blank at either end, and not empty. -/
def Trim (t : Str) : Prop := t ≠ [] ∧ t.head? ≠ some ' ' ∧ t.getLast? ≠ some ' '

theorem Blank.top {t : Str} (h : Blank t) {p : Char → Prop} (hp : p ' ') : Top p t :=
  Top.of_chars fun c hc => by rw [h c hc]; exact ⟨by decide, by decide, hp⟩

theorem Blank.nestQ {t : Str} (h : Blank t) : Nest '?' ':' t :=
  Nest.of_chars fun c hc => by rw [h c hc]; exact ⟨by decide, by decide⟩

/-! ## Formatting -/

theorem removeWhitespace_trim (i t j af : Str) (hi : Blank i) (hj : Blank j) (ht : Trim t) :
    removeWhitespace ⟨i ++ t ++ j, af⟩ = ⟨t, j ++ af⟩ := by
  obtain ⟨hne, hhead, hlast⟩ := ht
  obtain ⟨c, t', rfl⟩ := List.exists_cons_of_ne_nil hne
  have hc : c ≠ ' ' := by simpa using hhead
  obtain ⟨t0, l, hl⟩ : ∃ t0 l, c :: t' = t0 ++ [l] :=
    ⟨_, _, (List.dropLast_concat_getLast hne).symm⟩
  have hl' : l ≠ ' ' := by
    rw [hl] at hlast
    simpa using hlast
  unfold removeWhitespace
  dsimp only
  by_cases hb : (i ++ c :: t' ++ j).head? ≠ some ' ' ∧ (i ++ c :: t' ++ j).getLast? ≠ some ' '
  · rw [if_pos hb]
    have hi' : i = [] := by
      rcases i with _ | ⟨a, i⟩
      · rfl
      · exfalso; apply hb.1; simp [hi a (by simp)]
    have hj' : j = [] := by
      rcases List.eq_nil_or_concat j with rfl | ⟨j', b, rfl⟩
      · rfl
      · exfalso; apply hb.2
        rw [hj b (by simp), List.concat_eq_append, ← List.append_assoc, List.getLast?_append]
        rfl
    subst hi' hj'
    simp
  · rw [if_neg hb]
    have hall : ¬ (i ++ c :: t' ++ j).all (fun x => decide (x = ' ')) = true := by
      simp [hc]
    rw [if_neg hall]
    have hdrop : (i ++ c :: t' ++ j).dropWhile (fun x => decide (x = ' ')) = c :: t' ++ j := by
      rw [List.append_assoc, List.dropWhile_append_of_pos (fun x hx => by simp [hi x hx])]
      simp [hc]
    rw [hdrop]
    have hkept : ((c :: t' ++ j).reverse.dropWhile (fun x => decide (x = ' '))).reverse = c :: t' := by
      rw [List.reverse_append, List.dropWhile_append_of_pos (fun x hx => by simp [hj x (List.mem_reverse.1 hx)]), hl,
        List.reverse_append]
      simp [hl']
    rw [hkept, if_neg (by simp)]
    simp

theorem removeParens_id (k : ℕ) (a b af : Str) {p : Char → Prop} (ha : Top p a) (hane : a ≠ []) (hb : b ≠ [])
    (haf : af ≠ []) : removeParens k ⟨a ++ b, af⟩ = .ok ⟨a ++ b, af⟩ := by
  rcases k with _ | k
  · rfl
  · unfold removeParens
    have hbl : 0 < b.length := List.length_pos_iff.2 hb
    cases ha with
    | nil => exact absurd rfl hane
    | char ch t h1 h2 _ _ =>
      have hat := at_lt ⟨ch :: t ++ b, af⟩ [] (t ++ b) ch rfl
      simp only [List.length_nil] at hat
      rw [hat]
      simp only [Except.bind, if_neg h1]
    | group s t hs _ =>
      have hat := at_lt ⟨'(' :: (s ++ ')' :: t) ++ b, af⟩ [] (s ++ ')' :: (t ++ b)) '(' (by simp)
      have hn := next_nest ⟨'(' :: (s ++ ')' :: t) ++ b, af⟩ haf '(' ')' (by decide) [] s (t ++ b) hs (by simp)
      simp only [List.length_nil] at hat hn
      rw [hat]
      simp only [Except.bind]
      rw [if_pos trivial, hn]
      dsimp only
      rw [if_neg (by
        intro h
        simp only [List.length_append, List.length_cons] at h
        omega)]

theorem removeParens_group (k : ℕ) (t af : Str) (ht : Nest '(' ')' t) (haf : af ≠ []) :
    removeParens (k + 1) ⟨'(' :: (t ++ [')']), af⟩ = removeParens k ⟨t, ')' :: af⟩ := by
  have hat := at_lt ⟨'(' :: (t ++ [')']), af⟩ [] (t ++ [')']) '(' rfl
  have hn := next_nest ⟨'(' :: (t ++ [')']), af⟩ haf '(' ')' (by decide) [] t [] ht rfl
  simp only [List.length_nil] at hat hn
  conv_lhs => unfold removeParens
  rw [hat]
  simp only [Except.bind]
  rw [if_pos trivial, hn]
  dsimp only
  have hlen : (0 : ℕ) + List.length t + 1 + 1 = ('(' :: (t ++ [')'])).length := by simp
  rw [if_pos hlen]
  have hs : Reader.sub ⟨'(' :: (t ++ [')']), af⟩ 1 (('(' :: (t ++ [')'])).length - 1) = .ok ⟨t, ')' :: af⟩ := by
    rw [sub_ok _ _ _ (by simp) (by simp)]
    congr 2 <;> simp
  rw [hs]

/-! ## Splitting -/

theorem sub_left (a c b af) : Reader.sub ⟨a ++ c :: b, af⟩ 0 a.length = .ok ⟨a, c :: b ++ af⟩ := by
  rw [sub_ok _ _ _ (Nat.zero_le _) (by simp)]
  congr 2 <;> simp

theorem sub_right (a c b af) : Reader.sub ⟨a ++ c :: b, af⟩ (a.length + 1) (a ++ c :: b).length = .ok ⟨b, af⟩ := by
  rw [sub_ok _ _ _ (by simp) (le_refl _)]
  have h1 : List.drop (a.length + 1) (a ++ c :: b) = b := by
    have := List.drop_left (l₁ := a ++ [c]) (l₂ := b)
    simpa using this
  congr 2
  · dsimp only
    rw [h1, List.take_of_length_le (by simp; omega)]
  · dsimp only
    rw [List.drop_length]
    rfl

theorem split2_ok {α : Type} (pe : Reader → Res α) (a c b af) (na nb : α) (ha : pe ⟨a, c :: b ++ af⟩ = .ok na)
    (hb : pe ⟨b, af⟩ = .ok nb) : split2 pe ⟨a ++ c :: b, af⟩ a.length 1 = .ok (na, nb) := by
  unfold split2
  rw [sub_left]
  simp only [Except.bind, ha]
  rw [sub_right]
  simp only [hb]

variable {pe : Reader → Res (Node K)} {pb : Reader → Res (BNode K)} {k : Res (Option (Node K))} {kb : Res (BNode K)}

theorem condStage_none (t af : Str) (haf : af ≠ []) (h : Top (· ≠ '?') t) (hne : t ≠ []) :
    condStage pe pb ⟨t, af⟩ k = k := by
  obtain ⟨q, hq⟩ := shr_none ⟨t, af⟩ haf '?' (by decide) h hne
  unfold condStage
  rw [hq]
  rfl

theorem condStage_split (c a b af : Str) (haf : af ≠ []) (hc : Top (· ≠ '?') c) (ha : Nest '?' ':' a)
    (nc : BNode K) (na nb : Node K) (h1 : pb ⟨c, '?' :: (a ++ ':' :: b) ++ af⟩ = .ok nc)
    (h2 : pe ⟨a, ':' :: b ++ af⟩ = .ok na) (h3 : pe ⟨b, af⟩ = .ok nb) :
    condStage pe pb ⟨c ++ '?' :: (a ++ ':' :: b), af⟩ k = .ok (some (.cond nc na nb)) := by
  have hq := shr_found ⟨c ++ '?' :: (a ++ ':' :: b), af⟩ haf '?' (by decide) c _ hc rfl
  have hn := next_nest ⟨c ++ '?' :: (a ++ ':' :: b), af⟩ haf '?' ':' (by decide) c a b ha rfl
  unfold condStage
  rw [hq]
  simp only [Except.bind, if_true, hn]
  rw [if_neg (by omega), if_pos (by simp; omega), sub_left]
  simp only [h1]
  have hs2 : Reader.sub ⟨c ++ '?' :: (a ++ ':' :: b), af⟩ (c.length + 1) (c.length + a.length + 1) =
      .ok ⟨a, ':' :: b ++ af⟩ := by
    rw [sub_ok _ _ _ (by omega) (by simp; omega)]
    have e1 : List.drop (c.length + 1) (c ++ '?' :: (a ++ ':' :: b)) = a ++ ':' :: b := by
      have := List.drop_left (l₁ := c ++ ['?']) (l₂ := a ++ ':' :: b)
      simpa using this
    have e2 : List.drop (c.length + a.length + 1) (c ++ '?' :: (a ++ ':' :: b)) = ':' :: b := by
      have := List.drop_left (l₁ := c ++ '?' :: a) (l₂ := ':' :: b)
      have hl : (c ++ '?' :: a).length = c.length + a.length + 1 := by simp; omega
      rw [hl] at this
      simpa using this
    congr 2
    · dsimp only
      rw [e1]
      have : c.length + a.length + 1 - (c.length + 1) = a.length := by omega
      rw [this]
      simp
    · dsimp only
      rw [e2]
  have hs3 : Reader.sub ⟨c ++ '?' :: (a ++ ':' :: b), af⟩ (c.length + a.length + 1 + 1)
      (c ++ '?' :: (a ++ ':' :: b)).length = .ok ⟨b, af⟩ := by
    have h := sub_right (c ++ '?' :: a) ':' b af
    have hl : (c ++ '?' :: a).length = c.length + a.length + 1 := by simp; omega
    rw [hl] at h
    simpa using h
  rw [hs2]
  simp only [h2]
  rw [hs3]
  simp only [h3]

theorem binStage_none (t af : Str) (c : Char) (o : Op) (hc : c ≠ '(' ∧ c ≠ ')') (h : Top (· ≠ c) t) (hne : t ≠ []) :
    binStage pe ⟨t, af⟩ c o k = k := by
  obtain ⟨q, hq⟩ := shl_none ⟨t, af⟩ c hc h hne
  unfold binStage
  rw [hq]
  rfl

theorem binStage_split (a b af : Str) (c : Char) (o : Op) (hc : c ≠ '(' ∧ c ≠ ')') (hb : Top (· ≠ c) b) (na nb : Node K)
    (h1 : pe ⟨a, c :: b ++ af⟩ = .ok na) (h2 : pe ⟨b, af⟩ = .ok nb) :
    binStage pe ⟨a ++ c :: b, af⟩ c o k = .ok (some (.bin o na nb)) := by
  unfold binStage
  rw [shl_found ⟨a ++ c :: b, af⟩ c hc a b hb rfl]
  simp only [Except.bind, if_true]
  rw [split2_ok pe a c b af na nb h1 h2]

/-! ## Subtraction and negation -/

/-- Minus signs and blanks. -/
def Signs (m : Str) : Prop := ∀ c ∈ m, c = '-' ∨ c = ' '

/-- Texts in which the last minus sign is taken for a negation or part of a number. -/
inductive SubFall : Str → Prop
  | none (t : Str) : Top (· ≠ '-') t → SubFall t
  | lead (m b : Str) : Signs m → Top (· ≠ '-') b → SubFall ('-' :: (m ++ b))
  | op (a : Str) (ch : Char) (m b : Str) : beforeNegation ch = true → Signs m → '-' ∈ m → Top (· ≠ '-') b →
      SubFall (a ++ ch :: (m ++ b))

theorem SubFall.append {a b : Str} (ha : SubFall a) (hb : Top (· ≠ '-') b) : SubFall (a ++ b) := by
  cases ha with
  | none _ h => exact .none _ (h.append hb)
  | lead m b' hm hb' =>
    have := SubFall.lead m (b' ++ b) hm (hb'.append hb)
    simpa using this
  | op a ch m b' hch hm hmem hb' =>
    have := SubFall.op a ch m (b' ++ b) hch hm hmem (hb'.append hb)
    simpa using this

/-- An operator before a text. -/
theorem SubFall.operator {a b i : Str} {c : Char} (ha : SubFall a) (hb : SubFall b) (hi : Blank i)
    (hc : beforeNegation c = true) (hc' : c ≠ '(' ∧ c ≠ ')' ∧ c ≠ '-') : SubFall (a ++ c :: (i ++ b)) := by
  cases hb with
  | none _ h => exact ha.append ((h.cons ⟨by decide, by decide⟩ (by decide : ' ' ≠ '-') |> fun _ => (hi.top (by decide)).append h).cons ⟨hc'.1, hc'.2.1⟩ hc'.2.2)
  | lead m b' hm hb' =>
    have := SubFall.op a c (i ++ '-' :: m) b' hc (by
      intro x hx
      simp only [List.mem_append, List.mem_cons] at hx
      rcases hx with hx | hx | hx
      · exact Or.inr (hi x hx)
      · exact Or.inl hx
      · exact hm x hx) (by simp) hb'
    simpa using this
  | op a' ch m b' hch hm hmem hb' =>
    have := SubFall.op (a ++ c :: (i ++ a')) ch m b' hch hm hmem hb'
    simpa using this

theorem backOver_signs (r : Reader) (a : Str) (ch : Char) (rest : Str) :
    ∀ (n : ℕ) (m : Str), m.length = n → Signs m → (∃ rest', r.text = a ++ ch :: (m ++ rest')) →
      backOver r (a.length + m.length) = backOver r a.length := by
  intro n
  induction n with
  | zero =>
    intro m hm _ _
    rw [List.length_eq_zero_iff.1 hm]
    rfl
  | succ n ih =>
    intro m hm hs ⟨rest', ht⟩
    rcases List.eq_nil_or_concat m with rfl | ⟨m', x, rfl⟩
    · simp at hm
    · rw [List.concat_eq_append] at *
      have hat := at_lt r (a ++ ch :: m') rest' x (by rw [ht]; simp)
      have hl : (a ++ ch :: m').length = a.length + m'.length + 1 := by simp; omega
      rw [hl] at hat
      have hl2 : a.length + (m' ++ [x]).length = a.length + m'.length + 1 := by simp; omega
      rw [hl2]
      conv_lhs => unfold backOver
      rw [hat]
      simp only [Except.bind]
      rw [if_pos (hs x (by simp))]
      exact ih m' (by simp at hm; exact hm) (fun c hc => hs c (by simp [hc])) ⟨x :: rest', by rw [ht]; simp⟩

theorem backOver_stop (r : Reader) (a : Str) (ch : Char) (rest : Str) (ht : r.text = a ++ ch :: rest)
    (h : a = [] ∨ (ch ≠ '-' ∧ ch ≠ ' ')) : backOver r a.length = .ok a.length := by
  rcases a with _ | ⟨x, a⟩
  · rfl
  · have hat := at_lt r (x :: a) rest ch ht
    rw [List.length_cons] at hat ⊢
    unfold backOver
    rw [hat]
    simp only [Except.bind]
    rw [if_neg]
    rcases h with h | h
    · cases h
    · rintro (h' | h')
      · exact h.1 h'
      · exact h.2 h'

theorem last_minus (m : Str) (hm : Signs m) (h : '-' ∈ m) : ∃ m1 m2, m = m1 ++ '-' :: m2 ∧ Signs m1 ∧ Blank m2 := by
  induction m with
  | nil => cases h
  | cons c m ih =>
    have hm' : Signs m := fun x hx => hm x (by simp [hx])
    by_cases hmem : '-' ∈ m
    · obtain ⟨m1, m2, rfl, h1, h2⟩ := ih hm' hmem
      refine ⟨c :: m1, m2, rfl, ?_, h2⟩
      intro x hx
      simp only [List.mem_cons] at hx
      rcases hx with rfl | hx
      · exact hm x (by simp)
      · exact h1 x hx
    · have hc : c = '-' := by
        simp only [List.mem_cons] at h
        rcases h with h | h
        · exact h.symm
        · exact absurd h hmem
      subst hc
      refine ⟨[], m, rfl, (by intro x hx; cases hx), ?_⟩
      intro x hx
      rcases hm' x hx with rfl | h
      · exact absurd hx hmem
      · exact h

theorem subStage_fall (t af : Str) (h : SubFall t) (hne : t ≠ []) : subStage pe ⟨t, af⟩ k = k := by
  cases h with
  | none _ h =>
    obtain ⟨q, hq⟩ := shl_none ⟨t, af⟩ '-' (by decide) h hne
    unfold subStage
    rw [hq]
    rfl
  | lead m b hm hb =>
    obtain ⟨m1, m2, hmm, h1, h2⟩ := last_minus ('-' :: m) (by
      intro x hx
      simp only [List.mem_cons] at hx
      rcases hx with rfl | hx
      · exact Or.inl rfl
      · exact hm x hx) (by simp)
    have htext : '-' :: (m ++ b) = m1 ++ '-' :: (m2 ++ b) := by
      have := congrArg (· ++ b) hmm
      simpa using this
    unfold subStage
    rw [shl_found ⟨'-' :: (m ++ b), af⟩ '-' (by decide) m1 (m2 ++ b) ((h2.top (by decide)).append hb) htext]
    simp only [Except.bind, if_true]
    have hb1 := backOver_signs ⟨'-' :: (m ++ b), af⟩ [] '-' [] m1.length (m.take m1.length) (by
        have := congrArg List.length hmm
        simp at this
        simp
        omega) (fun c hc => hm c (List.mem_of_mem_take hc))
      ⟨m.drop m1.length ++ b, by simp [← List.append_assoc]⟩
    have hl : (m.take m1.length).length = m1.length := by
      have := congrArg List.length hmm
      simp at this
      simp
      omega
    rw [hl] at hb1
    simp only [List.length_nil, Nat.zero_add] at hb1
    rw [hb1]
    have hat := at_lt ⟨'-' :: (m ++ b), af⟩ [] (m ++ b) '-' rfl
    simp only [List.length_nil] at hat
    simp only [backOver, hat]
    rw [if_neg (by simp)]
  | op a ch m b hch hm hmem hb =>
    obtain ⟨m1, m2, rfl, h1, h2⟩ := last_minus m hm hmem
    have htext : a ++ ch :: (m1 ++ '-' :: m2 ++ b) = (a ++ ch :: m1) ++ '-' :: (m2 ++ b) := by simp
    unfold subStage
    rw [shl_found ⟨a ++ ch :: (m1 ++ '-' :: m2 ++ b), af⟩ '-' (by decide) (a ++ ch :: m1) (m2 ++ b)
      ((h2.top (by decide)).append hb) htext]
    simp only [Except.bind, if_true]
    have hb1 := backOver_signs ⟨a ++ ch :: (m1 ++ '-' :: m2 ++ b), af⟩ a ch [] (m1.length + 1) (m1 ++ ['-']) (by simp) (by
        intro x hx
        simp only [List.mem_append, List.mem_singleton] at hx
        rcases hx with hx | rfl
        · exact h1 x hx
        · exact Or.inl rfl) ⟨m2 ++ b, by simp⟩
    have hl : (a ++ ch :: m1).length = a.length + (m1 ++ ['-']).length := by simp
    have hch' : ch ≠ '-' ∧ ch ≠ ' ' := by
      constructor <;> (rintro rfl; revert hch; decide)
    rw [hl, hb1, backOver_stop _ a ch (m1 ++ '-' :: m2 ++ b) rfl (Or.inr hch')]
    have hat := at_lt ⟨a ++ ch :: (m1 ++ '-' :: m2 ++ b), af⟩ a (m1 ++ '-' :: m2 ++ b) ch rfl
    simp only [hat]
    rw [if_neg (by simp [hch])]

theorem forwardMinus_skip (r : Reader) :
    ∀ (i : Str) (pre rest : Str) (n : ℕ), (∀ c ∈ i, c ≠ '-') → r.text = pre ++ i ++ '-' :: rest → i.length < n →
      forwardMinus r n pre.length = .ok (pre.length + i.length) := by
  intro i
  induction i with
  | nil =>
    intro pre rest n _ ht hn
    obtain ⟨n, rfl⟩ : ∃ n', n = n' + 1 := ⟨n - 1, by simp at hn; omega⟩
    have hat := at_lt r pre rest '-' (by rw [ht]; simp)
    unfold forwardMinus
    rw [hat]
    simp [Except.bind]
  | cons c i ih =>
    intro pre rest n hi ht hn
    obtain ⟨n, rfl⟩ : ∃ n', n = n' + 1 := ⟨n - 1, by simp at hn; omega⟩
    have hat := at_lt r pre (i ++ '-' :: rest) c (by rw [ht]; simp)
    unfold forwardMinus
    rw [hat]
    simp only [Except.bind]
    rw [if_neg (hi c (by simp))]
    have h := ih (pre ++ [c]) rest n (fun x hx => hi x (by simp [hx])) (by rw [ht]; simp) (by simp at hn; omega)
    have hl : (pre ++ [c]).length = pre.length + 1 := by simp
    rw [hl] at h
    rw [h]
    congr 1
    simp
    omega

/-- Subtraction: the last character of the left text is not one that makes the minus sign a negation; the
right text may begin with further signs. -/
theorem subStage_split (a0 : Str) (ch : Char) (i m b af : Str) (hch : beforeNegation ch = false)
    (hch' : ch ≠ '-' ∧ ch ≠ ' ') (hi : Blank i) (hm : Signs m) (hb : Top (· ≠ '-') b) (na nb : Node K)
    (h1 : pe ⟨a0 ++ ch :: i, '-' :: (m ++ b) ++ af⟩ = .ok na) (h2 : pe ⟨m ++ b, af⟩ = .ok nb) :
    subStage pe ⟨(a0 ++ ch :: i) ++ '-' :: (m ++ b), af⟩ k = .ok (some (.bin .sub na nb)) := by
  obtain ⟨m1, m2, hmm, hs1, hs2⟩ := last_minus ('-' :: m) (by
    intro x hx
    simp only [List.mem_cons] at hx
    rcases hx with rfl | hx
    · exact Or.inl rfl
    · exact hm x hx) (by simp)
  have htext : (a0 ++ ch :: i) ++ '-' :: (m ++ b) = (a0 ++ ch :: (i ++ m1)) ++ '-' :: (m2 ++ b) := by
    have := congrArg (· ++ b) hmm
    simp only [List.cons_append, List.append_assoc] at this
    simp only [List.append_assoc, List.cons_append, this]
  unfold subStage
  rw [shl_found ⟨(a0 ++ ch :: i) ++ '-' :: (m ++ b), af⟩ '-' (by decide) _ (m2 ++ b) ((hs2.top (by decide)).append hb) htext]
  simp only [Except.bind, if_true]
  have hb1 := backOver_signs ⟨(a0 ++ ch :: i) ++ '-' :: (m ++ b), af⟩ a0 ch [] (i ++ m1 ++ ['-']).length (i ++ m1 ++ ['-']) rfl (by
      intro x hx
      simp only [List.mem_append, List.mem_singleton] at hx
      rcases hx with (hx | hx) | rfl
      · exact Or.inr (hi x hx)
      · exact hs1 x hx
      · exact Or.inl rfl) ⟨m2 ++ b, by rw [htext]; simp⟩
  have hl : (a0 ++ ch :: (i ++ m1)).length = a0.length + (i ++ m1 ++ ['-']).length := by simp; omega
  rw [hl, hb1, backOver_stop _ a0 ch (i ++ '-' :: (m ++ b)) (by simp) (Or.inr hch')]
  have hat := at_lt ⟨(a0 ++ ch :: i) ++ '-' :: (m ++ b), af⟩ a0 (i ++ '-' :: (m ++ b)) ch (by simp)
  simp only [hat]
  rw [if_pos ⟨Or.inr hch'.1, hch⟩]
  have hf := forwardMinus_skip ⟨(a0 ++ ch :: i) ++ '-' :: (m ++ b), af⟩ (ch :: i) a0 (m ++ b)
    (((a0 ++ ch :: i) ++ '-' :: (m ++ b)).length + 1) (by
      intro x hx
      simp only [List.mem_cons] at hx
      rcases hx with rfl | hx
      · exact hch'.1
      · rw [hi x hx]; decide) rfl (by simp; omega)
  rw [hf]
  have hl2 : a0.length + (ch :: i).length = (a0 ++ ch :: i).length := by simp
  simp only [hl2]
  rw [split2_ok pe (a0 ++ ch :: i) '-' (m ++ b) af na nb h1 h2]

/-! ## Powers and negation -/

theorem powStage_none (t af : Str) (haf : af ≠ []) (h : Top (· ≠ '^') t) (hne : t ≠ []) :
    powStage pe ⟨t, af⟩ k = k := by
  obtain ⟨q, hq⟩ := shr_none ⟨t, af⟩ haf '^' (by decide) h hne
  unfold powStage
  rw [hq]
  rfl

theorem powStage_split (a b u af af' : Str) (haf : af ≠ []) (ha : Top (· ≠ '^') a) (na : Node K)
    (h1 : pe ⟨a, '^' :: b ++ af⟩ = .ok na) (hf : format ⟨b, af⟩ = .ok ⟨u, af'⟩) :
    powStage pe ⟨a ++ '^' :: b, af⟩ k =
      if isInteger u then .ok (some (.powi na (integerOf u)))
      else (pe ⟨u, af'⟩).bind fun b => .ok (some (.bin .pow na b)) := by
  unfold powStage
  rw [shr_found ⟨a ++ '^' :: b, af⟩ haf '^' (by decide) a b ha rfl]
  simp only [Except.bind, if_true]
  rw [sub_left]
  simp only [h1]
  rw [sub_right]
  simp only [hf]

theorem negStage_none (c : Char) (t af : Str) (h : c ≠ '-') : negStage pe ⟨c :: t, af⟩ = .ok none := by
  have hat := at_lt ⟨c :: t, af⟩ [] t c rfl
  simp only [List.length_nil] at hat
  unfold negStage
  rw [hat]
  simp only [Except.bind]
  rw [if_neg h]

theorem negStage_split (t af : Str) (n : Node K) (h : pe ⟨t, af⟩ = .ok n) :
    negStage pe ⟨'-' :: t, af⟩ = .ok (some (.fn .neg n)) := by
  have hat := at_lt ⟨'-' :: t, af⟩ [] t '-' rfl
  simp only [List.length_nil] at hat
  unfold negStage
  rw [hat]
  simp only [Except.bind]
  have hs := sub_right [] '-' t af
  simp only [List.length_nil, List.nil_append, Nat.zero_add] at hs
  rw [if_pos trivial, hs]
  simp only [h]

/-! ## Functions -/

theorem nameScan_ok (name rest : Str) (h : ∀ c ∈ name, stopsName c = false) : nameScan (name ++ '(' :: rest) = false := by
  induction name with
  | nil => rfl
  | cons c name ih =>
    simp only [List.cons_append, nameScan]
    split
    · rfl
    · rw [if_neg (by simp [h c (by simp)])]
      exact ih fun x hx => h x (by simp [hx])

theorem shr_paren (r : Reader) (hr : r.after ≠ []) (name rest : Str) (h : ∀ c ∈ name, c ≠ '(') (hrest : rest ≠ [])
    (ht : r.text = name ++ '(' :: rest) : shr r '(' = .ok (true, name.length) := by
  have key : ∀ (v pre : Str) (k : ℕ), (∀ c ∈ v, c ≠ '(') → r.text = pre ++ v ++ '(' :: rest → v.length < k →
      shrLoop r '(' k pre.length = .ok (pre.length + v.length) := by
    intro v
    induction v with
    | nil =>
      intro pre k _ ht hk
      obtain ⟨k, rfl⟩ : ∃ k', k = k' + 1 := ⟨k - 1, by simp at hk; omega⟩
      have hat := at_lt r pre rest '(' (by rw [ht]; simp)
      unfold shrLoop
      split
      · rw [hat]
        simp [Except.bind]
      · rfl
    | cons c v ih =>
      intro pre k hv ht hk
      obtain ⟨k, rfl⟩ : ∃ k', k = k' + 1 := ⟨k - 1, by simp at hk; omega⟩
      have hat := at_lt r pre (v ++ '(' :: rest) c (by rw [ht]; simp)
      have hlen : r.text.length = pre.length + v.length + 2 + rest.length := by rw [ht]; simp; omega
      unfold shrLoop
      rw [if_pos (by omega), hat]
      simp only [Except.bind]
      rw [if_pos (hv c (by simp)), next_other r '(' ')' c _ hat (hv c (by simp))]
      have := ih (pre ++ [c]) k (fun x hx => hv x (by simp [hx])) (by rw [ht]; simp) (by simp at hk; omega)
      have hl : (pre ++ [c]).length = pre.length + 1 := by simp
      rw [hl] at this
      dsimp only
      rw [this]
      congr 1
      simp
      omega
  have hne : r.text.length ≠ 0 := by rw [ht]; simp
  have h1 := key name [] r.text.length h (by rw [ht]; rfl) (by rw [ht]; simp)
  have hat := at_lt r name rest '(' ht
  unfold shr
  rw [if_neg hne]
  simp only [List.length_nil, Nat.zero_add] at h1
  rw [h1]
  simp only [Except.bind, hat, decide_true]

theorem parseFunction_call (name t af : Str) (c : Char) (hname : name.head? = some c) (haf : af ≠ [])
    (hc : isDigit c = false ∧ c ≠ '(' ∧ c ≠ '-') (hlen : 1 ≤ name.length) (hstop : ∀ x ∈ name, stopsName x = false)
    (hparen : ∀ x ∈ name, x ≠ '(') (ht : Nest '(' ')' t) (f : Fn) (hf : mathFunc name = some f) (n : Node K)
    (h : pe ⟨'(' :: (t ++ [')']), af⟩ = .ok n) :
    parseFunction pe ⟨name ++ '(' :: (t ++ [')']), af⟩ = .ok (some (.fn f n)) := by
  obtain ⟨name', rfl⟩ : ∃ name', name = c :: name' := by
    rcases name with _ | ⟨a, name'⟩
    · cases hname
    · simp only [List.head?_cons, Option.some.injEq] at hname
      exact ⟨name', by rw [hname]⟩
  have hat := at_lt ⟨c :: name' ++ '(' :: (t ++ [')']), af⟩ [] (name' ++ '(' :: (t ++ [')'])) c rfl
  simp only [List.length_nil] at hat
  unfold parseFunction
  rw [hat]
  simp only [Except.bind]
  rw [if_neg (by
    simp only [not_or]
    refine ⟨by simp [hc.1], hc.2.1, hc.2.2, by simp; omega⟩), nameScan_ok _ _ hstop]
  rw [if_neg (by simp), shr_paren ⟨c :: name' ++ '(' :: (t ++ [')']), af⟩ haf (c :: name') _ hparen (by simp) rfl]
  simp only [if_true]
  have hn := next_nest ⟨c :: name' ++ '(' :: (t ++ [')']), af⟩ haf '(' ')' (by decide) (c :: name') t [] ht rfl
  rw [hn]
  simp only
  rw [if_neg (by omega), if_neg (by simp; omega)]
  have htake : List.take (c :: name').length (c :: name' ++ '(' :: (t ++ [')'])) = c :: name' := by simp
  rw [htake, hf]
  simp only
  have hs : Reader.sub ⟨c :: name' ++ '(' :: (t ++ [')']), af⟩ (c :: name').length
      (c :: name' ++ '(' :: (t ++ [')'])).length = .ok ⟨'(' :: (t ++ [')']), af⟩ := by
    rw [sub_ok _ _ _ (by simp) (le_refl _)]
    have h1 : List.drop (c :: name').length (c :: name' ++ '(' :: (t ++ [')'])) = '(' :: (t ++ [')']) :=
      List.drop_left
    congr 2
    · dsimp only
      rw [h1, List.take_of_length_le (by simp)]
    · dsimp only
      rw [List.drop_length]
      rfl
  rw [hs]
  simp only [h]

end NimbleSM.Expr
