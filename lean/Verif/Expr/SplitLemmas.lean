import Verif.Expr.InsideLemmas

/-!
# Where the searches of a `Reader` stop on texts with matching parentheses
-/

namespace NimbleSM.Expr

/-- Texts in which every `o` is closed by a `c`, properly nested. -/
inductive Nest (o c : Char) : Str → Prop
  | nil : Nest o c []
  | char (ch : Char) (t : Str) : ch ≠ o → ch ≠ c → Nest o c t → Nest o c (ch :: t)
  | group (s t : Str) : Nest o c s → Nest o c t → Nest o c (o :: (s ++ c :: t))

/-- Texts with matching parentheses whose characters outside parentheses satisfy `p`. -/
inductive Top (p : Char → Prop) : Str → Prop
  | nil : Top p []
  | char (ch : Char) (t : Str) : ch ≠ '(' → ch ≠ ')' → p ch → Top p t → Top p (ch :: t)
  | group (s t : Str) : Nest '(' ')' s → Top p t → Top p ('(' :: (s ++ ')' :: t))

theorem Nest.append {o c : Char} {a b : Str} (ha : Nest o c a) (hb : Nest o c b) : Nest o c (a ++ b) := by
  induction ha with
  | nil => exact hb
  | char ch t h1 h2 _ ih => exact .char ch _ h1 h2 ih
  | group s t hs _ _ iht =>
    have := Nest.group s (t ++ b) hs iht
    simpa using this

theorem Nest.single {o c ch : Char} (h1 : ch ≠ o) (h2 : ch ≠ c) : Nest o c [ch] := .char ch _ h1 h2 .nil

theorem Nest.wrap {o c : Char} {s : Str} (h : Nest o c s) : Nest o c (o :: (s ++ [c])) := .group s [] h .nil

theorem Nest.reverse {o c : Char} {a : Str} (ha : Nest o c a) : Nest c o a.reverse := by
  induction ha with
  | nil => exact .nil
  | char ch t h1 h2 _ ih =>
    rw [List.reverse_cons]
    exact ih.append (.single h2 h1)
  | group s t _ _ ihs iht =>
    have : (o :: (s ++ c :: t)).reverse = t.reverse ++ c :: (s.reverse ++ [o]) := by simp
    rw [this]
    exact iht.append ihs.wrap

theorem Nest.of_chars {o c : Char} {t : Str} (h : ∀ ch ∈ t, ch ≠ o ∧ ch ≠ c) : Nest o c t := by
  induction t with
  | nil => exact .nil
  | cons a t ih => exact .char a t (h a (by simp)).1 (h a (by simp)).2 (ih fun ch hc => h ch (by simp [hc]))

variable {p q : Char → Prop}

theorem Top.nest {t : Str} (h : Top p t) : Nest '(' ')' t := by
  induction h with
  | nil => exact .nil
  | char ch t h1 h2 _ _ ih => exact .char ch t h1 h2 ih
  | group s t hs _ ih => exact .group s t hs ih

theorem Top.mono {t : Str} (h : Top p t) (hpq : ∀ c, p c → q c) : Top q t := by
  induction h with
  | nil => exact .nil
  | char ch t h1 h2 hp _ ih => exact .char ch t h1 h2 (hpq ch hp) ih
  | group s t hs _ ih => exact .group s t hs ih

theorem Top.append {a b : Str} (ha : Top p a) (hb : Top p b) : Top p (a ++ b) := by
  induction ha with
  | nil => exact hb
  | char ch t h1 h2 hp _ ih => exact .char ch _ h1 h2 hp ih
  | group s t hs _ iht =>
    have := Top.group s (t ++ b) hs iht
    simpa using this

theorem Top.of_chars {t : Str} (h : ∀ ch ∈ t, ch ≠ '(' ∧ ch ≠ ')' ∧ p ch) : Top p t := by
  induction t with
  | nil => exact .nil
  | cons a t ih =>
    exact .char a t (h a (by simp)).1 (h a (by simp)).2.1 (h a (by simp)).2.2 (ih fun ch hc => h ch (by simp [hc]))

theorem Top.cons {c : Char} {b : Str} (hb : Top p b) (h1 : c ≠ '(' ∧ c ≠ ')') (hp : p c) : Top p (c :: b) :=
  .char c b h1.1 h1.2 hp hb

/-- A text with an operator. -/
theorem Top.op {a b : Str} {c : Char} (ha : Top p a) (hb : Top p b) (h1 : c ≠ '(' ∧ c ≠ ')') (hp : p c) :
    Top p (a ++ c :: b) := ha.append (hb.cons h1 hp)

theorem Top.of_nest {t : Str} (h : Nest '(' ')' t) : Top (fun _ => True) t := by
  induction h with
  | nil => exact .nil
  | char ch t h1 h2 _ ih => exact .char ch t h1 h2 trivial ih
  | group s t hs _ _ ih => exact .group s t hs ih

/-- A group and what follows. -/
theorem Top.wrap {s : Str} (h : Nest '(' ')' s) : Top p ('(' :: (s ++ [')'])) := .group s [] h .nil

theorem Top.right {t : Str} (h : Top p t) : t = [] ∨
    (∃ a ch, t = a ++ [ch] ∧ Top p a ∧ ch ≠ '(' ∧ ch ≠ ')' ∧ p ch) ∨
    (∃ a s, t = a ++ '(' :: (s ++ [')']) ∧ Top p a ∧ Nest '(' ')' s) := by
  induction h with
  | nil => exact Or.inl rfl
  | char ch t h1 h2 hp _ ih =>
    refine Or.inr ?_
    rcases ih with rfl | ⟨a, c', rfl, ha, h⟩ | ⟨a, s, rfl, ha, hs⟩
    · exact Or.inl ⟨[], ch, rfl, .nil, h1, h2, hp⟩
    · exact Or.inl ⟨ch :: a, c', rfl, .char ch a h1 h2 hp ha, h⟩
    · exact Or.inr ⟨ch :: a, s, rfl, .char ch a h1 h2 hp ha, hs⟩
  | group s t hs _ ih =>
    refine Or.inr ?_
    rcases ih with rfl | ⟨a, c', rfl, ha, h⟩ | ⟨a, s', rfl, ha, hs'⟩
    · exact Or.inr ⟨[], s, by simp, .nil, hs⟩
    · exact Or.inl ⟨'(' :: (s ++ ')' :: a), c', by simp, .group s a hs ha, h⟩
    · exact Or.inr ⟨'(' :: (s ++ ')' :: a), s', by simp, .group s a hs ha, hs'⟩

/-! ## `Next` -/

theorem Nest.closed {o c : Char} {u : Str} (hoc : o ≠ c) (hu : Nest o c u) :
    ∀ (d : ℕ) (v : Str), d ≠ 0 → Closed o c d v → Closed o c d (u ++ v) := by
  induction hu with
  | nil => intro d v _ h; exact h
  | char ch t h1 h2 _ ih =>
    intro d v hd h
    refine ⟨hd, ?_⟩
    simp only [depthStep, if_neg h1, if_neg h2]
    exact ih d v hd h
  | group s t _ _ ihs iht =>
    intro d v hd h
    have heq : o :: (s ++ c :: t) ++ v = o :: (s ++ (c :: (t ++ v))) := by simp
    rw [heq]
    refine ⟨hd, ?_⟩
    simp only [depthStep, if_true]
    refine ihs _ _ (by omega) ⟨by omega, ?_⟩
    have : depthStep o c c (d + 1) = d := by simp [depthStep, hoc.symm]
    rw [this]
    exact iht d v hd h

theorem closed_unique {o c : Char} {w1 : Str} : ∀ {d : ℕ} {w2 v1 v2 : Str}, Closed o c d w1 → Closed o c d v1 →
    w1 ++ w2 = v1 ++ v2 → w1 = v1 := by
  induction w1 with
  | nil =>
    intro d w2 v1 v2 h1 h2 _
    rcases v1 with _ | ⟨b, v1⟩
    · rfl
    · exact absurd h1 h2.1
  | cons a w1 ih =>
    intro d w2 v1 v2 h1 h2 he
    rcases v1 with _ | ⟨b, v1⟩
    · exact absurd h2 h1.1
    · simp only [List.cons_append, List.cons.injEq] at he
      obtain ⟨rfl, he⟩ := he
      rw [ih h1.2 h2.2 he]

theorem not_alive_closed {o c : Char} {w1 : Str} : ∀ {d : ℕ} {w2 : Str}, Closed o c d w1 → ¬ Alive o c d (w1 ++ w2) := by
  induction w1 with
  | nil =>
    intro d w2 h1 h2
    rcases w2 with _ | ⟨b, w2⟩
    · exact h2 h1
    · exact h2.1 h1
  | cons a w1 ih => intro d w2 h1 h2; exact ih h1.2 h2.2

/-- `Next` at an opening character goes to the closing one. -/
theorem next_nest (r : Reader) (hr : r.after ≠ []) (o c : Char) (hoc : o ≠ c) (pre u rest : Str) (hu : Nest o c u)
    (ht : r.text = pre ++ o :: (u ++ c :: rest)) : next r o c pre.length = .ok (pre.length + u.length + 1, 0) := by
  have hcl : Closed o c 1 (u ++ [c]) := hu.closed hoc 1 [c] (by simp) ⟨by simp, by simp [depthStep, hoc.symm, Closed]⟩
  rcases next_open r hr o c pre _ ht with ⟨w1, w2, hw, _, hc, he⟩ | ⟨ha, _⟩
  · have : w1 = u ++ [c] := closed_unique (w2 := w2) (v2 := rest) hc hcl (by rw [← hw]; simp)
    rw [he, this]
    simp
    omega
  · have h2 : Alive o c 1 ((u ++ [c]) ++ rest) := by simpa using ha
    exact absurd h2 (not_alive_closed hcl)

/-! ## `operator>>` -/

theorem shrLoop_skip (r : Reader) (hr : r.after ≠ []) (c : Char) (hc : c ≠ '(' ∧ c ≠ ')') {a : Str} (ha : Top (· ≠ c) a) :
    ∀ (pre rest : Str) (k : ℕ), r.text = pre ++ a ++ rest → rest ≠ [] → a.length + rest.length ≤ k →
      ∃ k', rest.length ≤ k' ∧ shrLoop r c k pre.length = shrLoop r c k' (pre ++ a).length := by
  induction ha with
  | nil => intro pre rest k _ _ hk; exact ⟨k, by simpa using hk, by simp⟩
  | char ch t h1 h2 hp _ ih =>
    intro pre rest k ht hrest hk
    have hrl : 0 < rest.length := List.length_pos_iff.2 hrest
    obtain ⟨k, rfl⟩ : ∃ k', k = k' + 1 := ⟨k - 1, by omega⟩
    have hlen : r.text.length = pre.length + (t.length + 1) + rest.length := by rw [ht]; simp; omega
    have hat := at_lt r pre (t ++ rest) ch (by rw [ht]; simp)
    obtain ⟨k', hk', he⟩ := ih (pre ++ [ch]) rest k (by rw [ht]; simp) hrest (by simp at hk; omega)
    refine ⟨k', hk', ?_⟩
    conv_lhs => unfold shrLoop
    rw [if_pos (by omega), hat]
    simp only [Except.bind]
    rw [if_pos hp, next_other r '(' ')' ch pre.length hat h1]
    dsimp only
    have hl1 : (pre ++ [ch]).length = pre.length + 1 := by simp
    rw [hl1] at he
    rw [he]
    congr 1
    simp
  | group s t hs _ ih =>
    intro pre rest k ht hrest hk
    have hrl : 0 < rest.length := List.length_pos_iff.2 hrest
    obtain ⟨k, rfl⟩ : ∃ k', k = k' + 1 + 1 := ⟨k - 2, by simp at hk; omega⟩
    have hlen : r.text.length = pre.length + (s.length + t.length + 2) + rest.length := by rw [ht]; simp; omega
    have hat := at_lt r pre (s ++ ')' :: (t ++ rest)) '(' (by rw [ht]; simp)
    have hat2 := at_lt r (pre ++ '(' :: s) (t ++ rest) ')' (by rw [ht]; simp)
    have hl2 : (pre ++ '(' :: s).length = pre.length + s.length + 1 := by simp; omega
    rw [hl2] at hat2
    obtain ⟨k', hk', he⟩ := ih (pre ++ '(' :: (s ++ [')'])) rest k (by rw [ht]; simp) hrest (by simp at hk; omega)
    refine ⟨k', hk', ?_⟩
    conv_lhs => unfold shrLoop
    rw [if_pos (by omega), hat]
    simp only [Except.bind]
    rw [if_pos hc.1.symm, next_nest r hr '(' ')' (by decide) pre s (t ++ rest) hs (by rw [ht]; simp)]
    dsimp only
    conv_lhs => unfold shrLoop
    rw [if_pos (by omega), hat2]
    simp only [Except.bind]
    rw [if_pos hc.2.symm, next_other r '(' ')' ')' _ hat2 (by decide)]
    dsimp only
    have hl1 : (pre ++ '(' :: (s ++ [')'])).length = pre.length + s.length + 1 + 1 := by simp; omega
    rw [hl1] at he
    rw [he]
    congr 1
    simp

/-- The first `c` outside parentheses is found. -/
theorem shr_found (r : Reader) (hr : r.after ≠ []) (c : Char) (hc : c ≠ '(' ∧ c ≠ ')') (a b : Str) (ha : Top (· ≠ c) a)
    (ht : r.text = a ++ c :: b) : shr r c = .ok (true, a.length) := by
  have hne : r.text.length ≠ 0 := by rw [ht]; simp
  obtain ⟨k', hk', he⟩ := shrLoop_skip r hr c hc ha [] (c :: b) r.text.length (by rw [ht]; rfl) (by simp)
    (by rw [ht]; simp)
  have hat := at_lt r a b c ht
  obtain ⟨k', rfl⟩ : ∃ k'', k' = k'' + 1 := ⟨k' - 1, by simp at hk'; omega⟩
  have hstop : shrLoop r c (k' + 1) ([] ++ a).length = .ok a.length := by
    unfold shrLoop
    rw [List.nil_append]
    split
    · rw [hat]
      simp only [Except.bind]
      rw [if_neg (by simp)]
    · rfl
  unfold shr
  rw [if_neg hne]
  simp only [List.length_nil] at he
  rw [he, hstop]
  simp only [Except.bind, hat, decide_true]

/-- Without a `c` outside parentheses the search fails. -/
theorem shr_none (r : Reader) (hr : r.after ≠ []) (c : Char) (hc : c ≠ '(' ∧ c ≠ ')') (ha : Top (· ≠ c) r.text)
    (hne : r.text ≠ []) : ∃ q, shr r c = .ok (false, q) := by
  have hne' : r.text.length ≠ 0 := by simpa using hne
  unfold shr
  rw [if_neg hne']
  rcases ha.right with h | ⟨a, ch, ht, hta, h1, h2, hch⟩ | ⟨a, s, ht, hta, hs⟩
  · exact absurd h hne
  · obtain ⟨k', hk', he⟩ := shrLoop_skip r hr c hc hta [] [ch] r.text.length (by rw [ht]; rfl) (by simp)
      (by rw [ht]; simp)
    obtain ⟨k', rfl⟩ : ∃ k'', k' = k'' + 1 := ⟨k' - 1, by simp at hk'; omega⟩
    have hlen : r.text.length = a.length + 1 := by rw [ht]; simp
    have hat := at_lt r a [] ch ht
    have hstop : shrLoop r c (k' + 1) ([] ++ a).length = .ok a.length := by
      unfold shrLoop
      rw [List.nil_append, if_neg (by omega)]
    simp only [List.length_nil] at he
    rw [he, hstop]
    simp only [Except.bind, hat]
    exact ⟨_, by rw [decide_eq_false hch]⟩
  · obtain ⟨k', hk', he⟩ := shrLoop_skip r hr c hc hta [] ('(' :: (s ++ [')'])) r.text.length (by rw [ht]; rfl) (by simp)
      (by rw [ht]; simp)
    obtain ⟨k', rfl⟩ : ∃ k'', k' = k'' + 1 + 1 := ⟨k' - 2, by simp at hk'; omega⟩
    have hlen : r.text.length = a.length + s.length + 2 := by rw [ht]; simp; omega
    have hat := at_lt r a (s ++ [')']) '(' ht
    have hat2 := at_lt r (a ++ '(' :: s) [] ')' (by rw [ht]; simp)
    have hl2 : (a ++ '(' :: s).length = a.length + s.length + 1 := by simp; omega
    rw [hl2] at hat2
    have hstop : shrLoop r c (k' + 1 + 1) ([] ++ a).length = .ok (a.length + s.length + 1) := by
      unfold shrLoop
      rw [List.nil_append, if_pos (by omega), hat]
      simp only [Except.bind]
      rw [if_pos hc.1.symm, next_nest r hr '(' ')' (by decide) a s [] hs ht]
      dsimp only
      unfold shrLoop
      rw [if_neg (by omega)]
    simp only [List.length_nil] at he
    rw [he, hstop]
    simp only [Except.bind, hat2]
    exact ⟨_, by rw [decide_eq_false hc.2.symm]⟩

/-! ## `operator<<` -/

theorem prev_skip (r : Reader) {v : Str} (hv : Nest ')' '(' v) : ∀ (pre suf : Str) (d : ℕ), d ≠ 0 →
    r.text = pre ++ v.reverse ++ suf → prevLoop r '(' ')' (pre.length + v.length) d = prevLoop r '(' ')' pre.length d := by
  induction hv with
  | nil => intro pre suf d _ _; rfl
  | char ch t h1 h2 _ ih =>
    intro pre suf d hd ht
    have hat := at_lt r (pre ++ t.reverse) suf ch (by rw [ht]; simp)
    have hl : (pre ++ t.reverse).length = pre.length + t.length := by simp
    rw [hl] at hat
    rw [List.length_cons, ← Nat.add_assoc]
    conv_lhs => unfold prevLoop
    rw [if_neg hd, hat]
    simp only [Except.bind, if_neg h1, if_neg h2]
    exact ih pre (ch :: suf) d hd (by rw [ht]; simp)
  | group s t _ _ ihs iht =>
    intro pre suf d hd ht
    have ht' : r.text = pre ++ t.reverse ++ '(' :: (s.reverse ++ ')' :: suf) := by rw [ht]; simp
    have hat := at_lt r (pre ++ t.reverse ++ '(' :: s.reverse) suf ')' (by rw [ht']; simp)
    have hl : (pre ++ t.reverse ++ '(' :: s.reverse).length = pre.length + t.length + 1 + s.length := by simp; omega
    rw [hl] at hat
    have hat2 := at_lt r (pre ++ t.reverse) (s.reverse ++ ')' :: suf) '(' ht'
    have hl2 : (pre ++ t.reverse).length = pre.length + t.length := by simp
    rw [hl2] at hat2
    have hlen : pre.length + (')' :: (s ++ '(' :: t)).length = pre.length + t.length + 1 + s.length + 1 := by simp; omega
    rw [hlen]
    conv_lhs => unfold prevLoop
    rw [if_neg hd, hat]
    simp only [Except.bind, if_true]
    have h1 := ihs (pre ++ t.reverse ++ ['(']) (')' :: suf) (d + 1) (by omega) (by rw [ht']; simp)
    have hl3 : (pre ++ t.reverse ++ ['(']).length = pre.length + t.length + 1 := by simp; omega
    rw [hl3] at h1
    rw [h1]
    conv_lhs => unfold prevLoop
    rw [if_neg (by omega), hat2]
    simp only [Except.bind, if_true]
    rw [if_neg (by decide)]
    exact iht pre ('(' :: (s.reverse ++ ')' :: suf)) d hd (by rw [ht'])

/-- `Prev` at a closing parenthesis goes to the opening one. -/
theorem prev_nest (r : Reader) (pre s suf : Str) (hs : Nest '(' ')' s) (ht : r.text = pre ++ '(' :: (s ++ ')' :: suf)) :
    prev r '(' ')' (pre.length + s.length + 1) = .ok (pre.length, 0) := by
  have hat := at_lt r (pre ++ '(' :: s) suf ')' (by rw [ht]; simp)
  have hl : (pre ++ '(' :: s).length = pre.length + s.length + 1 := by simp; omega
  rw [hl] at hat
  unfold prev
  rw [hat]
  simp only [Except.bind, if_true]
  have h1 := prev_skip r hs.reverse (pre ++ ['(']) (')' :: suf) 1 (by simp) (by rw [ht]; simp)
  have hl2 : (pre ++ ['(']).length + s.reverse.length = pre.length + s.length + 1 := by simp; omega
  have hl3 : (pre ++ ['(']).length = pre.length + 1 := by simp
  rw [hl2, hl3] at h1
  rw [h1]
  have hat2 := at_lt r pre (s ++ ')' :: suf) '(' ht
  unfold prevLoop
  rw [if_neg (by simp), hat2]
  simp only [Except.bind]
  rw [if_neg (by decide), if_pos trivial]
  rcases pre.length with _ | k
  · rfl
  · simp [prevLoop]

theorem prev_other (r : Reader) (ch : Char) (pos : ℕ) (h : r.at pos = .ok ch) (hne : ch ≠ ')') :
    prev r '(' ')' pos = .ok (pos - 1, 0) := by
  unfold prev
  rw [h]
  simp only [Except.bind, if_neg hne]

theorem shlLoop_skip (r : Reader) (c : Char) (hc : c ≠ '(' ∧ c ≠ ')') :
    ∀ (n : ℕ) (a pre suf : Str) (k : ℕ), a.length ≤ n → Top (· ≠ c) a → r.text = pre ++ a ++ suf → pre ≠ [] →
      pre.length + a.length ≤ k →
      ∃ k', pre.length ≤ k' ∧ shlLoop r c k (pre.length + a.length - 1) = shlLoop r c k' (pre.length - 1) := by
  intro n
  induction n with
  | zero =>
    intro a pre suf k hn _ _ _ hk
    have : a = [] := List.length_eq_zero_iff.1 (Nat.le_zero.1 hn)
    subst this
    exact ⟨k, by simpa using hk, by simp⟩
  | succ n ih =>
    intro a pre suf k hn ha ht hpre hk
    have hpl : 0 < pre.length := List.length_pos_iff.2 hpre
    rcases ha.right with rfl | ⟨a', ch, rfl, hta, h1, h2, hch⟩ | ⟨a', s, rfl, hta, hs⟩
    · exact ⟨k, by simpa using hk, by simp⟩
    · obtain ⟨k, rfl⟩ : ∃ k', k = k' + 1 := ⟨k - 1, by omega⟩
      obtain ⟨k', hk', he⟩ := ih a' pre (ch :: suf) k (by simp at hn; omega) hta (by rw [ht]; simp) hpre
        (by simp at hk; omega)
      refine ⟨k', hk', ?_⟩
      have hat := at_lt r (pre ++ a') suf ch (by rw [ht]; simp)
      have hl : (pre ++ a').length = pre.length + a'.length := by simp
      rw [hl] at hat
      have hpos : pre.length + (a' ++ [ch]).length - 1 = pre.length + a'.length := by simp
      rw [hpos, ← he]
      conv_lhs => unfold shlLoop
      rw [if_pos (by omega), hat]
      simp only [Except.bind]
      rw [if_pos hch, prev_other r ch _ hat h2]
    · obtain ⟨k, rfl⟩ : ∃ k', k = k' + 1 + 1 := ⟨k - 2, by simp at hk; omega⟩
      obtain ⟨k', hk', he⟩ := ih a' pre ('(' :: (s ++ ')' :: suf)) k (by simp at hn; omega) hta (by rw [ht]; simp) hpre
        (by simp at hk; omega)
      refine ⟨k', hk', ?_⟩
      have hat := at_lt r (pre ++ a' ++ '(' :: s) suf ')' (by rw [ht]; simp)
      have hl : (pre ++ a' ++ '(' :: s).length = pre.length + a'.length + s.length + 1 := by simp; omega
      rw [hl] at hat
      have hat2 := at_lt r (pre ++ a') (s ++ ')' :: suf) '(' (by rw [ht]; simp)
      have hl2 : (pre ++ a').length = pre.length + a'.length := by simp
      rw [hl2] at hat2
      have hpos : pre.length + (a' ++ '(' :: (s ++ [')'])).length - 1 = pre.length + a'.length + s.length + 1 := by
        simp; omega
      have hprev := prev_nest r (pre ++ a') s suf hs (by rw [ht]; simp)
      rw [hl2] at hprev
      rw [hpos, ← he]
      conv_lhs => unfold shlLoop
      rw [if_pos (by omega), hat]
      simp only [Except.bind]
      rw [if_pos hc.2.symm, hprev]
      dsimp only
      conv_lhs => unfold shlLoop
      rw [if_pos (by omega), hat2]
      simp only [Except.bind]
      rw [if_pos hc.1.symm, prev_other r '(' _ hat2 (by decide)]

/-- The last `c` outside parentheses is found. -/
theorem shl_found (r : Reader) (c : Char) (hc : c ≠ '(' ∧ c ≠ ')') (a b : Str) (hb : Top (· ≠ c) b)
    (ht : r.text = a ++ c :: b) : shl r c = .ok (true, a.length) := by
  have hne : r.text.length ≠ 0 := by rw [ht]; simp
  have hlen : r.text.length - 1 = (a ++ [c]).length + b.length - 1 := by rw [ht]; simp
  obtain ⟨k', hk', he⟩ := shlLoop_skip r c hc b.length b (a ++ [c]) [] r.text.length (le_refl _) hb (by rw [ht]; simp)
    (by simp) (by rw [ht]; simp; omega)
  have hat := at_lt r a b c ht
  obtain ⟨k', rfl⟩ : ∃ k'', k' = k'' + 1 := ⟨k' - 1, by simp at hk'; omega⟩
  have hstop : shlLoop r c (k' + 1) ((a ++ [c]).length - 1) = .ok a.length := by
    have : (a ++ [c]).length - 1 = a.length := by simp
    rw [this]
    unfold shlLoop
    split
    · rw [hat]
      simp only [Except.bind]
      rw [if_neg (by simp)]
    · rfl
  unfold shl
  rw [if_neg hne, hlen, he, hstop]
  simp only [Except.bind, hat, decide_true]

/-- Without a `c` outside parentheses the search fails. -/
theorem shl_none (r : Reader) (c : Char) (hc : c ≠ '(' ∧ c ≠ ')') (ha : Top (· ≠ c) r.text) (hne : r.text ≠ []) :
    ∃ q, shl r c = .ok (false, q) := by
  have hne' : r.text.length ≠ 0 := by simpa using hne
  unfold shl
  rw [if_neg hne']
  cases h : r.text with
  | nil => exact absurd h hne
  | cons ch w =>
    rw [h] at ha
    cases ha with
    | char _ _ h1 h2 hch hw =>
      obtain ⟨k', hk', he⟩ := shlLoop_skip r c hc w.length w [ch] [] r.text.length (le_refl _) hw (by rw [h]; simp)
        (by simp) (by rw [h]; simp; omega)
      obtain ⟨k', rfl⟩ : ∃ k'', k' = k'' + 1 := ⟨k' - 1, by simp at hk'; omega⟩
      have hlen : (ch :: w).length - 1 = [ch].length + w.length - 1 := by simp
      have hat := at_lt r [] w ch h
      simp only [List.length_nil] at hat
      rw [← h] at hlen
      rw [← h, hlen, he]
      simp only [List.length_singleton, Nat.sub_self]
      unfold shlLoop
      rw [if_neg (by omega)]
      simp only [Except.bind, hat]
      exact ⟨_, by rw [decide_eq_false hch]⟩
    | group s t hs ht =>
      obtain ⟨k', hk', he⟩ := shlLoop_skip r c hc t.length t ('(' :: (s ++ [')'])) [] r.text.length (le_refl _) ht
        (by rw [h]; simp) (by simp) (by rw [h]; simp; omega)
      obtain ⟨k', rfl⟩ : ∃ k'', k' = k'' + 1 := ⟨k' - 1, by simp at hk'; omega⟩
      have hlen : ('(' :: (s ++ ')' :: t)).length - 1 = ('(' :: (s ++ [')'])).length + t.length - 1 := by simp; omega
      have hat := at_lt r [] (s ++ ')' :: t) '(' h
      simp only [List.length_nil] at hat
      have hat2 := at_lt r ('(' :: s) t ')' (by rw [h]; simp)
      have hl : ('(' :: s).length = s.length + 1 := by simp
      rw [hl] at hat2
      rw [← h] at hlen
      have hpos : ('(' :: (s ++ [')'])).length - 1 = s.length + 1 := by simp
      have hprev := prev_nest r [] s t hs h
      simp only [List.length_nil, Nat.zero_add] at hprev
      rw [← h, hlen, he, hpos]
      unfold shlLoop
      rw [if_pos (by omega), hat2]
      simp only [Except.bind]
      rw [if_pos hc.2.symm, hprev]
      dsimp only
      have hstop : shlLoop r c k' 0 = .ok 0 := by
        rcases k' with _ | k'
        · rfl
        · unfold shlLoop; rw [if_neg (by omega)]
      rw [hstop]
      dsimp only
      rw [hat]
      exact ⟨0, by dsimp only; rw [decide_eq_false hc.1.symm]⟩

end NimbleSM.Expr
