import Verif.Expr.Conventional

/-!
# Operators between texts, with blanks anywhere
-/

namespace NimbleSM.Expr

open NimbleSM.Parse

variable {K : Type} {A : Arith K}

theorem top_after_group {p : Char → Prop} {s t : Str} (hs : Nest '(' ')' s) (h : Top p ('(' :: (s ++ ')' :: t))) : Top p t := by
  generalize hg : '(' :: (s ++ ')' :: t) = g at h
  cases h with
  | nil => cases hg
  | char ch t' h1 _ _ _ => exact absurd (List.cons.inj hg).1.symm h1
  | group s' t' hs' ht' =>
    have hcl : ∀ {u : Str}, Nest '(' ')' u → Closed '(' ')' 1 (u ++ [')']) := fun hu =>
      hu.closed (by decide) 1 [')'] (by simp) ⟨by simp, by simp [depthStep, Closed]⟩
    have he : (s ++ [')']) ++ t = (s' ++ [')']) ++ t' := by simpa using (List.cons.inj hg).2
    have h1 := closed_unique (hcl hs) (hcl hs') he
    rw [h1] at he
    rw [List.append_cancel_left he]
    exact ht'

theorem top_and {p q : Char → Prop} {t : Str} (h : Top p t) : Top q t → Top (fun c => p c ∧ q c) t := by
  induction h with
  | nil => intro _; exact .nil
  | char ch t h1 h2 hp _ ih =>
    intro h
    generalize hg : ch :: t = g at h
    cases h with
    | nil => cases hg
    | char c' t' _ _ h5 h6 =>
      cases hg
      exact .char _ _ h1 h2 ⟨hp, h5⟩ (ih h6)
    | group s t _ _ => exact absurd (List.cons.inj hg).1 h1
  | group s t hs _ ih => intro h; exact .group s t hs (ih (top_after_group hs h))

/-- The last character: not an operator. -/
def Ends (t : Str) : Prop := ∃ a0 ch, t = a0 ++ [ch] ∧ (beforeNegation ch = false ∨ ch = 'e') ∧ ch ≠ '-' ∧ ch ≠ ' '

theorem Ends.append {t : Str} (h : Ends t) (a : Str) : Ends (a ++ t) := by
  obtain ⟨a0, ch, rfl, h1⟩ := h
  exact ⟨a ++ a0, ch, by simp, h1⟩

theorem SubFall.padRight {t j : Str} (h : SubFall t) (hj : Blank j) : SubFall (t ++ j) := h.append (hj.top (by decide))

theorem SubFall.padLeft {i t : Str} (h : SubFall t) (hi : Blank i) (hh : i = [] ∨ t.head? ≠ some '-') : SubFall (i ++ t) := by
  rcases hh with rfl | hh
  · exact h
  · cases h with
    | none _ h => exact .none _ ((hi.top (by decide)).append h)
    | lead m b hm hb => simp at hh
    | op a ch m b h1 h2 h3 h4 =>
      have := SubFall.op (i ++ a) ch m b h1 h2 h3 h4
      simpa using this

theorem numE_blank {a i : Str} (h : ¬ NumE a) (hi : Blank i) : ¬ NumE (a ++ i) := by
  rcases List.eq_nil_or_concat i with rfl | ⟨i', x, rfl⟩
  · simpa using h
  · rw [List.concat_eq_append] at *
    refine not_numE_last ?_
    rw [← List.append_assoc, List.getLast?_append, hi x (by simp)]
    simp

theorem numE_padLeft {i a : Str} (h : ¬ NumE a) (hi : Blank i) : ¬ NumE (i ++ a) := by
  rcases i with _ | ⟨x, i⟩
  · exact h
  · rw [hi x (by simp)]
    exact not_numE_of_mem (c := ' ') (by simp) (by decide)

theorem Trim.head_append {a b : Str} (ha : Trim a) : (a ++ b).head? = a.head? := by
  obtain ⟨c, a, rfl⟩ := List.exists_cons_of_ne_nil ha.1
  rfl

/-- A text that is parsed to `n` whatever blanks surround it. -/
def ParsesAll (A : Arith K) (t : Str) (n : Node K) : Prop := ∀ i j, Blank i → Blank j → Parses A (i ++ t ++ j) n

/-- The same for conditions. -/
def ParsesAllB (A : Arith K) (t : Str) (n : BNode K) : Prop := ∀ i j, Blank i → Blank j → ParsesB A (i ++ t ++ j) n

section
variable {a b i j : Str} {n na nb : Node K} {I : ℤ → Prop}

/-- From the body to the core, for an operator with its two operands. -/
theorem core_op {c : Char} {p : Char → Prop} (ha : Trim a) (hb : Trim b) (hta : Top p a) (hi : Blank i) (hp : p ' ')
    (hd : isDigit c = false) {Q : Str → Prop} (hQ : Q [])
    (hbody : ∀ i0 j0, Blank i0 → Blank j0 → Q i0 → Body A ((i0 ++ a ++ i) ++ c :: (j ++ b ++ j0)) n) :
    ∀ i0 j0, Blank i0 → Blank j0 → Q i0 → Core A (i0 ++ (a ++ i ++ c :: (j ++ b)) ++ j0) n I := by
  intro i0 j0 hi0 hj0 hq
  have e1 : ∀ i0 j0 : Str, i0 ++ (a ++ i ++ c :: (j ++ b)) ++ j0 = (i0 ++ a ++ i) ++ c :: (j ++ b ++ j0) := by
    intro i0 j0; simp
  have hopen : ∀ i0 j0 : Str, Blank i0 → Opened (i0 ++ (a ++ i ++ c :: (j ++ b)) ++ j0) := by
    intro i0 j0 hi0
    rw [e1]
    exact opened_op (((hi0.top hp).append hta).append (hi.top hp)) (by simp [ha.1]) (by simp)
  have ht : Trim (a ++ i ++ c :: (j ++ b)) := by
    have := trim_ends ha hb (i ++ c :: j)
    simpa using this
  refine core_of_body A hi0 hj0 ht (by simpa using hopen [] [] blank_nil)
    (by simpa using hbody [] [] blank_nil blank_nil hQ) (hopen i0 j0 hi0) (by rw [e1]; exact hbody i0 j0 hi0 hj0 hq) ?_
  rw [e1, integer_minus (by simp [ha.1]) hd]
  intro h; cases h

theorem mod_core (ha : Trim a) (hb : Trim b) (hta : Top N1 a) (htb : Top N2 b) (hi : Blank i) (hj : Blank j)
    (pa : ParsesAll A a na) (pb : ParsesAll A b nb) :
    ∀ i0 j0, Blank i0 → Blank j0 → Core A (i0 ++ (a ++ i ++ '%' :: (j ++ b)) ++ j0) (.bin .mod na nb) I := by
  intro i0 j0 hi0 hj0
  refine core_op (Q := fun _ => True) ha hb hta hi (by decide) (by decide) trivial ?_ i0 j0 hi0 hj0 trivial
  intro i0 j0 hi0 hj0 _
  exact body_mod A (((hi0.top (by decide)).append hta).append (hi.top (by decide)))
    (((hj.top (by decide)).append htb).append (hj0.top (by decide))) (pa i0 i hi0 hi) (pb j j0 hj hj0)

theorem add_core (ha : Trim a) (hb : Trim b) (hta : Top N2 a) (htb : Top N3 b) (hi : Blank i) (hj : Blank j)
    (hn : ¬ NumE a) (pa : ParsesAll A a na) (pb : ParsesAll A b nb) :
    ∀ i0 j0, Blank i0 → Blank j0 → Core A (i0 ++ (a ++ i ++ '+' :: (j ++ b)) ++ j0) (.bin .add na nb) I := by
  intro i0 j0 hi0 hj0
  refine core_op (Q := fun _ => True) ha hb hta hi (by decide) (by decide) trivial ?_ i0 j0 hi0 hj0 trivial
  intro i0 j0 hi0 hj0 _
  exact body_add A (((hi0.top (by decide)).append hta).append (hi.top (by decide)))
    (((hj.top (by decide)).append htb).append (hj0.top (by decide))) (by simp [ha.1])
    (numE_blank (numE_padLeft hn hi0) hi) (pa i0 i hi0 hi) (pb j j0 hj hj0)

theorem sub_core (ha : Trim a) (hb : Trim b) (hta : Top N3 a) (htb : Top N3 b) (hi : Blank i) (hj : Blank j)
    (he : Ends a) (hne : a.getLast? ≠ some 'e') (hm : MinusFirst b) (pa : ParsesAll A a na) (pb : ParsesAll A b nb) :
    ∀ i0 j0, Blank i0 → Blank j0 → Core A (i0 ++ (a ++ i ++ '-' :: (j ++ b)) ++ j0) (.bin .sub na nb) I := by
  intro i0 j0 hi0 hj0
  refine core_op (Q := fun _ => True) ha hb hta hi (by decide) (by decide) trivial ?_ i0 j0 hi0 hj0 trivial
  intro i0 j0 hi0 hj0 _
  obtain ⟨a0, ch, rfl, hch, hch'⟩ := he
  obtain ⟨m, b', rfl, hms, hb'⟩ := hm
  have hch1 : beforeNegation ch = false := by
    rcases hch with h | rfl
    · exact h
    · simp at hne
  have e : (i0 ++ (a0 ++ [ch]) ++ i) ++ '-' :: (j ++ (m ++ b') ++ j0) = ((i0 ++ a0) ++ ch :: i) ++ '-' :: ((j ++ m) ++ (b' ++ j0)) := by
    simp
  have e1 : i0 ++ (a0 ++ [ch]) ++ i = (i0 ++ a0) ++ ch :: i := by simp
  have e2 : j ++ (m ++ b') ++ j0 = (j ++ m) ++ (b' ++ j0) := by simp
  have h1 := pa i0 i hi0 hi
  have h2 := pb j j0 hj hj0
  rw [e1] at h1
  rw [e2] at h2
  rw [e]
  have htop1 : Top N3 ((i0 ++ a0) ++ ch :: i) := by
    rw [← e1]; exact ((hi0.top (by decide)).append hta).append (hi.top (by decide))
  have htb' : Top N3 b' := by
    have key : ∀ (m : Str), Signs m → Top N3 (m ++ b') → Top N3 b' := by
      intro m hm
      induction m with
      | nil => intro h; exact h
      | cons c m ih =>
        intro h
        refine ih (fun x hx => hm x (by simp [hx])) ?_
        have hcm := hm c (by simp)
        rw [List.cons_append] at h
        generalize hg : c :: (m ++ b') = g at h
        cases h with
        | nil => cases hg
        | char ch t _ _ _ h => cases hg; exact h
        | group s t _ _ =>
          have hg1 := (List.cons.inj hg).1
          rw [hg1] at hcm
          rcases hcm with h | h <;> exact absurd h (by decide)
    exact key m hms htb
  refine body_sub A hch1 hch' hi htop1 (fun c hc => ?_) (htb'.append (hj0.top (by decide))) (hb'.append (hj0.top (by decide)))
    ?_ h1 h2
  · simp only [List.mem_append] at hc
    rcases hc with hc | hc
    · exact Or.inr (hj c hc)
    · exact hms c hc
  · rw [← e1]
    exact numE_blank (numE_padLeft (not_numE_last hne) hi0) hi

theorem subFall_op {c : Char} (hsa : SubFall a) (hsb : SubFall b) (hi : Blank i) (hj : Blank j) (hc : c = '*' ∨ c = '/' ∨ c = '^') :
    SubFall (a ++ i ++ c :: (j ++ b)) := by
  refine SubFall.operator (hsa.padRight hi) hsb hj ?_ ?_ <;> rcases hc with rfl | rfl | rfl <;> decide

theorem subFall_pad {c : Char} (ha : Trim a) (hsa : SubFall a) (hsb : SubFall b) (hi : Blank i) (hj : Blank j) (hc : c = '*' ∨ c = '/' ∨ c = '^')
    {i0 j0 : Str} (hi0 : Blank i0) (hj0 : Blank j0) (h : i0 = [] ∨ a.head? ≠ some '-') :
    SubFall ((i0 ++ a ++ i) ++ c :: (j ++ b ++ j0)) := by
  have h1 := (subFall_op hsa hsb hi hj hc).padRight hj0
  have h2 := h1.padLeft hi0 (by
    rcases h with h | h
    · exact Or.inl h
    · right
      rw [List.append_assoc, List.append_assoc, ha.head_append]
      exact h)
  simpa using h2

theorem mul_core (ha : Trim a) (hb : Trim b) (hta : Top N3 a) (htb : Top N4 b) (hi : Blank i) (hj : Blank j)
    (hsa : SubFall a) (hsb : SubFall b) (pa : ParsesAll A a na) (pb : ParsesAll A b nb) :
    ∀ i0 j0, Blank i0 → Blank j0 → (i0 = [] ∨ a.head? ≠ some '-') →
      Core A (i0 ++ (a ++ i ++ '*' :: (j ++ b)) ++ j0) (.bin .mul na nb) I := by
  refine core_op (Q := fun i0 => i0 = [] ∨ a.head? ≠ some '-') ha hb hta hi (by decide) (by decide) (Or.inl rfl) ?_
  intro i0 j0 hi0 hj0 hq
  exact body_mul A (((hi0.top (by decide)).append hta).append (hi.top (by decide)))
    (((hj.top (by decide)).append htb).append (hj0.top (by decide))) (subFall_pad ha hsa hsb hi hj (by simp) hi0 hj0 hq)
    (pa i0 i hi0 hi) (pb j j0 hj hj0)

theorem div_core (ha : Trim a) (hb : Trim b) (hta : Top N4 a) (htb : Top N5 b) (hi : Blank i) (hj : Blank j)
    (hsa : SubFall a) (hsb : SubFall b) (pa : ParsesAll A a na) (pb : ParsesAll A b nb) :
    ∀ i0 j0, Blank i0 → Blank j0 → (i0 = [] ∨ a.head? ≠ some '-') →
      Core A (i0 ++ (a ++ i ++ '/' :: (j ++ b)) ++ j0) (.bin .div na nb) I := by
  refine core_op (Q := fun i0 => i0 = [] ∨ a.head? ≠ some '-') ha hb hta hi (by decide) (by decide) (Or.inl rfl) ?_
  intro i0 j0 hi0 hj0 hq
  exact body_div A (((hi0.top (by decide)).append hta).append (hi.top (by decide)))
    (((hj.top (by decide)).append htb).append (hj0.top (by decide))) (subFall_pad ha hsa hsb hi hj (by simp) hi0 hj0 hq)
    (pa i0 i hi0 hi) (pb j j0 hj hj0)

theorem pow_core {I' : ℤ → Prop} (ha : Trim a) (hb : Trim b) (hta : Top N6 a) (htb : Top N5 b) (hi : Blank i) (hj : Blank j)
    (hsa : SubFall a) (hsb : SubFall b) (hh : a.head? ≠ some '-') (pa : ParsesAll A a na) (cb : Core A b nb I) :
    ∃ n : Node K, (n = .bin .pow na nb ∨ ∃ v, I v ∧ n = .powi na (toInt32 v)) ∧
      ∀ i0 j0, Blank i0 → Blank j0 → Core A (i0 ++ (a ++ i ++ '^' :: (j ++ b)) ++ j0) n I' := by
  obtain ⟨u, hu, -, hp, hint⟩ := cb
  refine ⟨if isInteger u then .powi na (integerOf u) else .bin .pow na nb, ?_, fun i0 j0 hi0 hj0 => ?_⟩
  · by_cases hi : isInteger u = true
    · obtain ⟨v, hv, he⟩ := hint hi
      exact Or.inr ⟨v, hv, by rw [if_pos hi, he]⟩
    · exact Or.inl (if_neg hi)
  · refine core_op (Q := fun _ => True) ha hb hta hi (by decide) (by decide) trivial ?_ i0 j0 hi0 hj0 trivial
    intro i0 j0 hi0 hj0 _
    exact body_pow_strips A hj hj0 (((hi0.top (by decide)).append hta).append (hi.top (by decide)))
      (((hj.top (by decide)).append htb).append (hj0.top (by decide)))
      (subFall_pad ha hsa hsb hi hj (by simp) hi0 hj0 (Or.inr hh)) (pa i0 i hi0 hi) hb hu hp

theorem cond_core {c k l : Str} {nc : BNode K} (hc : Trim c) (hb : Trim b) (htc : Top N1 c) (hi : Blank i) (hj : Blank j)
    (hk : Blank k) (hl : Blank l) (hna : Nest '?' ':' a) (pc : ParsesAllB A c nc) (pa : ParsesAll A a na) (pb : ParsesAll A b nb) :
    ∀ i0 j0, Blank i0 → Blank j0 →
      Core A (i0 ++ (c ++ i ++ '?' :: (j ++ a ++ k ++ ':' :: (l ++ b))) ++ j0) (.cond nc na nb) I := by
  intro i0 j0 hi0 hj0
  have h := core_op (A := A) (a := c) (b := b) (i := i) (j := j ++ a ++ k ++ ':' :: l) (c := '?') (I := I) (n := .cond nc na nb)
    (Q := fun _ => True) hc hb htc hi (by decide) (by decide) trivial ?_ i0 j0 hi0 hj0 trivial
  · have e : i0 ++ (c ++ i ++ '?' :: (j ++ a ++ k ++ ':' :: (l ++ b))) ++ j0 =
        i0 ++ (c ++ i ++ '?' :: (j ++ a ++ k ++ ':' :: l ++ b)) ++ j0 := by simp
    rw [e]; exact h
  · intro i0 j0 hi0 hj0 _
    have h := body_cond A (((hi0.top (by decide)).append htc).append (hi.top (by decide)))
      ((hj.nestQ.append hna).append hk.nestQ) (pc i0 i hi0 hi) (pa j k hj hk) (pb l j0 hl hj0)
    have e : i0 ++ c ++ i ++ '?' :: (j ++ a ++ k ++ ':' :: l ++ b ++ j0) =
        i0 ++ c ++ i ++ '?' :: (j ++ a ++ k ++ ':' :: (l ++ b ++ j0)) := by simp
    rw [e]; exact h

end

section
variable {a b i j : Str} {n : BNode K}

/-- The same for conditions. -/
theorem coreB_op {w : Str} {p : Char → Prop} (ha : Trim a) (hta : Top p a) (hi : Blank i) (hp : p ' ') (hw : w ≠ [])
    (hbody : ∀ i0 j0, Blank i0 → Blank j0 → BodyB A ((i0 ++ a ++ i) ++ (w ++ (j ++ b ++ j0))) n) :
    ∀ i0 j0, Blank i0 → Blank j0 → CoreB A (i0 ++ (a ++ i ++ (w ++ (j ++ b))) ++ j0) n := by
  intro i0 j0 hi0 hj0
  have e1 : i0 ++ (a ++ i ++ (w ++ (j ++ b))) ++ j0 = (i0 ++ a ++ i) ++ (w ++ (j ++ b ++ j0)) := by simp
  rw [e1]
  exact ⟨_, (opened_op (((hi0.top hp).append hta).append (hi.top hp)) (by simp [ha.1]) (by simp [hw])).strips, hbody i0 j0 hi0 hj0⟩

end

end NimbleSM.Expr
