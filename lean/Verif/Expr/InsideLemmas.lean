import Verif.Expr.ReaderLemmas

/-!
# No stage of the parser reads outside the buffer or goes on forever

Stage by stage, for an error `e` other than `invalid`, under the assumption that the recursive calls on shorter
readers do not end in `e`.
-/

namespace NimbleSM.Expr

variable {K : Type}

/-- What holds of a reader given to `ParseEquation`. -/
structure Inv (Q : Char → Prop) (r : Reader) : Prop where
  after : r.after ≠ []
  chars : ∀ c ∈ r.text ++ r.after, Q c
  opn : r.after.head? = some '^' → Opn r.text

/-- What holds of a reader given to `ParseBooleanExpression`. -/
structure InvB (Q : Char → Prop) (r : Reader) : Prop where
  after : r.after ≠ []
  chars : ∀ c ∈ r.text ++ r.after, Q c
  opn : Opn r.text
  mark : '?' ∈ r.after

variable {Q : Char → Prop}

theorem InvB.inv {r : Reader} (h : InvB Q r) : Inv Q r := ⟨h.after, h.chars, fun _ => h.opn⟩

/-! ## Results -/

theorem bind_ne {α β : Type} {e : Err} {x : Res α} {f : α → Res β} (h : x ≠ .error e)
    (hf : ∀ a, x = .ok a → f a ≠ .error e) : x.bind f ≠ .error e := by
  cases x with
  | error e' => intro h'; exact h (by simpa [Except.bind] using h')
  | ok a => exact hf a rfl

theorem at_ne_fuel (r : Reader) (i : ℕ) : r.at i ≠ .error .fuel := by
  unfold Reader.at
  split <;> simp

theorem sub_ne_fuel (r : Reader) (a b : ℕ) : r.sub a b ≠ .error .fuel := by
  unfold Reader.sub
  split <;> simp

theorem sub_ok (r : Reader) (a b : ℕ) (h : a ≤ b) (hb : b ≤ r.text.length) :
    r.sub a b = .ok ⟨(r.text.drop a).take (b - a), r.text.drop b ++ r.after⟩ := by
  unfold Reader.sub
  rw [if_pos ⟨h, hb⟩]

theorem sub_inv (r r' : Reader) (a b : ℕ) (h : r.sub a b = .ok r') :
    a ≤ b ∧ b ≤ r.text.length ∧ r' = ⟨(r.text.drop a).take (b - a), r.text.drop b ++ r.after⟩ := by
  unfold Reader.sub at h
  split at h
  · next hab => cases h; exact ⟨hab.1, hab.2, rfl⟩
  · cases h

/-! ## Sub-readers -/

theorem sub_chars {r : Reader} (h : ∀ c ∈ r.text ++ r.after, Q c) (a b : ℕ) (hab : a ≤ b) :
    ∀ c ∈ (r.text.drop a).take (b - a) ++ (r.text.drop b ++ r.after), Q c := by
  intro c hc
  apply h
  simp only [List.mem_append] at hc ⊢
  rcases hc with hc | hc | hc
  · exact Or.inl (List.mem_of_mem_drop (List.mem_of_mem_take hc))
  · exact Or.inl (List.mem_of_mem_drop hc)
  · exact Or.inr hc

/-- A suffix of a text. -/
theorem inv_suffix {r r' : Reader} (h : Inv Q r) (a : ℕ) (hs : r.sub a r.text.length = .ok r') :
    Inv Q r' ∧ r'.text.length = r.text.length - a := by
  obtain ⟨ha, _, rfl⟩ := sub_inv _ _ _ _ hs
  have ht : (r.text.drop a).take (r.text.length - a) = r.text.drop a :=
    List.take_of_length_le (by rw [List.length_drop])
  refine ⟨⟨by simp [h.after], sub_chars h.chars _ _ ha, fun hh => ?_⟩, by simp⟩
  dsimp only
  rw [ht]
  have : Opn (r.text.take a ++ r.text.drop a) := by
    rw [List.take_append_drop]
    apply h.opn
    simpa using hh
  exact this.suffix

/-- A piece followed by a character other than `^`. -/
theorem inv_piece {r r' : Reader} (h : Inv Q r) (a b : ℕ) (c : Char) (hc : c ≠ '^')
    (hs : r.sub a b = .ok r') (hb : r.at b = .ok c) : Inv Q r' ∧ r'.text.length = b - a := by
  obtain ⟨ha, hbl, rfl⟩ := sub_inv _ _ _ _ hs
  refine ⟨⟨by simp [h.after], sub_chars h.chars _ _ ha, fun hh => ?_⟩, by simp; omega⟩
  exfalso
  have hdrop : r.text.drop b ++ r.after = (r.text ++ r.after).drop b := by
    rw [List.drop_append_of_le_length hbl]
  dsimp only at hh
  rw [hdrop, List.head?_drop] at hh
  unfold Reader.at at hb
  rw [hh] at hb
  simp only [Except.ok.injEq] at hb
  exact hc hb.symm

/-- A prefix without unmatched opening parentheses. -/
theorem inv_prefix {r r' : Reader} (h : Inv Q r) (p : ℕ) (hp : Opn (r.text.take p))
    (hs : r.sub 0 p = .ok r') : Inv Q r' ∧ r'.text.length = p := by
  obtain ⟨ha, hbl, rfl⟩ := sub_inv _ _ _ _ hs
  refine ⟨⟨by simp [h.after], sub_chars h.chars _ _ ha, fun hh => ?_⟩, by simp; omega⟩
  simpa using hp

theorem invB_prefix {r r' : Reader} (h : InvB Q r) (p : ℕ) (hp : Opn (r.text.take p))
    (hs : r.sub 0 p = .ok r') : InvB Q r' ∧ r'.text.length = p := by
  obtain ⟨ha, hbl, rfl⟩ := sub_inv _ _ _ _ hs
  refine ⟨⟨by simp [h.after], sub_chars h.chars _ _ ha, ?_, by simp [h.mark]⟩, by simp; omega⟩
  simpa using hp

theorem invB_suffix {r r' : Reader} (h : InvB Q r) (a : ℕ) (hs : r.sub a r.text.length = .ok r') :
    InvB Q r' ∧ r'.text.length = r.text.length - a := by
  obtain ⟨ha, _, rfl⟩ := sub_inv _ _ _ _ hs
  have ht : (r.text.drop a).take (r.text.length - a) = r.text.drop a :=
    List.take_of_length_le (by rw [List.length_drop])
  refine ⟨⟨by simp [h.after], sub_chars h.chars _ _ ha, ?_, by simp [h.mark]⟩, by simp⟩
  dsimp only
  rw [ht]
  have : Opn (r.text.take a ++ r.text.drop a) := by
    rw [List.take_append_drop]
    exact h.opn
  exact this.suffix

/-- What is left of a character found from the right has no unmatched opening parenthesis. -/
theorem opn_left {t : Str} {p : ℕ} {c : Char} (h : Opn t) (ht : t[p]? = some c) (hc : c ≠ '(' ∧ c ≠ ')')
    (hp : p = 0 ∨ (ubFrom (0, 0) (t.drop (p + 1))).1 = 0) : Opn (t.take p) := by
  rcases hp with rfl | hp
  · simp [Opn, ubFrom]
  · obtain ⟨hlt, hget⟩ := List.getElem?_eq_some_iff.1 ht
    have hsplit : t = t.take p ++ c :: t.drop (p + 1) := by
      rw [← hget, List.getElem_cons_drop, List.take_append_drop]
    have h2 : Opn (t.drop (p + 1)) := by
      have h' := h
      rw [hsplit] at h'
      exact (Opn.suffix (a := [c]) (Opn.suffix h'))
    unfold Opn at h h2 ⊢
    rw [hsplit, ubFrom_append, ubFrom_cons] at h
    have h0 : ubFrom (0, 0) (t.drop (p + 1)) = (0, 0) := Prod.ext hp h2
    rw [h0] at h
    simpa [ubStep, hc.1, hc.2] using h

theorem at_getElem? {r : Reader} {p : ℕ} {c : Char} (h : r.at p = .ok c) (hp : p < r.text.length) :
    r.text[p]? = some c := by
  unfold Reader.at at h
  rw [List.getElem?_append_left hp] at h
  split at h
  · next c' h' => cases h; exact h'
  · cases h

/-! ## Formatting -/

theorem removeWhitespace_spec (r : Reader) (ht : r.text ≠ []) :
    ∃ pre bl, r.text = pre ++ (removeWhitespace r).text ++ bl ∧ (∀ c ∈ bl, c = ' ') ∧
      (removeWhitespace r).after = bl ++ r.after ∧ (removeWhitespace r).text ≠ [] := by
  unfold removeWhitespace
  split
  · exact ⟨[], [], by simp, by simp, by simp, ht⟩
  · dsimp only
    by_cases hall : r.text.all (· = ' ') = true
    · rw [if_pos hall]
      have h1 : ([' '].reverse.dropWhile (fun c => decide (c = ' '))).reverse = [] := by decide
      have h1' : (([' '] : Str).reverse.dropWhile (fun x => decide (x = ' '))).reverse = [] := h1
      rw [h1']
      simp only [if_true]
      refine ⟨r.text.dropLast, [], ?_, by simp, by simp, by simp⟩
      have h2 : r.text.getLast ht = ' ' := by
        simpa using (List.all_eq_true.1 hall) _ (List.getLast_mem ht)
      rw [List.append_nil, ← h2, List.dropLast_concat_getLast]
    · rw [if_neg hall]
      set front := r.text.dropWhile (fun x => decide (x = ' ')) with hfront
      set kept := (front.reverse.dropWhile (fun x => decide (x = ' '))).reverse with hkept
      have hf1 : r.text = r.text.takeWhile (fun x => decide (x = ' ')) ++ front :=
        (List.takeWhile_append_dropWhile).symm
      have hf2 : front = kept ++ (front.reverse.takeWhile (fun x => decide (x = ' '))).reverse := by
        rw [hkept, ← List.reverse_append, List.takeWhile_append_dropWhile, List.reverse_reverse]
      have hk : kept ≠ [] := by
        intro hk
        apply hall
        rw [List.all_eq_true]
        intro c hc
        rw [hf1, List.mem_append] at hc
        rcases hc with hc | hc
        · exact List.mem_takeWhile_imp (p := fun x => decide (x = ' ')) hc
        · rw [hf2, hk, List.nil_append, List.mem_reverse] at hc
          exact List.mem_takeWhile_imp (p := fun x => decide (x = ' ')) hc
      rw [if_neg hk]
      refine ⟨r.text.takeWhile (fun x => decide (x = ' ')), (front.reverse.takeWhile (fun x => decide (x = ' '))).reverse, ?_, ?_, ?_, hk⟩
      · rw [List.append_assoc, ← hf2]
        exact hf1
      · intro c hc
        rw [List.mem_reverse] at hc
        simpa using List.mem_takeWhile_imp hc
      · have : front.drop kept.length = (front.reverse.takeWhile (fun x => decide (x = ' '))).reverse := by
          conv_lhs => rw [hf2]
          simp
        rw [this]

theorem closed_init {w : Str} {d : ℕ} (h : Closed '(' ')' d (w ++ [')'])) :
    ubFrom (0, 0) w = (d - 1, 0) := by
  induction w generalizing d with
  | nil =>
    obtain ⟨h1, h2⟩ := h
    simp only [Closed, depthStep] at h2
    have h3 : d - 1 = 0 := by simpa using h2
    rw [h3]
    rfl
  | cons a w ih =>
    obtain ⟨h1, h2⟩ := h
    have h3 := ih h2
    rw [ubFrom_cons, h3]
    have hne : depthStep '(' ')' a d ≠ 0 := by
      rcases w with _ | ⟨b, w⟩
      · exact h2.1
      · exact h2.1
    unfold ubStep depthStep at *
    split_ifs at * <;> simp_all <;> omega

theorem removeParens_spec (n : ℕ) (r : Reader) (hr : r.after ≠ []) :
    ∃ r', removeParens n r = .ok r' ∧ r'.text.length ≤ r.text.length ∧
      (Inv Q r → Inv Q r') ∧ (InvB Q r → InvB Q r') := by
  induction n generalizing r with
  | zero => exact ⟨r, rfl, le_refl _, id, id⟩
  | succ n ih =>
    obtain ⟨ch, hch, _⟩ := at_ok r hr 0 (Nat.zero_le _)
    unfold removeParens
    rw [hch]
    simp only [Except.bind]
    by_cases ho : ch = '('
    · subst ho
      rw [if_pos rfl]
      rcases hw : r.text with _ | ⟨c0, w⟩
      · have : next r '(' ')' 0 = .ok (0, 1) := by
          unfold next
          rw [hch]
          simp [Except.bind, hw, nextLoop]
        rw [this]
        simp only [List.length_nil]
        exact ⟨r, rfl, by simp [hw], id, id⟩
      · have hc0 : c0 = '(' := by
          have := at_lt r [] w c0 (by simp [hw])
          simp only [List.length_nil] at this
          rw [hch] at this
          simpa using this.symm
        subst hc0
        rcases next_open r hr '(' ')' [] w (by simp [hw]) with ⟨w1, w2, hww, hne, hcl, he⟩ | ⟨_, d', he⟩
        · simp only [List.length_nil] at he
          rw [he]
          simp only [List.length_cons]
          by_cases hq : 0 + w1.length + 1 = w.length + 1
          · rw [if_pos hq]
            have hw2 : w2 = [] := by
              rw [hww] at hq
              simp at hq
              exact hq
            obtain ⟨w0, rfl⟩ := closed_last (by decide) hcl (by simp)
            subst hw2
            simp only [List.append_nil] at hww
            subst hww
            have hs : r.sub 1 ((w0 ++ [')']).length + 1 - 1) = .ok ⟨w0, ')' :: r.after⟩ := by
              rw [sub_ok r _ _ (by simp) (by rw [hw]; simp)]
              congr 2
              · rw [hw]; simp
              · rw [hw]; simp
            rw [hs]
            obtain ⟨r', hr', hl, hi, hb⟩ := ih ⟨w0, ')' :: r.after⟩ (by simp)
            refine ⟨r', hr', by simp at hl ⊢; omega, fun h => hi ⟨by simp, ?_, by simp⟩, fun h => hb ⟨by simp, ?_, ?_, ?_⟩⟩
            · intro c hc
              apply h.chars
              rw [hw]
              simp at hc ⊢
              tauto
            · intro c hc
              apply h.chars
              rw [hw]
              simp at hc ⊢
              tauto
            · unfold Opn
              dsimp only
              rw [closed_init hcl]
            · simp [h.mark]
          · rw [if_neg hq]
            exact ⟨r, rfl, by simp [hw], id, id⟩
        · simp only [List.length_nil] at he
          rw [he]
          simp only [hw, List.length_cons]
          rw [if_neg (by omega)]
          exact ⟨r, rfl, by simp [hw], id, id⟩
    · rw [if_neg ho]
      exact ⟨r, rfl, le_refl _, id, id⟩

theorem format_spec (r : Reader) (hr : r.after ≠ []) :
    ∃ r', format r = .ok r' ∧ r'.text.length ≤ r.text.length ∧
      (Inv Q r → Inv Q r') ∧ (InvB Q r → InvB Q r') := by
  unfold format
  split
  · exact ⟨r, rfl, le_refl _, id, id⟩
  · next ht =>
    obtain ⟨pre, bl, htext, hbl, hafter, hne⟩ := removeWhitespace_spec r ht
    obtain ⟨r', hr', hl, hi, hb⟩ := removeParens_spec (Q := Q) ((removeWhitespace r).text.length + 1)
      (removeWhitespace r) (by rw [hafter]; simp [hr])
    have hlen : (removeWhitespace r).text.length ≤ r.text.length := by
      have := congrArg List.length htext
      simp only [List.length_append] at this
      omega
    have hchars : (∀ c ∈ r.text ++ r.after, Q c) →
        ∀ c ∈ (removeWhitespace r).text ++ (removeWhitespace r).after, Q c := by
      intro h c hc
      apply h
      rw [htext, hafter] at *
      simp only [List.mem_append] at hc ⊢
      tauto
    refine ⟨r', hr', by omega, fun h => hi ⟨by rw [hafter]; simp [hr], hchars h.chars, fun hh => ?_⟩,
      fun h => hb ⟨by rw [hafter]; simp [hr], hchars h.chars, ?_, by rw [hafter]; simp [h.mark]⟩⟩
    · rcases bl with _ | ⟨b, bl⟩
      · have h1 : Opn r.text := h.opn (by rw [hafter] at hh; simpa using hh)
        rw [htext, List.append_nil] at h1
        exact h1.suffix
      · rw [hafter] at hh
        have := hbl b (by simp)
        subst this
        simp at hh
    · have h1 := h.opn
      rw [htext, List.append_assoc] at h1
      have h2 := h1.suffix
      unfold Opn at h2 ⊢
      rw [ubFrom_append, ubFrom_neutral _ bl] at h2
      · exact h2
      · intro c hc
        rw [hbl c hc]
        decide

end NimbleSM.Expr
