import Verif.Expr.InsideLemmas

/-! # Stages of the parser: no error `e` other than `invalid` arises (see `InsideLemmas`) -/

namespace NimbleSM.Expr

variable {K : Type} {Q : Char → Prop} {e : Err}

/-- The recursive calls on shorter readers do not end in `e`. -/
def CallsOk (Q : Char → Prop) (e : Err) (n : ℕ) (pe : Reader → Res (Node K)) : Prop :=
  ∀ r', r'.text.length < n → Inv Q r' → pe r' ≠ .error e

/-- The same for conditions. -/
def CallsOkB (Q : Char → Prop) (e : Err) (n : ℕ) (pb : Reader → Res (BNode K)) : Prop :=
  ∀ r', r'.text.length < n → InvB Q r' → pb r' ≠ .error e

theorem ok_ne {α : Type} (a : α) : (Except.ok a : Res α) ≠ .error e := by simp

/-- Splitting at a character other than `^`. -/
theorem split2_ne {pe : Reader → Res (Node K)} {r : Reader} (h : Inv Q r) (hpe : CallsOk Q e r.text.length pe)
    (p : ℕ) (hp : p < r.text.length) (c : Char) (hc : c ≠ '^') (hat : r.at p = .ok c) :
    split2 pe r p 1 ≠ .error e := by
  unfold split2
  have h1 := sub_ok r 0 p (Nat.zero_le _) (le_of_lt hp)
  have h2 := sub_ok r (p + 1) r.text.length hp (le_refl _)
  obtain ⟨i1, l1⟩ := inv_piece h 0 p c hc h1 hat
  obtain ⟨i2, l2⟩ := inv_suffix h (p + 1) h2
  rw [h1]
  refine bind_ne (ok_ne _) fun l hl => ?_
  cases hl
  refine bind_ne (hpe _ (by rw [l1]; omega) i1) fun a _ => ?_
  rw [h2]
  refine bind_ne (ok_ne _) fun s hs => ?_
  cases hs
  exact bind_ne (hpe _ (by rw [l2]; omega) i2) fun b _ => ok_ne _

theorem binStage_ne {pe : Reader → Res (Node K)} {r : Reader} (h : Inv Q r) (ht : r.text ≠ [])
    (hpe : CallsOk Q e r.text.length pe) (c : Char) (hc : c ≠ '(') (hc' : c ≠ '^') (o : Op)
    (k : Res (Option (Node K))) (hk : k ≠ .error e) : binStage pe r c o k ≠ .error e := by
  obtain ⟨b, p, hs, hp, hat, _⟩ := shl_ok r h.after c hc ht
  unfold binStage
  rw [hs]
  refine bind_ne (ok_ne _) fun f hf => ?_
  cases hf
  dsimp only
  split
  · next hb => exact bind_ne (split2_ne h hpe p hp c hc' (hat hb)) fun ab _ => ok_ne _
  · exact hk

theorem backOver_ok (r : Reader) (hr : r.after ≠ []) (p : ℕ) (hp : p ≤ r.text.length) :
    ∃ q, backOver r p = .ok q ∧ q ≤ p := by
  induction p with
  | zero => exact ⟨0, rfl, le_refl _⟩
  | succ p ih =>
    obtain ⟨ch, hch, _⟩ := at_ok r hr (p + 1) hp
    unfold backOver
    rw [hch]
    simp only [Except.bind]
    split
    · obtain ⟨q, hq, hle⟩ := ih (by omega)
      exact ⟨q, hq, by omega⟩
    · exact ⟨p + 1, rfl, le_refl _⟩

theorem forwardMinus_ok (r : Reader) (hr : r.after ≠ []) (p : ℕ) (hp : p < r.text.length) (hat : r.at p = .ok '-') :
    ∀ (k pos : ℕ), pos ≤ p → p < pos + k → ∃ q, forwardMinus r k pos = .ok q ∧ q ≤ p ∧ r.at q = .ok '-' := by
  intro k
  induction k with
  | zero => intro pos h1 h2; omega
  | succ k ih =>
    intro pos h1 h2
    obtain ⟨ch, hch, _⟩ := at_ok r hr pos (by omega)
    unfold forwardMinus
    rw [hch]
    simp only [Except.bind]
    by_cases hm : ch = '-'
    · rw [if_pos hm]
      exact ⟨pos, rfl, h1, by rw [hch, hm]⟩
    · rw [if_neg hm]
      have : pos ≠ p := by
        rintro rfl
        rw [hch] at hat
        simp only [Except.ok.injEq] at hat
        exact hm hat
      exact ih (pos + 1) (by omega) (by omega)

theorem subStage_ne {pe : Reader → Res (Node K)} {r : Reader} (h : Inv Q r) (ht : r.text ≠ [])
    (hpe : CallsOk Q e r.text.length pe) (k : Res (Option (Node K))) (hk : k ≠ .error e) :
    subStage pe r k ≠ .error e := by
  obtain ⟨b, p, hs, hp, hat, _⟩ := shl_ok r h.after '-' (by decide) ht
  unfold subStage
  rw [hs]
  refine bind_ne (ok_ne _) fun f hf => ?_
  cases hf
  dsimp only
  split
  · next hb =>
    obtain ⟨q, hq, hle⟩ := backOver_ok r h.after p (le_of_lt hp)
    rw [hq]
    refine bind_ne (ok_ne _) fun q' hq' => ?_
    cases hq'
    obtain ⟨ch, hch, _⟩ := at_ok r h.after q (by omega)
    rw [hch]
    refine bind_ne (ok_ne _) fun c' hc' => ?_
    cases hc'
    split
    · obtain ⟨p', hp', hle', hat'⟩ := forwardMinus_ok r h.after p hp (hat hb) (r.text.length + 1) q hle (by omega)
      rw [hp']
      refine bind_ne (ok_ne _) fun p'' hp'' => ?_
      cases hp''
      exact bind_ne (split2_ne h hpe p' (by omega) '-' (by decide) hat') fun ab _ => ok_ne _
    · exact hk
  · exact hk

theorem powStage_ne {pe : Reader → Res (Node K)} {r : Reader} (h : Inv Q r) (ht : r.text ≠ [])
    (hpe : CallsOk Q e r.text.length pe) (k : Res (Option (Node K))) (hk : k ≠ .error e) :
    powStage pe r k ≠ .error e := by
  obtain ⟨b, p, hs, hp, hat, hopn, hend⟩ := shr_ok r h.after '^' (by decide) ht
  unfold powStage
  rw [hs]
  refine bind_ne (ok_ne _) fun f hf => ?_
  cases hf
  dsimp only
  split
  · next hb =>
    have hlt : p < r.text.length := by
      rcases Nat.lt_or_ge p r.text.length with hlt | hge
      · exact hlt
      · exfalso
        have hpe' : p = r.text.length := le_antisymm hp hge
        apply hend hpe'
        apply h.opn
        have h1 := hat hb
        rw [hpe'] at h1
        rcases haf : r.after with _ | ⟨c, w⟩
        · exact absurd haf h.after
        · rw [at_end r c w haf] at h1
          simp only [Except.ok.injEq] at h1
          rw [h1]
          rfl
    have h1 := sub_ok r 0 p (Nat.zero_le _) (le_of_lt hlt)
    have h2 := sub_ok r (p + 1) r.text.length hlt (le_refl _)
    obtain ⟨i1, l1⟩ := inv_prefix h p (hopn hb hlt) h1
    obtain ⟨i2, l2⟩ := inv_suffix h (p + 1) h2
    rw [h1]
    refine bind_ne (ok_ne _) fun l hl => ?_
    cases hl
    refine bind_ne (hpe _ (by rw [l1]; omega) i1) fun a _ => ?_
    rw [h2]
    refine bind_ne (ok_ne _) fun s hs => ?_
    cases hs
    obtain ⟨r', hr', hl', hi', _⟩ := format_spec (Q := Q) _ i2.after
    rw [hr']
    refine bind_ne (ok_ne _) fun s hs => ?_
    cases hs
    split
    · exact ok_ne _
    · exact bind_ne (hpe _ (by omega) (hi' i2)) fun b _ => ok_ne _
  · exact hk

theorem negStage_ne {pe : Reader → Res (Node K)} {r : Reader} (h : Inv Q r) (ht : r.text ≠ [])
    (hpe : CallsOk Q e r.text.length pe) : negStage pe r ≠ .error e := by
  obtain ⟨ch, hch, _⟩ := at_ok r h.after 0 (Nat.zero_le _)
  have hpos : 0 < r.text.length := List.length_pos_iff.2 ht
  unfold negStage
  rw [hch]
  refine bind_ne (ok_ne _) fun c hc => ?_
  cases hc
  split
  · have h2 := sub_ok r 1 r.text.length hpos (le_refl _)
    obtain ⟨i2, l2⟩ := inv_suffix h 1 h2
    rw [h2]
    refine bind_ne (ok_ne _) fun s hs => ?_
    cases hs
    exact bind_ne (hpe _ (by rw [l2]; omega) i2) fun b _ => ok_ne _
  · exact ok_ne _

theorem condStage_ne {pe : Reader → Res (Node K)} {pb : Reader → Res (BNode K)} {r : Reader} (h : Inv Q r)
    (ht : r.text ≠ []) (hpe : CallsOk Q e r.text.length pe) (hpb : CallsOkB Q e r.text.length pb)
    (he : e ≠ .invalid) (k : Res (Option (Node K))) (hk : k ≠ .error e) :
    condStage pe pb r k ≠ .error e := by
  have hinv : (Except.error Err.invalid : Res (Option (Node K))) ≠ .error e := by
    simp only [ne_eq, Except.error.injEq]
    exact fun h => he h.symm
  obtain ⟨b, p, hs, hp, hat, hopn, hend⟩ := shr_ok r h.after '?' (by decide) ht
  unfold condStage
  rw [hs]
  refine bind_ne (ok_ne _) fun f hf => ?_
  cases hf
  dsimp only
  split
  · next hb =>
    rcases Nat.lt_or_ge p r.text.length with hlt | hge
    · have hget := at_getElem? (hat hb) hlt
      obtain ⟨_, hg⟩ := List.getElem?_eq_some_iff.1 hget
      have hsplit : r.text = r.text.take p ++ '?' :: r.text.drop (p + 1) := by
        rw [← hg, List.getElem_cons_drop, List.take_append_drop]
      have hl : (r.text.take p).length = p := by simp; omega
      have hn := next_open r h.after '?' ':' _ _ hsplit
      rw [hl] at hn
      rcases hn with ⟨w1, w2, hww, hne, hcl, hne'⟩ | ⟨_, d', hne'⟩
      · rw [hne']
        refine bind_ne (ok_ne _) fun q hq => ?_
        cases hq
        dsimp only
        rw [if_neg (by omega)]
        split
        · next hq =>
          obtain ⟨w0, rfl⟩ := closed_last (by decide) hcl (by simp)
          have hlen : r.text.length = p + 1 + (w0.length + 1 + w2.length) := by
            have h1 := congrArg List.length hsplit
            have h2 := congrArg List.length hww
            simp only [List.length_append, List.length_cons, hl, List.length_nil] at h1 h2
            omega
          have hcolon : r.at (p + (w0 ++ [':']).length) = .ok ':' := by
            have h1 : r.text = (r.text.take p ++ '?' :: w0) ++ ':' :: w2 := by
              conv_lhs => rw [hsplit, hww]
              simp
            have h2 := at_lt r _ _ _ h1
            have h3 : (r.text.take p ++ '?' :: w0).length = p + (w0 ++ [':']).length := by
              simp only [List.length_append, List.length_cons, hl, List.length_nil]
            rw [h3] at h2
            exact h2
          simp only [List.length_append, List.length_cons, List.length_nil] at hcolon hq ⊢
          have s1 := sub_ok r 0 p (Nat.zero_le _) (le_of_lt hlt)
          have s2 := sub_ok r (p + 1) (p + (w0.length + (0 + 1))) (by omega) (by omega)
          have s3 := sub_ok r (p + (w0.length + (0 + 1)) + 1) r.text.length (by omega) (le_refl _)
          obtain ⟨i2, l2⟩ := inv_piece h _ _ ':' (by decide) s2 hcolon
          obtain ⟨i3, l3⟩ := inv_suffix h _ s3
          obtain ⟨i1, l1⟩ := inv_prefix h p (hopn hb hlt) s1
          rw [s1, s2, s3]
          refine bind_ne (ok_ne _) fun c hc => ?_
          cases hc
          refine bind_ne (hpb _ (by rw [l1]; omega) ⟨i1.after, i1.chars, ?_, ?_⟩) fun c _ => ?_
          · simpa using hopn hb hlt
          · rw [hsplit]
            simp [List.drop_append, hl]
          refine bind_ne (ok_ne _) fun a ha => ?_
          cases ha
          refine bind_ne (hpe _ (by rw [l2]; omega) i2) fun a _ => ?_
          refine bind_ne (ok_ne _) fun b' hb' => ?_
          cases hb'
          exact bind_ne (hpe _ (by rw [l3]; omega) i3) fun b _ => ok_ne _
        · exact hk
      · rw [hne']
        refine bind_ne (ok_ne _) fun q hq => ?_
        cases hq
        dsimp only
        split
        · exact hinv
        · rw [if_neg (by simp)]
          exact hk
    · have hpe' : p = r.text.length := le_antisymm hp hge
      have hn : next r '?' ':' p = .ok (p, 1) := by
        unfold next
        rw [hat hb]
        simp [Except.bind, hpe', nextLoop]
      rw [hn]
      refine bind_ne (ok_ne _) fun q hq => ?_
      cases hq
      dsimp only
      rw [if_pos (by omega)]
      exact hinv
  · exact hk

theorem parseOperation_ne {pe : Reader → Res (Node K)} {pb : Reader → Res (BNode K)} {r : Reader} (h : Inv Q r)
    (ht : r.text ≠ []) (hpe : CallsOk Q e r.text.length pe) (hpb : CallsOkB Q e r.text.length pb)
    (he : e ≠ .invalid) : parseOperation pe pb r ≠ .error e := by
  unfold parseOperation
  exact condStage_ne h ht hpe hpb he _ <| binStage_ne h ht hpe _ (by decide) (by decide) _ _ <|
    binStage_ne h ht hpe _ (by decide) (by decide) _ _ <| subStage_ne h ht hpe _ <|
    binStage_ne h ht hpe _ (by decide) (by decide) _ _ <|
    binStage_ne h ht hpe _ (by decide) (by decide) _ _ <| powStage_ne h ht hpe _ <| negStage_ne h ht hpe

theorem parseFunction_ne {pe : Reader → Res (Node K)} {r : Reader} (h : Inv Q r) (ht : r.text ≠ [])
    (hpe : CallsOk Q e r.text.length pe) (he : e ≠ .invalid) : parseFunction pe r ≠ .error e := by
  have hinv : (Except.error Err.invalid : Res (Option (Node K))) ≠ .error e := by
    simp only [ne_eq, Except.error.injEq]
    exact fun h => he h.symm
  obtain ⟨ch, hch, _⟩ := at_ok r h.after 0 (Nat.zero_le _)
  unfold parseFunction
  rw [hch]
  refine bind_ne (ok_ne _) fun c hc => ?_
  cases hc
  split
  · exact ok_ne _
  split
  · exact ok_ne _
  obtain ⟨b, p, hs, hp, hat, _, _⟩ := shr_ok r h.after '(' (by decide) ht
  rw [hs]
  refine bind_ne (ok_ne _) fun f hf => ?_
  cases hf
  dsimp only
  split
  · next hb =>
    obtain ⟨q, d, hn, _, _⟩ := next_ok r h.after '(' ')' p hp
    rw [hn]
    refine bind_ne (ok_ne _) fun q hq => ?_
    cases hq
    dsimp only
    split
    · exact hinv
    split
    · exact ok_ne _
    split
    · next fn hfn =>
      have hp0 : 0 < p := by
        rcases Nat.eq_zero_or_pos p with rfl | h'
        · simp [mathFunc] at hfn
        · exact h'
      have hpos : 0 < r.text.length := List.length_pos_iff.2 ht
      have s := sub_ok r p r.text.length hp (le_refl _)
      obtain ⟨i, l⟩ := inv_suffix h p s
      rw [s]
      refine bind_ne (ok_ne _) fun s' hs' => ?_
      cases hs'
      exact bind_ne (hpe _ (by rw [l]; omega) i) fun a _ => ok_ne _
    · exact ok_ne _
  · exact ok_ne _

theorem parseConstant_ne (A : Arith K) (t : Str) (he : e ≠ .invalid) : parseConstant A t ≠ .error e := by
  unfold parseConstant
  split_ifs
  · exact ok_ne _
  · exact ok_ne _
  · exact ok_ne _
  · split
    · exact ok_ne _
    · simp only [ne_eq, Except.error.injEq]
      exact fun h => he h.symm
  · exact ok_ne _

theorem equationBody_ne (A : Arith K) {pe : Reader → Res (Node K)} {pb : Reader → Res (BNode K)} {r : Reader}
    (h : Inv Q r) (hpe : CallsOk Q e r.text.length pe) (hpb : CallsOkB Q e r.text.length pb)
    (he : e ≠ .invalid) : equationBody A pe pb r ≠ .error e := by
  have hinv : (Except.error Err.invalid : Res (Node K)) ≠ .error e := by
    simp only [ne_eq, Except.error.injEq]
    exact fun h => he h.symm
  obtain ⟨r', hf, hl, hi, _⟩ := format_spec (Q := Q) r h.after
  unfold equationBody
  rw [hf]
  refine bind_ne (ok_ne _) fun r'' hr'' => ?_
  cases hr''
  split
  · exact hinv
  · next ht =>
    have hi := hi h
    have hpe' : CallsOk Q e r'.text.length pe := fun r'' h'' => hpe r'' (by omega)
    have hpb' : CallsOkB Q e r'.text.length pb := fun r'' h'' => hpb r'' (by omega)
    refine bind_ne (parseConstant_ne A _ he) fun o _ => ?_
    cases o with
    | some n => exact ok_ne _
    | none =>
      refine bind_ne (parseOperation_ne hi ht hpe' hpb' he) fun o _ => ?_
      cases o with
      | some n => exact ok_ne _
      | none =>
        refine bind_ne (parseFunction_ne hi ht hpe' he) fun o _ => ?_
        cases o with
        | some n => exact ok_ne _
        | none =>
          dsimp only
          split
          · exact ok_ne _
          · exact hinv

/-! ## Conditions: the recursion ends -/

theorem shl_ne_fuel (r : Reader) (hr : r.after ≠ []) (c : Char) (hc : c ≠ '(') : shl r c ≠ .error .fuel := by
  by_cases ht : r.text = []
  · simp [shl, ht]
  · obtain ⟨b, p, hs, _⟩ := shl_ok r hr c hc ht
    rw [hs]
    simp

theorem shl_inv (r : Reader) (hr : r.after ≠ []) (c : Char) (hc : c ≠ '(') (f : Bool × ℕ) (h : shl r c = .ok f)
    (hf : f.1 = true) : f.2 < r.text.length ∧ r.at f.2 = .ok c ∧
      (f.2 = 0 ∨ (ubFrom (0, 0) (r.text.drop (f.2 + 1))).1 = 0) := by
  by_cases ht : r.text = []
  · simp [shl, ht] at h
  · obtain ⟨b, p, hs, hp, hat, hub⟩ := shl_ok r hr c hc ht
    rw [hs] at h
    cases h
    exact ⟨hp, hat hf, hub⟩

theorem bopStage_ne {pb : Reader → Res (BNode K)} {r : Reader} (h : InvB Q r)
    (hpb : CallsOkB Q .fuel r.text.length pb) (c : Char) (hc : c ≠ '(' ∧ c ≠ ')') (o : BOp) (k : Res (BNode K))
    (hk : k ≠ .error .fuel) : bopStage pb r c o k ≠ .error .fuel := by
  unfold bopStage
  refine bind_ne (shl_ne_fuel r h.after c hc.1) fun f hf => ?_
  split
  · next hb =>
    obtain ⟨hp, hat, hub⟩ := shl_inv r h.after c hc.1 f hf hb
    have hopn : Opn (r.text.take f.2) := opn_left h.opn (at_getElem? hat hp) hc hub
    unfold split2
    have h1 := sub_ok r 0 f.2 (Nat.zero_le _) (le_of_lt hp)
    have h2 := sub_ok r (f.2 + 1) r.text.length hp (le_refl _)
    obtain ⟨i1, l1⟩ := invB_prefix h f.2 hopn h1
    obtain ⟨i2, l2⟩ := invB_suffix h (f.2 + 1) h2
    rw [h1, h2]
    refine bind_ne ?_ fun ab _ => ok_ne _
    refine bind_ne (ok_ne _) fun l hl => ?_
    cases hl
    refine bind_ne (hpb _ (by rw [l1]; omega) i1) fun a _ => ?_
    refine bind_ne (ok_ne _) fun s hs => ?_
    cases hs
    exact bind_ne (hpb _ (by rw [l2]; omega) i2) fun b _ => ok_ne _
  · exact hk

/-- Two operands of a comparison. -/
theorem operands_ne {pe : Reader → Res (Node K)} {r : Reader} (h : InvB Q r)
    (hpe : CallsOk Q .fuel r.text.length pe) (p w : ℕ) (hp : p < r.text.length) (c : Char) (hc : c ≠ '^')
    (hat : r.at p = .ok c) (hw : 0 < w) : split2 pe r p w ≠ .error .fuel := by
  unfold split2
  refine bind_ne (sub_ne_fuel _ _ _) fun l hl => ?_
  obtain ⟨i1, l1⟩ := inv_piece h.inv 0 p c hc hl hat
  refine bind_ne (hpe _ (by rw [l1]; omega) i1) fun a _ => ?_
  refine bind_ne (sub_ne_fuel _ _ _) fun s hs => ?_
  obtain ⟨i2, l2⟩ := inv_suffix h.inv (p + w) hs
  exact bind_ne (hpe _ (by rw [l2]; omega) i2) fun b _ => ok_ne _

theorem cmpStage_ne {pe : Reader → Res (Node K)} {r : Reader} (h : InvB Q r)
    (hpe : CallsOk Q .fuel r.text.length pe) (c : Char) (hc : c ≠ '(') (hc' : c ≠ '^') (o oeq : Cmp)
    (k : Res (BNode K)) (hk : k ≠ .error .fuel) : cmpStage pe r c o oeq k ≠ .error .fuel := by
  unfold cmpStage
  refine bind_ne (shl_ne_fuel r h.after c hc) fun f hf => ?_
  split
  · next hb =>
    obtain ⟨hp, hat, _⟩ := shl_inv r h.after c hc f hf hb
    refine bind_ne (at_ne_fuel _ _) fun ch _ => ?_
    split
    · exact bind_ne (operands_ne h hpe f.2 2 hp c hc' hat (by omega)) fun ab _ => ok_ne _
    · exact bind_ne (operands_ne h hpe f.2 1 hp c hc' hat (by omega)) fun ab _ => ok_ne _
  · exact hk

theorem eqStage_ne {pe : Reader → Res (Node K)} {r : Reader} (h : InvB Q r)
    (hpe : CallsOk Q .fuel r.text.length pe) : eqStage pe r ≠ .error .fuel := by
  unfold eqStage
  refine bind_ne (shl_ne_fuel r h.after '=' (by decide)) fun f hf => ?_
  split
  · next hb =>
    obtain ⟨hp, hat, _⟩ := shl_inv r h.after '=' (by decide) f hf hb
    split
    · simp
    · refine bind_ne (at_ne_fuel _ _) fun ch hch => ?_
      split
      · next heq =>
        subst heq
        refine bind_ne (sub_ne_fuel _ _ _) fun s hs => ?_
        obtain ⟨i2, l2⟩ := inv_suffix h.inv _ hs
        refine bind_ne (hpe _ (by rw [l2]; omega) i2) fun a _ => ?_
        refine bind_ne (sub_ne_fuel _ _ _) fun l hl => ?_
        obtain ⟨i1, l1⟩ := inv_piece h.inv 0 _ '=' (by decide) hl hch
        exact bind_ne (hpe _ (by rw [l1]; omega) i1) fun b _ => ok_ne _
      · simp
  · simp

theorem notStage_ne {pb : Reader → Res (BNode K)} {r : Reader} (h : InvB (· ≠ '!') r) (k : Res (BNode K))
    (hk : k ≠ .error .fuel) : notStage pb r k ≠ .error .fuel := by
  unfold notStage
  refine bind_ne (shl_ne_fuel r h.after '!' (by decide)) fun f hf => ?_
  split
  · next hb =>
    obtain ⟨hp, hat, _⟩ := shl_inv r h.after '!' (by decide) f hf hb
    exact absurd rfl (h.chars _ (at_ok_mem r _ _ hat))
  · exact hk

theorem booleanBody_ne {pe : Reader → Res (Node K)} {pb : Reader → Res (BNode K)} {r : Reader}
    (h : InvB (· ≠ '!') r) (hpe : CallsOk (· ≠ '!') .fuel r.text.length pe)
    (hpb : CallsOkB (· ≠ '!') .fuel r.text.length pb) : booleanBody pe pb r ≠ .error .fuel := by
  obtain ⟨r', hf, hl, _, hi⟩ := format_spec (Q := (· ≠ '!')) r h.after
  unfold booleanBody
  rw [hf]
  refine bind_ne (ok_ne _) fun r'' hr'' => ?_
  cases hr''
  have hi := hi h
  have hpe' : CallsOk (· ≠ '!') .fuel r'.text.length pe := fun r'' h'' => hpe r'' (by omega)
  have hpb' : CallsOkB (· ≠ '!') .fuel r'.text.length pb := fun r'' h'' => hpb r'' (by omega)
  split
  · exact ok_ne _
  split
  · exact ok_ne _
  exact bopStage_ne hi hpb' _ (by decide) _ _ <| bopStage_ne hi hpb' _ (by decide) _ _ <|
    bopStage_ne hi hpb' _ (by decide) _ _ <| notStage_ne hi _ <|
    cmpStage_ne hi hpe' _ (by decide) (by decide) _ _ _ <|
    cmpStage_ne hi hpe' _ (by decide) (by decide) _ _ _ <| eqStage_ne hi hpe'

end NimbleSM.Expr
