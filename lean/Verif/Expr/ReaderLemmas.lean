import Verif.Expr.Expr
import Mathlib.Tactic.Ring
import Mathlib.Data.List.Basic

/-!
# The searches of a `Reader` stay inside the buffer

Lemmas about `Next`, `Prev`, `operator>>` and `operator<<` on arbitrary texts.
-/

namespace NimbleSM.Expr

/-- Depth after a character. -/
def depthStep (o c ch : Char) (d : ℕ) : ℕ := if ch = o then d + 1 else if ch = c then d - 1 else d

/-- The depth reaches zero exactly at the end of the text. -/
def Closed (o c : Char) : ℕ → Str → Prop
  | d, [] => d = 0
  | d, ch :: w => d ≠ 0 ∧ Closed o c (depthStep o c ch d) w

/-- The depth never reaches zero. -/
def Alive (o c : Char) : ℕ → Str → Prop
  | d, [] => d ≠ 0
  | d, ch :: w => d ≠ 0 ∧ Alive o c (depthStep o c ch d) w

/-- Numbers of unmatched closing and opening parentheses, from the right. -/
def ubStep (ch : Char) (s : ℕ × ℕ) : ℕ × ℕ :=
  if ch = '(' then (if s.1 = 0 then (0, s.2 + 1) else (s.1 - 1, s.2))
  else if ch = ')' then (s.1 + 1, s.2) else s

/-- Unmatched closing and opening parentheses of a text that is followed by `s`. -/
def ubFrom (s : ℕ × ℕ) (t : Str) : ℕ × ℕ := t.foldr ubStep s

/-- No unmatched opening parenthesis. -/
def Opn (t : Str) : Prop := (ubFrom (0, 0) t).2 = 0

theorem ubFrom_append (s : ℕ × ℕ) (a b : Str) : ubFrom s (a ++ b) = ubFrom (ubFrom s b) a := by
  simp [ubFrom]

theorem ubFrom_cons (s : ℕ × ℕ) (c : Char) (b : Str) : ubFrom s (c :: b) = ubStep c (ubFrom s b) := rfl

theorem ubStep_mono (c : Char) (s : ℕ × ℕ) : s.2 ≤ (ubStep c s).2 := by
  unfold ubStep
  split_ifs <;> simp

theorem ubFrom_mono (s : ℕ × ℕ) (t : Str) : s.2 ≤ (ubFrom s t).2 := by
  induction t with
  | nil => exact le_refl _
  | cons c t ih => exact le_trans ih (ubStep_mono c _)

theorem Opn.suffix {a b : Str} (h : Opn (a ++ b)) : Opn b := by
  unfold Opn at h ⊢
  rw [ubFrom_append] at h
  have := ubFrom_mono (ubFrom (0, 0) b) a
  omega

theorem ubFrom_neutral (s : ℕ × ℕ) (t : Str) (h : ∀ c ∈ t, c ≠ '(' ∧ c ≠ ')') : ubFrom s t = s := by
  induction t with
  | nil => rfl
  | cons c t ih =>
    rw [ubFrom_cons, ih fun c' h' => h c' (List.mem_cons_of_mem _ h')]
    have := h c (by simp)
    simp [ubStep, this.1, this.2]

theorem closed_ub {d : ℕ} {w : Str} (h : Closed '(' ')' d w) (k o : ℕ) :
    ubFrom (k, o) w = (k + d, o) := by
  induction w generalizing d with
  | nil => simp only [Closed] at h; subst h; rfl
  | cons ch w ih =>
    obtain ⟨hd, h⟩ := h
    have := ih h
    rw [ubFrom_cons, this]
    unfold ubStep depthStep
    split_ifs <;> simp_all <;> omega

theorem alive_ub {d : ℕ} {w : Str} (h : Alive '(' ')' d w) : (ubFrom (0, 0) w).1 < d := by
  induction w generalizing d with
  | nil => simp only [Alive] at h; simp only [ubFrom, List.foldr_nil]; omega
  | cons ch w ih =>
    obtain ⟨hd, h⟩ := h
    have := ih h
    rw [ubFrom_cons]
    unfold depthStep at this
    unfold ubStep
    split_ifs at this ⊢ <;> simp_all <;> omega

theorem closed_ub_rev {d : ℕ} {v : Str} (h : Closed ')' '(' d v) (o : ℕ) :
    ubFrom (d, o) v.reverse = (0, o) := by
  induction v generalizing d with
  | nil => simp only [Closed] at h; subst h; rfl
  | cons ch v ih =>
    obtain ⟨hd, h⟩ := h
    have := ih h
    rw [List.reverse_cons, ubFrom_append]
    have hs : ubFrom (d, o) [ch] = (depthStep ')' '(' ch d, o) := by
      simp only [ubFrom, List.foldr_cons, List.foldr_nil]
      unfold ubStep depthStep
      split_ifs <;> simp_all
    rw [hs]
    exact this

/-! ## Reading characters -/

theorem at_lt (r : Reader) (pre w : Str) (c : Char) (h : r.text = pre ++ c :: w) : r.at pre.length = .ok c := by
  unfold Reader.at
  rw [h]
  simp

theorem at_end (r : Reader) (c : Char) (w : Str) (h : r.after = c :: w) : r.at r.text.length = .ok c := by
  unfold Reader.at
  rw [h]
  simp

theorem at_ok (r : Reader) (hr : r.after ≠ []) (i : ℕ) (h : i ≤ r.text.length) :
    ∃ c, r.at i = .ok c ∧ (r.text ++ r.after)[i]? = some c := by
  unfold Reader.at
  have : 0 < r.after.length := List.length_pos_iff.2 hr
  have hi : i < (r.text ++ r.after).length := by simp; omega
  rw [List.getElem?_eq_getElem hi]
  exact ⟨_, rfl, rfl⟩

theorem at_ok_mem (r : Reader) (i : ℕ) (c : Char) (h : r.at i = .ok c) : c ∈ r.text ++ r.after := by
  unfold Reader.at at h
  split at h
  · next c' h' => cases h; exact List.mem_of_getElem? h'
  · cases h

/-! ## `Next` -/

theorem nextLoop_run (r : Reader) (hr : r.after ≠ []) (o c : Char) (w : Str) :
    ∀ (pre : Str) (pos d : ℕ), r.text = pre ++ w → pos + 1 = pre.length → d ≠ 0 →
      (∃ w1 w2, w = w1 ++ w2 ∧ w1 ≠ [] ∧ Closed o c d w1 ∧
        nextLoop r o c (w.length + 1) pos d = .ok (pos + w1.length, 0)) ∨
      (Alive o c d w ∧ ∃ d', nextLoop r o c (w.length + 1) pos d = .ok (pos + w.length + 1, d')) := by
  induction w with
  | nil =>
    intro pre pos d ht hp hd
    refine Or.inr ⟨hd, ?_⟩
    obtain ⟨ch, hch, _⟩ := at_ok r hr (pos + 1) (by rw [ht]; simp [hp])
    refine ⟨_, by simp only [List.length_nil, Nat.zero_add, nextLoop, if_neg hd, hch, Except.bind]; rfl⟩
  | cons ch w ih =>
    intro pre pos d ht hp hd
    have hch : r.at (pos + 1) = .ok ch := by rw [hp]; exact at_lt r pre w ch ht
    have hstep : nextLoop r o c ((ch :: w).length + 1) pos d =
        nextLoop r o c (w.length + 1) (pos + 1) (depthStep o c ch d) := by
      simp only [List.length_cons, nextLoop, if_neg hd, hch, Except.bind]
      rfl
    rw [hstep]
    by_cases h0 : depthStep o c ch d = 0
    · refine Or.inl ⟨[ch], w, rfl, by simp, ⟨hd, h0⟩, ?_⟩
      simp only [nextLoop, h0, if_true]
      rfl
    · rcases ih (pre ++ [ch]) (pos + 1) _ (by simp [ht]) (by simp [hp]) h0 with ⟨w1, w2, hw, hne, hc, he⟩ | ⟨ha, d', he⟩
      · refine Or.inl ⟨ch :: w1, w2, by simp [hw], by simp, ⟨hd, hc⟩, ?_⟩
        rw [he]
        simp only [List.length_cons]
        congr 2
        omega
      · refine Or.inr ⟨⟨hd, ha⟩, d', ?_⟩
        rw [he]
        simp only [List.length_cons]
        congr 2
        omega

/-- `Next` at an opening character. -/
theorem next_open (r : Reader) (hr : r.after ≠ []) (o c : Char) (pre w : Str) (ht : r.text = pre ++ o :: w) :
    (∃ w1 w2, w = w1 ++ w2 ∧ w1 ≠ [] ∧ Closed o c 1 w1 ∧ next r o c pre.length = .ok (pre.length + w1.length, 0)) ∨
      (Alive o c 1 w ∧ ∃ d', next r o c pre.length = .ok (r.text.length, d')) := by
  have h1 : r.at pre.length = .ok o := at_lt r pre w o ht
  have hl : r.text.length - pre.length = w.length + 1 := by rw [ht]; simp
  have hl' : r.text.length = pre.length + w.length + 1 := by rw [ht]; simp; omega
  have hn : next r o c pre.length = nextLoop r o c (w.length + 1) pre.length 1 := by
    unfold next
    rw [h1]
    simp only [Except.bind, if_true, hl]
  rw [hn, hl']
  exact nextLoop_run r hr o c w (pre ++ [o]) pre.length 1 (by simp [ht]) (by simp) (by simp)

/-- `Next` at any other character. -/
theorem next_other (r : Reader) (o c ch : Char) (pos : ℕ) (h : r.at pos = .ok ch) (hne : ch ≠ o) :
    next r o c pos = .ok (pos + 1, 0) := by
  unfold next
  rw [h]
  simp only [Except.bind, if_neg hne]

/-- `Next` never fails inside the text or just behind it, moves at most to the end, and moves forward when it
starts inside. -/
theorem next_ok (r : Reader) (hr : r.after ≠ []) (o c : Char) (pos : ℕ) (hp : pos ≤ r.text.length) :
    ∃ q d, next r o c pos = .ok (q, d) ∧ (pos < r.text.length → pos < q ∧ q ≤ r.text.length) ∧
      (pos = r.text.length → d = 0 → q = r.text.length + 1) := by
  rcases Nat.lt_or_ge pos r.text.length with hlt | hge
  · have ht : r.text = r.text.take pos ++ r.text[pos] :: r.text.drop (pos + 1) := by
      rw [List.getElem_cons_drop, List.take_append_drop]
    have hl : (r.text.take pos).length = pos := by simp; omega
    by_cases ho : r.text[pos] = o
    · rw [ho] at ht
      have h := next_open r hr o c _ _ ht
      rw [hl] at h
      rcases h with ⟨w1, w2, hw, hne, _, he⟩ | ⟨_, d', he⟩
      · refine ⟨_, _, he, fun _ => ?_, fun h => by omega⟩
        have h1 : 0 < w1.length := List.length_pos_iff.2 hne
        have h2 := congrArg List.length ht
        rw [hw] at h2
        simp at h2
        omega
      · exact ⟨_, _, he, fun _ => by omega, fun h => by omega⟩
    · have hat := at_lt r _ _ _ ht
      rw [hl] at hat
      exact ⟨_, _, next_other r o c _ pos hat ho, fun _ => by omega, fun h => by omega⟩
  · have hpe : pos = r.text.length := le_antisymm hp hge
    subst hpe
    obtain ⟨ch, hch, _⟩ := at_ok r hr r.text.length (le_refl _)
    unfold next
    rw [hch]
    simp only [Except.bind]
    split
    · refine ⟨r.text.length, 1, by simp [nextLoop], by simp, by simp⟩
    · exact ⟨_, _, rfl, by simp, by simp⟩

/-! ## `operator>>` -/

theorem closed_last {o c : Char} (hoc : o ≠ c) {w : Str} {d : ℕ} (h : Closed o c d w) (hd : d ≠ 0) :
    ∃ w0, w = w0 ++ [c] := by
  induction w generalizing d with
  | nil => exact absurd h hd
  | cons a v ih =>
    obtain ⟨_, hcl⟩ := h
    by_cases h0 : depthStep o c a d = 0
    · have ha : a = c := by
        unfold depthStep at h0
        split_ifs at h0 <;> first | assumption | omega
      rw [h0] at hcl
      rcases v with _ | ⟨b, v⟩
      · exact ⟨[], by simp [ha]⟩
      · exact absurd rfl hcl.1
    · obtain ⟨w0, rfl⟩ := ih hcl h0
      exact ⟨a :: w0, rfl⟩

/-- A parenthesised group does not change the counts. -/
theorem group_neutral {w : Str} (h : Closed '(' ')' 1 w) (s : ℕ × ℕ) : ubFrom s ('(' :: w) = s := by
  obtain ⟨k, o⟩ := s
  rw [ubFrom_cons, closed_ub h]
  simp [ubStep]

theorem not_opn_of_alive {w : Str} (h : Alive '(' ')' 1 w) : ¬ Opn ('(' :: w) := by
  unfold Opn
  rw [ubFrom_cons]
  have := alive_ub h
  have h0 : (ubFrom (0, 0) w).1 = 0 := by omega
  simp [ubStep, h0]

theorem shrLoop_run (r : Reader) (hr : r.after ≠ []) (c : Char) (hc' : c ≠ ')') :
    ∀ (n : ℕ) (w pre : Str) (k : ℕ), w.length ≤ n → r.text = pre ++ w → w ≠ [] → w.length ≤ k →
      ∃ p, shrLoop r c k pre.length = .ok p ∧
        ((∃ w1 ch w2, w = w1 ++ ch :: w2 ∧ p = pre.length + w1.length ∧
            (ch = c → ∀ i, (ubFrom (i, 0) w1).2 = 0)) ∨
          (p = r.text.length ∧ ¬ Opn w)) := by
  intro n
  induction n with
  | zero =>
    intro w pre k hn _ hw _
    exact absurd (List.length_eq_zero_iff.1 (Nat.le_zero.1 hn)) hw
  | succ n ih =>
    intro w pre k hn ht hw hk
    obtain ⟨ch, w', rfl⟩ := List.exists_cons_of_ne_nil hw
    obtain ⟨k, rfl⟩ : ∃ k', k = k' + 1 := ⟨k - 1, by simp at hk; omega⟩
    have hlen : r.text.length = pre.length + w'.length + 1 := by rw [ht]; simp; omega
    unfold shrLoop
    by_cases hlast : w' = []
    · subst hlast
      rw [if_neg (by simp at hlen; omega)]
      exact ⟨_, rfl, Or.inl ⟨[], ch, [], rfl, by simp, fun _ i => rfl⟩⟩
    · have hpos : 0 < w'.length := List.length_pos_iff.2 hlast
      rw [if_pos (by omega), at_lt r pre w' ch ht]
      simp only [Except.bind]
      by_cases hc : ch ≠ c
      · rw [if_pos hc]
        by_cases hop : ch = '('
        · subst hop
          rcases next_open r hr '(' ')' pre w' ht with ⟨w1, w2, hww, hne, hcl, he⟩ | ⟨ha, d', he⟩
          · rw [he]
            dsimp only
            obtain ⟨w0, rfl⟩ := closed_last (by decide) hcl (by simp)
            have hidx : pre.length + (w0 ++ [')']).length = (pre ++ '(' :: w0).length := by simp
            rw [hidx]
            obtain ⟨p, hp, hres⟩ := ih (')' :: w2) (pre ++ '(' :: w0) k
              (by rw [hww] at hn; simp at hn ⊢; omega) (by rw [ht, hww]; simp) (by simp)
              (by rw [hww] at hk; simp at hk ⊢; omega)
            refine ⟨p, hp, ?_⟩
            have heq : '(' :: w' = '(' :: (w0 ++ [')']) ++ w2 := by simp [hww]
            rcases hres with ⟨v1, ch, v2, hv, hpv, hub⟩ | ⟨hpl, hno⟩
            · refine Or.inl ?_
              rcases v1 with _ | ⟨a, v1⟩
              · simp only [List.nil_append, List.cons.injEq] at hv
                refine ⟨'(' :: w0, ')', w2, by simp [hww], by rw [hpv]; simp, fun h => absurd h.symm hc'⟩
              · simp only [List.cons_append, List.cons.injEq] at hv
                obtain ⟨rfl, rfl⟩ := hv
                refine ⟨'(' :: (w0 ++ [')']) ++ v1, ch, v2, by simp [hww],
                  by rw [hpv]; simp; omega, fun h i => ?_⟩
                rw [ubFrom_append, group_neutral hcl]
                have := hub h i
                rw [ubFrom_cons] at this
                simpa [ubStep] using this
            · refine Or.inr ⟨hpl, fun h => hno ?_⟩
              rw [heq] at h
              have := h.suffix
              unfold Opn at this ⊢
              rw [ubFrom_cons]
              simpa [ubStep] using this
          · rw [he]
            dsimp only
            refine ⟨r.text.length, ?_, Or.inr ⟨rfl, not_opn_of_alive ha⟩⟩
            rcases k with _ | k
            · rfl
            · unfold shrLoop
              rw [if_neg (by omega)]
        · rw [next_other r '(' ')' ch pre.length (at_lt r pre w' ch ht) hop]
          dsimp only
          have hidx : pre.length + 1 = (pre ++ [ch]).length := by simp
          rw [hidx]
          obtain ⟨p, hp, hres⟩ := ih w' (pre ++ [ch]) k (by simp at hn; omega) (by simp [ht]) hlast
            (by simp at hk; omega)
          refine ⟨p, hp, ?_⟩
          rcases hres with ⟨v1, ch', v2, hv, hpv, hub⟩ | ⟨hpl, hno⟩
          · refine Or.inl ⟨ch :: v1, ch', v2, by simp [hv], by rw [hpv]; simp; omega, fun h i => ?_⟩
            rw [ubFrom_cons]
            have := hub h i
            unfold ubStep
            rw [if_neg hop]
            split <;> simpa using this
          · exact Or.inr ⟨hpl, fun h => hno (Opn.suffix (a := [ch]) h)⟩
      · rw [if_neg hc]
        exact ⟨_, rfl, Or.inl ⟨[], ch, w', rfl, by simp, fun _ i => rfl⟩⟩

/-- `operator>>` on a text that is not empty. -/
theorem shr_ok (r : Reader) (hr : r.after ≠ []) (c : Char) (hc : c ≠ ')') (ht : r.text ≠ []) :
    ∃ b p, shr r c = .ok (b, p) ∧ p ≤ r.text.length ∧ (b = true → r.at p = .ok c) ∧
      (b = true → p < r.text.length → Opn (r.text.take p)) ∧ (p = r.text.length → ¬ Opn r.text) := by
  obtain ⟨p, hp, hres⟩ := shrLoop_run r hr c hc r.text.length r.text [] r.text.length (le_refl _) rfl ht (le_refl _)
  have hple : p ≤ r.text.length := by
    rcases hres with ⟨w1, ch, w2, hw, hpw, _⟩ | ⟨h, _⟩
    · have := congrArg List.length hw
      simp at this hpw
      omega
    · omega
  obtain ⟨ch, hch, hget⟩ := at_ok r hr p hple
  refine ⟨decide (ch = c), p, ?_, hple, ?_, ?_, ?_⟩
  · unfold shr
    rw [if_neg (by simpa using ht)]
    simp only [List.length_nil] at hp
    rw [hp]
    simp only [Except.bind, hch]
  · intro hb
    rw [hch, of_decide_eq_true hb]
  · intro hb hlt
    rcases hres with ⟨w1, ch', w2, hw, hpw, hub⟩ | ⟨h, _⟩
    · simp only [List.length_nil, Nat.zero_add] at hpw
      have h1 : r.text.take p = w1 := by rw [hw, hpw]; simp
      have h2 : r.at p = .ok ch' := by rw [hpw]; exact at_lt r w1 w2 ch' hw
      rw [hch] at h2
      simp only [Except.ok.injEq] at h2
      rw [h1]
      exact hub (h2 ▸ of_decide_eq_true hb) 0
    · omega
  · intro he
    rcases hres with ⟨w1, ch', w2, hw, hpw, hub⟩ | ⟨_, h⟩
    · have := congrArg List.length hw
      simp at this hpw
      omega
    · exact h

/-! ## `operator<<` -/

theorem prevLoop_run (r : Reader) (o c : Char) (hoc : o ≠ c) (suf : Str) :
    ∀ (v : Str) (d : ℕ), r.text = v.reverse ++ suf → d ≠ 0 →
      (∃ v1 v2, v = v1 ++ v2 ∧ v1 ≠ [] ∧ Closed c o d v1 ∧ prevLoop r o c v.length d = .ok (v2.length, 0)) ∨
        (∃ d', prevLoop r o c v.length d = .ok (0, d')) := by
  intro v
  induction v generalizing suf with
  | nil => intro d _ _; exact Or.inr ⟨d, rfl⟩
  | cons ch v ih =>
    intro d ht hd
    have hat : r.at v.length = .ok ch := by
      have := at_lt r v.reverse suf ch (by simp [ht])
      simpa using this
    have hstep : prevLoop r o c (ch :: v).length d = prevLoop r o c v.length (depthStep c o ch d) := by
      simp only [List.length_cons, prevLoop, if_neg hd, hat, Except.bind]
      rfl
    rw [hstep]
    by_cases h0 : depthStep c o ch d = 0
    · refine Or.inl ⟨[ch], v, rfl, by simp, ⟨hd, h0⟩, ?_⟩
      rw [h0]
      rcases v with _ | ⟨a, v⟩
      · rfl
      · simp [prevLoop]
    · rcases ih (ch :: suf) _ (by simp [ht]) h0 with ⟨v1, v2, hv, hne, hcl, he⟩ | ⟨d', he⟩
      · exact Or.inl ⟨ch :: v1, v2, by simp [hv], by simp, ⟨hd, hcl⟩, he⟩
      · exact Or.inr ⟨d', he⟩

theorem shlLoop_run (r : Reader) (c : Char) (hco : c ≠ '(') :
    ∀ (n : ℕ) (v suf : Str) (k : ℕ), v.length ≤ n → r.text = v.reverse ++ suf → v ≠ [] → v.length ≤ k →
      (ubFrom (0, 0) suf).1 = 0 →
      ∃ p, shlLoop r c k (v.length - 1) = .ok p ∧ p < v.length ∧
        (p = 0 ∨ (ubFrom (0, 0) (r.text.drop (p + 1))).1 = 0) := by
  intro n
  induction n with
  | zero =>
    intro v suf k hn _ hv _ _
    exact absurd (List.length_eq_zero_iff.1 (Nat.le_zero.1 hn)) hv
  | succ n ih =>
    intro v suf k hn ht hv hk hsuf
    obtain ⟨ch, v', rfl⟩ := List.exists_cons_of_ne_nil hv
    obtain ⟨k, rfl⟩ : ∃ k', k = k' + 1 := ⟨k - 1, by simp at hk; omega⟩
    simp only [List.length_cons, Nat.add_sub_cancel] at hn hk ⊢
    unfold shlLoop
    by_cases hpos : v'.length > 0
    · have hv' : v' ≠ [] := List.length_pos_iff.1 hpos
      have hat : r.at v'.length = .ok ch := by
        have := at_lt r v'.reverse suf ch (by simp [ht])
        simpa using this
      rw [if_pos hpos, hat]
      simp only [Except.bind]
      by_cases hc : ch ≠ c
      · rw [if_pos hc]
        by_cases hcl : ch = ')'
        · subst hcl
          have hprev : prev r '(' ')' v'.length = prevLoop r '(' ')' v'.length 1 := by
            unfold prev
            rw [hat]
            simp only [Except.bind, if_true]
          rw [hprev]
          rcases prevLoop_run r '(' ')' (by decide) (')' :: suf) v' 1 (by simp [ht]) (by simp) with
            ⟨v1, v2, hvv, hne, hclo, he⟩ | ⟨d', he⟩
          · rw [he]
            dsimp only
            obtain ⟨v0, rfl⟩ := closed_last (by decide) hclo (by simp)
            -- the loop goes on at the opening parenthesis
            have hvv' : v' = v0 ++ '(' :: v2 := by simp [hvv]
            have hneut : ubFrom (0, 0) ('(' :: (v0.reverse ++ ')' :: suf)) = ubFrom (0, 0) suf := by
              have h1 := closed_ub_rev hclo (ubFrom (0, 0) suf).2
              rw [List.reverse_append] at h1
              simp only [List.reverse_cons, List.reverse_nil, List.nil_append, List.singleton_append] at h1
              rw [← List.cons_append, ubFrom_append]
              have h2 : ubFrom (0, 0) (')' :: suf) = (1, (ubFrom (0, 0) suf).2) := by
                rw [ubFrom_cons]
                simp [ubStep, hsuf]
              rw [h2, h1]
              exact Prod.ext hsuf.symm rfl
            obtain ⟨k, rfl⟩ : ∃ k', k = k' + 1 := ⟨k - 1, by rw [hvv'] at hk; simp at hk; omega⟩
            unfold shlLoop
            by_cases hv2 : v2.length > 0
            · have hat2 : r.at v2.length = .ok '(' := by
                have := at_lt r v2.reverse (v0.reverse ++ ')' :: suf) '(' (by rw [ht, hvv']; simp)
                simpa using this
              have hprev2 : prev r '(' ')' v2.length = .ok (v2.length - 1, 0) := by
                unfold prev
                rw [hat2]
                simp only [Except.bind]
                rw [if_neg (by decide)]
              rw [if_pos hv2, hat2]
              simp only [Except.bind]
              rw [if_pos hco.symm, hprev2]
              dsimp only
              obtain ⟨p, hp, hlt, hres⟩ := ih v2 ('(' :: (v0.reverse ++ ')' :: suf)) k
                (by rw [hvv'] at hn; simp at hn; omega) (by rw [ht, hvv']; simp) (List.length_pos_iff.1 hv2)
                (by rw [hvv'] at hk; simp at hk; omega) (by rw [hneut]; exact hsuf)
              exact ⟨p, hp, by rw [hvv']; simp; omega, hres⟩
            · rw [if_neg hv2]
              exact ⟨_, rfl, by omega, Or.inl (by omega)⟩
          · rw [he]
            dsimp only
            refine ⟨0, ?_, by omega, Or.inl rfl⟩
            rcases k with _ | k
            · rfl
            · unfold shlLoop; rw [if_neg (by omega)]
        · have hprev : prev r '(' ')' v'.length = .ok (v'.length - 1, 0) := by
            unfold prev
            rw [hat]
            simp only [Except.bind, if_neg hcl]
          rw [hprev]
          dsimp only
          obtain ⟨p, hp, hlt, hres⟩ := ih v' (ch :: suf) k (by omega) (by simp [ht]) hv' (by omega)
            (by
              rw [ubFrom_cons]
              unfold ubStep
              rw [if_neg hcl]
              rw [if_pos hsuf]
              split
              · rfl
              · exact hsuf)
          exact ⟨p, hp, by omega, hres⟩
      · rw [if_neg hc]
        refine ⟨_, rfl, by omega, Or.inr ?_⟩
        have : r.text.drop (v'.length + 1) = suf := by
          rw [ht, List.reverse_cons, List.append_assoc]
          have h := List.drop_left (l₁ := v'.reverse ++ [ch]) (l₂ := suf)
          simpa using h
        rw [this]
        exact hsuf
    · rw [if_neg hpos]
      exact ⟨_, rfl, by omega, Or.inl (by omega)⟩

/-- `operator<<` on a text that is not empty. -/
theorem shl_ok (r : Reader) (hr : r.after ≠ []) (c : Char) (hc : c ≠ '(') (ht : r.text ≠ []) :
    ∃ b p, shl r c = .ok (b, p) ∧ p < r.text.length ∧ (b = true → r.at p = .ok c) ∧
      (p = 0 ∨ (ubFrom (0, 0) (r.text.drop (p + 1))).1 = 0) := by
  obtain ⟨p, hp, hlt, hres⟩ := shlLoop_run r c hc r.text.length r.text.reverse [] r.text.length (by simp) (by simp)
    (by simpa using ht) (by simp) rfl
  simp only [List.length_reverse] at hp hlt
  obtain ⟨ch, hch, hget⟩ := at_ok r hr p (le_of_lt hlt)
  refine ⟨decide (ch = c), p, ?_, hlt, ?_, hres⟩
  · unfold shl
    rw [if_neg (by simpa using ht), hp]
    simp only [Except.bind, hch]
  · intro hb
    rw [hch, of_decide_eq_true hb]

end NimbleSM.Expr
