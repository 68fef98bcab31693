import Verif.Expr.InsideStages
import Verif.Expr.OptimizeProps

/-!
# C50: parsing ends and stays inside the text

* `parse_inside_partial`: a text without `?` is either parsed or rejected with `std::invalid_argument`; no
  character outside the text and its terminating null is read.
* `parse_terminates_partial`: for a text without `!` the recursion ends, no deeper than the text is long.
* The full property is false: `empty_condition_outside`, `leading_equals_outside`, `not_outside`
  (reads outside), `not_recurses_forever` (a text on which the recursion never ends).
-/

namespace NimbleSM.Expr

variable {K : Type} (A : Arith K)

/-! ## Letter case -/

theorem toLower_eq {c d : Char} (hd : d.toNat < 97) (h : c.toLower = d) : c = d := by
  unfold Char.toLower at h
  split at h
  · next hu =>
    exfalso
    have h1 := congrArg Char.toNat h
    have h2 : (c.val + ('a'.val - 'A'.val)).toNat = c.val.toNat + 32 := by
      have h3 : c.val.toNat ≤ 90 := hu.2
      rw [UInt32.toNat_add]
      have : ('a'.val - 'A'.val).toNat = 32 := by decide
      rw [this]
      omega
    have h3 : (65 : ℕ) ≤ c.val.toNat := hu.1
    have h4 : (c.val + ('a'.val - 'A'.val)).toNat = d.toNat := h1
    omega
  · exact h

theorem mem_toLower {s : Str} {d : Char} (hd : d.toNat < 97) (hs : d ∉ s) : ∀ c ∈ toLower s ++ ['\x00'], d ≠ '\x00' → c ≠ d := by
  intro c hc h0
  simp only [toLower, List.mem_append, List.mem_map, List.mem_singleton] at hc
  rcases hc with ⟨a, ha, rfl⟩ | rfl
  · intro h
    rw [toLower_eq hd h] at ha
    exact hs ha
  · exact fun h => h0 h.symm

/-! ## Texts without conditions -/

theorem parseEquation_ne (Q : Char → Prop) (e : Err) (he : e ≠ .invalid) (hQ : ∀ c, Q c → c ≠ '?') (n : ℕ) :
    ∀ r, r.text.length < n → Inv Q r → parseEquation A n r ≠ .error e := by
  induction n with
  | zero => intro r h; omega
  | succ n ih =>
    intro r hl hi
    rw [parseEquation]
    refine equationBody_ne A hi (fun r' h' i' => ih r' (by omega) i') (fun r' _ i' => ?_) he
    exact absurd rfl (hQ _ (i'.chars _ (List.mem_append.2 (Or.inr i'.mark))))

/-- **C50** (part): a text without `?` is either parsed or rejected; nothing outside the text is read and the
recursion ends. -/
theorem parse_inside_partial (s : Str) (hs : '?' ∉ s) :
    (∃ n, parse A s = .ok n) ∨ parse A s = .error .invalid := by
  have hi : Inv (· ≠ '?') ⟨toLower s, ['\x00']⟩ :=
    ⟨by simp, fun c hc => mem_toLower (by decide) hs c hc (by decide), by simp⟩
  have key : ∀ e : Err, e ≠ .invalid → parse A s ≠ .error e := fun e he =>
    parseEquation_ne A (· ≠ '?') e he (fun _ h => h) _ _ (by simp [toLower]; omega) hi
  cases h : parse A s with
  | ok n => exact Or.inl ⟨n, rfl⟩
  | error e =>
    cases e with
    | invalid => exact Or.inr rfl
    | outside => exact absurd h (key _ (by decide))
    | fuel => exact absurd h (key _ (by decide))

/-! ## Texts with conditions -/

theorem parse_ne_fuel (n : ℕ) :
    (∀ r, r.text.length < n → Inv (· ≠ '!') r → parseEquation A n r ≠ .error .fuel) ∧
      (∀ r, r.text.length < n → InvB (· ≠ '!') r → parseBoolean A n r ≠ .error .fuel) := by
  induction n with
  | zero => exact ⟨fun r h => by omega, fun r h => by omega⟩
  | succ n ih =>
    refine ⟨fun r hl hi => ?_, fun r hl hi => ?_⟩
    · rw [parseEquation]
      exact equationBody_ne A hi (fun r' h' i' => ih.1 r' (by omega) i') (fun r' h' i' => ih.2 r' (by omega) i')
        (by decide)
    · rw [parseBoolean]
      exact booleanBody_ne hi (fun r' h' i' => ih.1 r' (by omega) i') (fun r' h' i' => ih.2 r' (by omega) i')

/-- **C50** (part): on a text without `!` the recursion ends, and is never deeper than the text is long. -/
theorem parse_terminates_partial (s : Str) (hs : '!' ∉ s) (depth : ℕ) (hd : s.length < depth) :
    parseEquation A depth ⟨s.map Char.toLower, ['\x00']⟩ ≠ .error .fuel :=
  (parse_ne_fuel A depth).1 _ (by simpa using hd)
    ⟨by simp, fun c hc => mem_toLower (by decide) hs c hc (by decide), by simp⟩

/-! ## The full property is false -/

/-- An empty condition makes the parser search from the largest unsigned position. -/
theorem empty_condition_outside : parse A "?1:2".toList = .error .outside := by rfl

/-- An equality sign at the start of a condition makes the parser read before the text. -/
theorem leading_equals_outside : parse A "=?1:2".toList = .error .outside := by rfl

/-- An exclamation mark shifts the text by one character; with enough of them its end is passed. -/
theorem not_outside : parse A "!!!!!!!!x>1?1:2".toList = .error .outside := by rfl

/-! ### A text on which the recursion never ends -/

theorem bind_stuck {α β : Type} {x : Res β} {y : Res α} (f : α → Res β) (h : x = y.bind f)
    (hy : y = .error .fuel) : x = .error .fuel := by
  rw [h, hy]
  rfl

theorem bind_stuck2 {α β γ : Type} {x : Res γ} {y : Res α} (f : α → Res β) (g : β → Res γ)
    (h : x = (y.bind f).bind g) (hy : y = .error .fuel) : x = .error .fuel := by
  rw [h, hy]
  rfl

/-- The power `(z^` is split into the reader itself and a text beyond its end. -/
theorem open_power_recurses (n : ℕ) :
    parseEquation A n ⟨"(z".toList, "^2):1\x00".toList⟩ = .error .fuel := by
  induction n with
  | zero => rfl
  | succ n ih =>
    rw [parseEquation]
    exact bind_stuck2 _ _ rfl ih

theorem window7 (n : ℕ) : parseBoolean A n ⟨"y>(z".toList, "^2):1\x00".toList⟩ = .error .fuel := by
  rcases n with _ | n
  · rfl
  · rw [parseBoolean]
    rcases n with _ | n
    · rfl
    · exact bind_stuck2 (y := parseEquation A (n + 1) ⟨"(z".toList, "^2):1\x00".toList⟩) _ _ rfl
        (open_power_recurses A (n + 1))

theorem window6 (n : ℕ) : parseBoolean A n ⟨"y>(z^".toList, "2):1\x00".toList⟩ = .error .fuel := by
  rcases n with _ | n
  · rfl
  · rw [parseBoolean]
    exact bind_stuck2 (y := parseBoolean A n ⟨"y>(z".toList, "^2):1\x00".toList⟩) _ _ rfl (window7 A n)

theorem window5 (n : ℕ) : parseBoolean A n ⟨"!y>(z".toList, "^2):1\x00".toList⟩ = .error .fuel := by
  rcases n with _ | n
  · rfl
  · rw [parseBoolean]
    exact bind_stuck (y := parseBoolean A n ⟨"y>(z^".toList, "2):1\x00".toList⟩) (fun a => .ok (.not a)) rfl
      (window6 A n)

theorem window4 (n : ℕ) : parseBoolean A n ⟨"?!y>(".toList, "z^2):1\x00".toList⟩ = .error .fuel := by
  rcases n with _ | n
  · rfl
  · rw [parseBoolean]
    exact bind_stuck (y := parseBoolean A n ⟨"!y>(z".toList, "^2):1\x00".toList⟩) (fun a => .ok (.not a)) rfl
      (window5 A n)

theorem window3 (n : ℕ) : parseBoolean A n ⟨"!?!y>".toList, "(z^2):1\x00".toList⟩ = .error .fuel := by
  rcases n with _ | n
  · rfl
  · rw [parseBoolean]
    exact bind_stuck (y := parseBoolean A n ⟨"?!y>(".toList, "z^2):1\x00".toList⟩) (fun a => .ok (.not a)) rfl
      (window4 A n)

theorem window2 (n : ℕ) : parseBoolean A n ⟨"4!?!y".toList, ">(z^2):1\x00".toList⟩ = .error .fuel := by
  rcases n with _ | n
  · rfl
  · rw [parseBoolean]
    exact bind_stuck (y := parseBoolean A n ⟨"!?!y>".toList, "(z^2):1\x00".toList⟩) (fun a => .ok (.not a)) rfl
      (window3 A n)

theorem window1 (n : ℕ) : parseBoolean A n ⟨"34!?!".toList, "y>(z^2):1\x00".toList⟩ = .error .fuel := by
  rcases n with _ | n
  · rfl
  · rw [parseBoolean]
    exact bind_stuck (y := parseBoolean A n ⟨"4!?!y".toList, ">(z^2):1\x00".toList⟩) (fun a => .ok (.not a)) rfl
      (window2 A n)

theorem window0 (n : ℕ) : parseBoolean A n ⟨"234!?".toList, "!y>(z^2):1\x00".toList⟩ = .error .fuel := by
  rcases n with _ | n
  · rfl
  · rw [parseBoolean]
    exact bind_stuck (y := parseBoolean A n ⟨"34!?!".toList, "y>(z^2):1\x00".toList⟩) (fun a => .ok (.not a)) rfl
      (window1 A n)

theorem window (n : ℕ) : parseBoolean A n ⟨"1234!".toList, "?!y>(z^2):1\x00".toList⟩ = .error .fuel := by
  rcases n with _ | n
  · rfl
  · rw [parseBoolean]
    exact bind_stuck (y := parseBoolean A n ⟨"234!?".toList, "!y>(z^2):1\x00".toList⟩) (fun a => .ok (.not a)) rfl
      (window0 A n)

/-- **C50 is false**: on this text the recursion never ends, whatever depth is allowed; the program
overflows its stack. -/
theorem not_recurses_forever (depth : ℕ) :
    parseEquation A depth ⟨"1234!?!y>(z^2):1".toList, ['\x00']⟩ = .error .fuel := by
  rcases depth with _ | n
  · rfl
  · rw [parseEquation]
    exact bind_stuck2 (y := parseBoolean A n ⟨"1234!".toList, "?!y>(z^2):1\x00".toList⟩) _ _ rfl
      (window A n)

-- both parts are about real texts
example : ∃ n, parse demo "-x*(2.5 + sin(t))^2/3".toList = .ok n := by
  have h := parse_inside_partial demo "-x*(2.5 + sin(t))^2/3".toList (by decide)
  rcases h with h | h
  · exact h
  · exact absurd h (by
      intro h
      have : (parse demo "-x*(2.5 + sin(t))^2/3".toList).toOption.isSome = true := by decide +kernel
      rw [h] at this
      cases this)

example : parse demo "((x+".toList = .error .invalid := by rfl
example : '!' ∉ "x > 1 ? (y) : (z".toList := by decide

end NimbleSM.Expr
