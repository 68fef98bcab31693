import Verif.Uq.ScaleProps
import Verif.Parse.DeckSettingsProps

/-!
# C76: reading the sample file
-/

namespace NimbleSM.Uq

open NimbleSM.Parse NimbleSM.Constitutive
open NimbleSM.Deck (Str atof atoi atof_literal atoi_decimal)

/-! ## Words of a line -/

/-- The words of a text: maximal pieces without white space. -/
inductive Words : List Str → Str → Prop
  | nil (g : Str) : Blank g → Words [] g
  | cons (g w rest : Str) (ws : List Str) : Blank g → w ≠ [] → (∀ c ∈ w, isSpace c = false) →
      (∀ c ∈ rest.head?, isSpace c = true) → Words ws rest → Words (w :: ws) (g ++ w ++ rest)

theorem split_nil_of_blank {g : Str} (h : Blank g) : split g = [] := by
  have hd : g.dropWhile isSpace = [] := by
    have := dropWhile_blank h []
    simpa using this
  rw [split]
  split
  · rfl
  · rename_i h1; rw [hd] at h1; cases h1

theorem takeWhile_word {w rest : Str} (hw : ∀ c ∈ w, isSpace c = false) (hr : ∀ c ∈ rest.head?, isSpace c = true) :
    (w ++ rest).takeWhile (fun c => !isSpace c) = w ∧ (w ++ rest).dropWhile (fun c => !isSpace c) = rest := by
  induction w with
  | nil =>
    cases rest with
    | nil => exact ⟨rfl, rfl⟩
    | cons c rest => simp [hr c rfl]
  | cons c w ih =>
    have hc := hw c (by simp)
    have ih := ih fun d hd => hw d (by simp [hd])
    simp [hc, ih.1, ih.2]

/-- `split` returns the words of a text. -/
theorem split_words {ws : List Str} {t : Str} (h : Words ws t) : split t = ws := by
  induction h with
  | nil g hg => exact split_nil_of_blank hg
  | cons g w rest ws hg hne hw hr _ ih =>
    obtain ⟨c, w', rfl⟩ := List.exists_cons_of_ne_nil hne
    have hd : (g ++ (c :: w') ++ rest).dropWhile isSpace = (c :: w') ++ rest := by
      rw [List.append_assoc, dropWhile_blank hg, List.cons_append, List.dropWhile_cons_of_neg]
      simp [hw c (by simp)]
    have htw := takeWhile_word hw hr
    rw [split]
    split
    · rename_i h1; rw [hd] at h1; cases h1
    · rename_i c1 cs1 h1
      rw [hd] at h1
      rw [← h1, htw.1, htw.2, ih]

/-- Every text has its words (so `split_words` says all there is to say about `split`). -/
theorem words_split (t : Str) : Words (split t) t := by
  induction t using split.induct with
  | case1 s h =>
    have hb : Blank s := by simpa [Blank] using h
    rw [split_nil_of_blank hb]; exact .nil s hb
  | case2 s c cs h ih =>
    have e : s = s.takeWhile isSpace ++ s.dropWhile isSpace := List.takeWhile_append_dropWhile.symm
    rw [h] at e
    have hc : isSpace c = false := by
      have := List.head_dropWhile_not isSpace (l := s) (by rw [h]; simp)
      simpa [h] using this
    have e2 : (c :: cs) = (c :: cs).takeWhile (fun c => !isSpace c) ++ (c :: cs).dropWhile (fun c => !isSpace c) :=
      List.takeWhile_append_dropWhile.symm
    have hw : Words ((c :: cs).takeWhile (fun c => !isSpace c) :: split ((c :: cs).dropWhile (fun c => !isSpace c)))
        (s.takeWhile isSpace ++ (c :: cs).takeWhile (fun c => !isSpace c) ++ (c :: cs).dropWhile (fun c => !isSpace c)) := by
      refine .cons _ _ _ _ (fun d hd => List.mem_takeWhile_imp hd) ?_ (fun d hd => by simpa using List.mem_takeWhile_imp hd) ?_ ih
      · simp [hc]
      · intro d hd
        have hne : (c :: cs).dropWhile (fun c => !isSpace c) ≠ [] := by intro h0; rw [h0] at hd; cases hd
        have := List.head_dropWhile_not (fun c => !isSpace c) (l := c :: cs) hne
        rw [List.head?_eq_some_head hne] at hd
        cases hd
        simpa using this
    rw [List.append_assoc, ← e2, ← e] at hw
    rw [split_words hw]
    exact hw

/-! ## Numbers -/

theorem stod_literal (l : Lit) (hl : l.Valid) : stod l.text = .ok l.value := by
  have h := scanDouble_literal l hl [] ⟨by simp, fun _ => ⟨rfl, by simp⟩⟩
  rw [List.append_nil] at h
  have hsp : l.text.dropWhile isSpace = l.text := by
    have hh : ∃ c r, l.text = c :: r ∧ isSpace c = false := by
      obtain ⟨sign, ip, fp, ex⟩ := l
      rcases sign with _ | _ | _
      · rcases ip with _ | ⟨d, ip⟩
        · rcases fp with _ | f
          · rcases hl.1 with h | ⟨d, h, -⟩
            · exact absurd rfl h
            · cases h
          · exact ⟨'.', _, rfl, by decide⟩
        · exact ⟨digitChar d, _, rfl, (digitChar_not_sign d).2.2.2⟩
      · exact ⟨'+', _, rfl, by decide⟩
      · exact ⟨'-', _, rfl, by decide⟩
    obtain ⟨c, r, h1, h2⟩ := hh
    rw [h1, List.dropWhile_cons_of_neg]; simp [h2]
  unfold stod
  rw [hsp, if_neg, atof_literal l hl]
  unfold scanDouble at h
  simp only at h
  split at h
  · cases h
  · rename_i h1; exact h1

theorem readNumbers_literals (ls : List Lit) (hl : ∀ l ∈ ls, l.Valid) :
    readNumbers (ls.map Lit.text) = .ok (ls.map Lit.value) := by
  induction ls with
  | nil => rfl
  | cons l ls ih =>
    simp only [List.map_cons, readNumbers, stod_literal l (hl l (by simp)), ih fun m hm => hl m (by simp [hm])]
    rfl

theorem stoi_decimal (n : ℕ) (h : n ≤ 2147483647) : stoi (Fields.decimal n) = .ok n := by
  have hd := Fields.decimal_digits n
  have hne := Fields.decimal_ne_nil n
  have ha := (atoi_decimal n).1
  unfold stoi
  rw [if_neg, ha, if_pos (by omega)]
  generalize Fields.decimal n = d at hd hne ha
  cases d with
  | nil => exact absurd rfl hne
  | cons c d =>
    have hc := hd c (by simp)
    have hc' := Deck.isDigit_not_space hc
    have hsp : (c :: d).dropWhile isSpace = c :: d := by
      rw [List.dropWhile_cons_of_neg]; simp [hc'.1]
    have hsg : takeSign (c :: d) = (false, c :: d) := by
      unfold takeSign
      split
      · rename_i h; cases h; exact absurd rfl hc'.2.1
      · rename_i h; cases h; exact absurd rfl hc'.2.2.1
      · rfl
    rw [hsp, hsg]
    simp [hc]

/-! ## Lines of a file -/

/-- The first lines of a file.  The last of them may lack its newline if the file ends there. -/
inductive Lines : List Str → Str → Prop
  | nil (rest : Str) : Lines [] rest
  | last (l : Str) : '\n' ∉ l → Lines [l] l
  | cons (l : Str) (ls : List Str) (rest : Str) : '\n' ∉ l → Lines ls rest → Lines (l :: ls) (l ++ '\n' :: rest)

/-- The stream is about to deliver these lines. -/
def Ready (ls : List Str) (f : In) : Prop := ls = [] ∨ (f.good = true ∧ Lines ls f.rest)

theorem getLine_ready {l : Str} {ls : List Str} {f : In} (h : Ready (l :: ls) f) (line : Str) :
    ∃ f', getLine line f = (l, f') ∧ Ready ls f' := by
  obtain ⟨rest, good⟩ := f
  rcases h with h | ⟨hg, h⟩
  · cases h
  · simp only at hg h
    subst hg
    cases h with
    | last _ hn =>
      refine ⟨⟨[], false⟩, ?_, Or.inl rfl⟩
      have htw : l.takeWhile (· ≠ '\n') = l := by
        rw [List.takeWhile_eq_self_iff]; intro c hc; simp; rintro rfl; exact hn hc
      unfold getLine
      simp only [htw, if_true]
    | cons _ _ rest hn hr =>
      refine ⟨⟨rest, true⟩, ?_, Or.inr ⟨rfl, hr⟩⟩
      have htw : (l ++ '\n' :: rest).takeWhile (· ≠ '\n') = l := by
        rw [List.takeWhile_append_of_pos]
        · simp
        · intro c hc; simp; rintro rfl; exact hn hc
      unfold getLine
      simp only [htw, if_true]
      rw [if_neg (by simp)]
      simp

/-- A line with one exact sample: the numbers in order, and nothing else. -/
def ExactLine (ls : List Lit) (line : Str) : Prop := (∀ l ∈ ls, l.Valid) ∧ Words (ls.map Lit.text) line

/-- A line with one approximate sample: the parameters, a colon, the coefficients. -/
def ApproxLine (x : List Lit × List Lit) (line : Str) : Prop :=
  ∃ p c, ExactLine x.1 p ∧ ExactLine x.2 c ∧ ':' ∉ p ∧ line = p ++ ':' :: c

theorem readExact_line {ls : List Lit} {line : Str} (h : ExactLine ls line) :
    readExact ls.length line = .ok (ls.map Lit.value) := by
  unfold readExact
  rw [split_words h.2, if_neg (by simp), readNumbers_literals ls h.1]

theorem readApprox_line {x : List Lit × List Lit} {line : Str} (h : ApproxLine x line) :
    readApprox x.1.length x.2.length line = .ok (x.1.map Lit.value, x.2.map Lit.value) := by
  obtain ⟨p, c, hp, hc, hn, rfl⟩ := h
  have htw : (p ++ ':' :: c).takeWhile (· ≠ ':') = p := by
    rw [List.takeWhile_append_of_pos]
    · simp
    · intro d hd; simp; rintro rfl; exact hn hd
  have hdr : (p ++ ':' :: c).drop (p.length + 1) = c := by
    rw [List.drop_append]; simp
  unfold readApprox
  rw [if_neg (by simp), htw]
  simp only [hdr, split_words hp.2, split_words hc.2, List.length_map, ne_eq, not_true, if_false,
    readNumbers_literals _ hp.1, readNumbers_literals _ hc.1]
  rfl

theorem readExacts_lines (np : ℕ) (xs : List (List Lit)) : ∀ (ls rest : List Str) (line : Str) (f : In),
    List.Forall₂ ExactLine xs ls → (∀ x ∈ xs, x.length = np) → Ready (ls ++ rest) f →
    ∃ line' f', readExacts np xs.length line f = .ok (xs.map (·.map Lit.value), line', f') ∧ Ready rest f' := by
  induction xs with
  | nil => intro ls rest line f h _ hr; cases h; exact ⟨line, f, rfl, hr⟩
  | cons x xs ih =>
    intro ls rest line f h hn hr
    cases h with
    | @cons _ l _ ls hx hxs =>
      obtain ⟨f1, h1, hr1⟩ := getLine_ready hr line
      obtain ⟨line2, f2, h2, hr2⟩ := ih ls rest l f1 hxs (fun y hy => hn y (by simp [hy])) hr1
      refine ⟨line2, f2, ?_, hr2⟩
      have hx' := readExact_line hx
      rw [hn x (by simp)] at hx'
      simp only [List.length_cons, readExacts, h1, hx', h2]
      rfl

theorem readApproxs_lines (np nc : ℕ) (xs : List (List Lit × List Lit)) : ∀ (ls : List Str) (line : Str) (f : In),
    List.Forall₂ ApproxLine xs ls → (∀ x ∈ xs, x.1.length = np ∧ x.2.length = nc) → Ready ls f →
    readApproxs np nc xs.length line f = .ok (xs.map fun x => (x.1.map Lit.value, x.2.map Lit.value)) := by
  induction xs with
  | nil => intro ls line f h _ hr; rfl
  | cons x xs ih =>
    intro ls line f h hn hr
    cases h with
    | @cons _ l _ ls hx hxs =>
      obtain ⟨f1, h1, hr1⟩ := getLine_ready hr line
      have h2 := ih ls l f1 hxs (fun y hy => hn y (by simp [hy])) hr1
      have hx' := readApprox_line hx
      rw [(hn x (by simp)).1, (hn x (by simp)).2] at hx'
      simp only [List.length_cons, readApproxs, h1, hx', h2]
      rfl

/-- **C76.**  A file with a header giving the numbers of exact and approximate samples, one line per exact
sample and one line per approximate sample with a colon between parameters and coefficients, in any spacing,
with or without a newline after the last line, is read to exactly these values, in order. -/
theorem sample_file_read (np : ℕ) (exact : List (List Lit)) (approx : List (List Lit × List Lit))
    (hexact : ∀ x ∈ exact, x.length = np) (happrox : ∀ x ∈ approx, x.1.length = np ∧ x.2.length = exact.length + 1)
    (hmax : exact.length ≤ 2147483647 ∧ approx.length ≤ 2147483647)
    (header : Str) (more : List Str) (hheader : Words (Fields.decimal exact.length :: Fields.decimal approx.length :: more) header)
    (elines alines : List Str) (he : List.Forall₂ ExactLine exact elines) (ha : List.Forall₂ ApproxLine approx alines)
    (text : Str) (htext : Lines (header :: elines ++ alines) text) :
    readSamples (some text) np = .ok
      { nexact := exact.length, napprox := approx.length
        xi := exact.map (·.map Lit.value) ++ approx.map (·.1.map Lit.value)
        coeff := approx.map (·.2.map Lit.value) } := by
  obtain ⟨f1, h1, hr1⟩ := getLine_ready (f := openFile (some text)) (Or.inr ⟨rfl, htext⟩) []
  obtain ⟨line2, f2, h2, hr2⟩ := readExacts_lines np exact elines alines header f1 he hexact hr1
  have h3 := readApproxs_lines np (exact.length + 1) approx alines line2 f2 ha happrox hr2
  unfold readSamples
  simp only [h1, split_words hheader, pop]
  have hb : ∀ {α β : Type} (a : α) (g : α → Outcome β), (Outcome.ok a >>= g) = g a := fun _ _ => rfl
  simp only [hb, stoi_decimal _ hmax.1, stoi_decimal _ hmax.2]
  rw [if_neg (by omega), if_neg (by omega)]
  simp only [Int.toNat_natCast, h2, hb, h3, List.map_map]
  rfl

/-! ## What is accepted -/

theorem Outcome.bind_ok {α β : Type} {x : Outcome α} {g : α → Outcome β} {b : β} (h : (x >>= g) = .ok b) :
    ∃ a, x = .ok a ∧ g a = .ok b := by
  cases x with
  | ok a => exact ⟨a, rfl, h⟩
  | throws => cases h
  | abort => cases h
  | undefined => cases h

theorem readNumbers_length {items : List Str} {xs : List ℚ} (h : readNumbers items = .ok xs) : xs.length = items.length := by
  induction items generalizing xs with
  | nil => cases h; rfl
  | cons i items ih =>
    obtain ⟨x, hx, h⟩ := Outcome.bind_ok h
    obtain ⟨ys, hy, h⟩ := Outcome.bind_ok h
    cases h
    simp [ih hy]

theorem readExact_ok {np : ℕ} {line : Str} {xs : List ℚ} (h : readExact np line = .ok xs) :
    (split line).length = np ∧ xs.length = np := by
  unfold readExact at h
  split at h
  · cases h
  · rename_i hn
    have := readNumbers_length h
    exact ⟨by simpa using hn, by simp at hn; omega⟩

theorem readApprox_ok {np nc : ℕ} {line : Str} {x : List ℚ × List ℚ} (h : readApprox np nc line = .ok x) :
    ':' ∈ line ∧ x.1.length = np ∧ x.2.length = nc := by
  unfold readApprox at h
  split at h
  · cases h
  · rename_i hc
    simp only at h
    split at h
    · cases h
    · rename_i h1
      obtain ⟨p, hp, h⟩ := Outcome.bind_ok h
      split at h
      · cases h
      · rename_i h2
        obtain ⟨c, hc', h⟩ := Outcome.bind_ok h
        cases h
        have := readNumbers_length hp
        have := readNumbers_length hc'
        rw [not_not] at h1 h2
        exact ⟨by simpa using hc, by simp only; omega, by simp only; omega⟩

theorem readExacts_ok {np n : ℕ} {line : Str} {f : In} {r : List (List ℚ) × Str × In}
    (h : readExacts np n line f = .ok r) : r.1.length = n ∧ ∀ x ∈ r.1, x.length = np := by
  induction n generalizing line f r with
  | zero => cases h; exact ⟨rfl, by simp⟩
  | succ n ih =>
    unfold readExacts at h
    simp only at h
    obtain ⟨x, hx, h⟩ := Outcome.bind_ok h
    obtain ⟨⟨xs, l, f'⟩, hxs, h⟩ := Outcome.bind_ok h
    cases h
    have := ih hxs
    refine ⟨by simp [this.1], fun y hy => ?_⟩
    rcases List.mem_cons.1 hy with rfl | hy
    · exact (readExact_ok hx).2
    · exact this.2 y hy

theorem readApproxs_ok {np nc n : ℕ} {line : Str} {f : In} {r : List (List ℚ × List ℚ)}
    (h : readApproxs np nc n line f = .ok r) : r.length = n ∧ ∀ x ∈ r, x.1.length = np ∧ x.2.length = nc := by
  induction n generalizing line f r with
  | zero => cases h; exact ⟨rfl, by simp⟩
  | succ n ih =>
    unfold readApproxs at h
    simp only at h
    obtain ⟨x, hx, h⟩ := Outcome.bind_ok h
    obtain ⟨xs, hxs, h⟩ := Outcome.bind_ok h
    cases h
    have := ih hxs
    refine ⟨by simp [this.1], fun y hy => ?_⟩
    rcases List.mem_cons.1 hy with rfl | hy
    · exact (readApprox_ok hx).2
    · exact this.2 y hy

/-- **C76.**  Whatever file is accepted, the tables have the shape that `ScaleParameters` and `ApplyClosure`
rely on: one row per sample with one entry per parameter, one row of coefficients per approximate sample with
one entry for the nominal and one for each exact sample. -/
theorem sample_file_shape (file : Option Str) (np : ℕ) (r : Samples) (h : readSamples file np = .ok r) : r.Shape np := by
  unfold readSamples at h
  simp only at h
  obtain ⟨⟨first, items⟩, -, h⟩ := Outcome.bind_ok h
  obtain ⟨ne, -, h⟩ := Outcome.bind_ok h
  obtain ⟨⟨second, items'⟩, -, h⟩ := Outcome.bind_ok h
  obtain ⟨na, -, h⟩ := Outcome.bind_ok h
  split at h
  · cases h
  · split at h
    · cases h
    · obtain ⟨⟨exact, line, f⟩, he, h⟩ := Outcome.bind_ok h
      obtain ⟨approx, ha, h⟩ := Outcome.bind_ok h
      cases h
      have he := readExacts_ok he
      have ha := readApproxs_ok ha
      refine ⟨?_, ?_, ?_, ?_⟩
      · simp [he.1, ha.1]
      · intro row hrow
        rcases List.mem_append.1 hrow with hrow | hrow
        · exact he.2 row hrow
        · obtain ⟨x, hx, rfl⟩ := List.mem_map.1 hrow
          exact (ha.2 x hx).1
      · simp [ha.1]
      · intro row hrow
        obtain ⟨x, hx, rfl⟩ := List.mem_map.1 hrow
        exact (ha.2 x hx).2

/-- **C76.**  A line of an exact sample with the wrong number of entries is refused wherever it stands after
well-formed lines. -/
theorem wrong_exact_refused (np : ℕ) (nexact napprox : ℕ) (hmax : nexact ≤ 2147483647 ∧ napprox ≤ 2147483647)
    (header : Str) (more : List Str) (hheader : Words (Fields.decimal nexact :: Fields.decimal napprox :: more) header)
    (good : List (List Lit)) (hgood : ∀ x ∈ good, x.length = np) (elines : List Str)
    (he : List.Forall₂ ExactLine good elines) (bad : Str) (ws : List Str) (hbad : Words ws bad) (hnum : ws.length ≠ np)
    (hlen : good.length < nexact) (text : Str) (htext : Lines (header :: elines ++ [bad]) text) :
    readSamples (some text) np = .throws := by
  obtain ⟨f1, h1, hr1⟩ := getLine_ready (f := openFile (some text)) (Or.inr ⟨rfl, htext⟩) []
  have hthrow : ∀ (good : List (List Lit)) (elines : List Str) (n : ℕ) (line : Str) (f : In), List.Forall₂ ExactLine good elines →
      (∀ x ∈ good, x.length = np) → good.length < n → Ready (elines ++ [bad]) f → readExacts np n line f = .throws := by
    intro good
    induction good with
    | nil =>
      intro elines n line f he _ hn hr
      cases he
      obtain ⟨n, rfl⟩ : ∃ m, n = m + 1 := ⟨n - 1, by simp at hn; omega⟩
      obtain ⟨f1, h1, -⟩ := getLine_ready hr line
      have : readExact np bad = .throws := by
        unfold readExact; rw [split_words hbad, if_pos hnum]
      simp only [readExacts, h1, this]
      rfl
    | cons x xs ih =>
      intro elines n line f he hl hn hr
      cases he with
      | @cons _ l _ ls hx hxs =>
        obtain ⟨n, rfl⟩ : ∃ m, n = m + 1 := ⟨n - 1, by simp at hn; omega⟩
        obtain ⟨f1, h1, hr1⟩ := getLine_ready hr line
        have h2 := ih ls n l f1 hxs (fun y hy => hl y (by simp [hy])) (by simp at hn; omega) hr1
        have hx' := readExact_line hx
        rw [hl x (by simp)] at hx'
        simp only [readExacts, h1, hx', h2]
        rfl
  have h2 := hthrow good elines nexact header f1 he hgood hlen hr1
  unfold readSamples
  simp only [h1, split_words hheader, pop]
  have hb : ∀ {α β : Type} (a : α) (g : α → Outcome β), (Outcome.ok a >>= g) = g a := fun _ _ => rfl
  simp only [hb, stoi_decimal _ hmax.1, stoi_decimal _ hmax.2]
  rw [if_neg (by omega), if_neg (by omega)]
  simp only [Int.toNat_natCast, h2]
  rfl

/-! ## Missing lines -/

/-- The tables, for comparison. -/
def tables : Outcome Samples → Option (ℕ × ℕ × List (List ℚ) × List (List ℚ))
  | .ok r => some (r.nexact, r.napprox, r.xi, r.coeff)
  | _ => none

/-- **C76** fails for a file that ends early without a newline: the last line present is used again for each
missing sample, silently. -/
theorem missing_line_repeated :
    tables (readSamples (some "3 0\n1.5\n2.5".toList) 1) = some (3, 0, [[3/2], [5/2], [5/2]], []) ∧
    tables (readSamples (some "0 2\n1 : 0.5".toList) 1) = some (0, 2, [[1], [1]], [[1/2], [1/2]]) := by
  constructor <;> decide +kernel

/-- With a newline at its end the same file is refused. -/
theorem missing_line_refused : tables (readSamples (some "3 0\n1.5\n2.5\n".toList) 1) = none := by decide +kernel

theorem getLine_bad (line : Str) (f : In) (h : f.good = false) : getLine line f = (line, f) := by
  unfold getLine; rw [h]; simp

/-- **C76** fails in general: any file whose last line is an exact sample without a newline passes for a file with
any larger number of exact samples, all further ones equal to the last. -/
theorem missing_exact_repeated (np missing : ℕ) (exact : List (List Lit)) (last : List Lit)
    (hexact : ∀ x ∈ exact, x.length = np) (hlast : last.length = np) (hmax : exact.length + 1 + missing ≤ 2147483647)
    (header : Str) (hheader : Words [Fields.decimal (exact.length + 1 + missing), Fields.decimal 0] header)
    (hn : '\n' ∉ header) (elines : List Str) (he : List.Forall₂ ExactLine exact elines) (hns : ∀ l ∈ elines, '\n' ∉ l)
    (lline : Str) (hl : ExactLine last lline) (hnl : '\n' ∉ lline) :
    readSamples (some ((header :: elines).flatMap (· ++ ['\n']) ++ lline)) np = .ok
      { nexact := exact.length + 1 + missing, napprox := 0
        xi := exact.map (·.map Lit.value) ++ List.replicate (missing + 1) (last.map Lit.value)
        coeff := [] } := by
  have hx' := readExact_line hl
  rw [hlast] at hx'
  have hrep : ∀ n (f : In), f.good = false →
      readExacts np n lline f = .ok (List.replicate n (last.map Lit.value), lline, f) := by
    intro n
    induction n with
    | zero => intro f _; rfl
    | succ n ih =>
      intro f hf
      simp only [readExacts, getLine_bad _ _ hf, hx', ih f hf]
      rfl
  have hget : ∀ line rest (l : Str), '\n' ∉ l → getLine line ⟨l ++ '\n' :: rest, true⟩ = (l, ⟨rest, true⟩) := by
    intro line rest l hn
    have htw : (l ++ '\n' :: rest).takeWhile (· ≠ '\n') = l := by
      rw [List.takeWhile_append_of_pos]
      · simp
      · intro c hc; simp; rintro rfl; exact hn hc
    unfold getLine
    simp only [htw, if_true]
    rw [if_neg (by simp)]
    simp
  have hgl : ∀ line, getLine line ⟨lline, true⟩ = (lline, ⟨[], false⟩) := by
    intro line
    have htw : lline.takeWhile (· ≠ '\n') = lline := by
      rw [List.takeWhile_eq_self_iff]; intro c hc; simp; rintro rfl; exact hnl hc
    unfold getLine
    simp only [htw, if_true]
  have hmain : ∀ (exact : List (List Lit)) (elines : List Str) (line : Str), List.Forall₂ ExactLine exact elines →
      (∀ x ∈ exact, x.length = np) → (∀ l ∈ elines, '\n' ∉ l) →
      ∃ l f, readExacts np (exact.length + 1 + missing) line ⟨elines.flatMap (· ++ ['\n']) ++ lline, true⟩ =
        .ok (exact.map (·.map Lit.value) ++ List.replicate (missing + 1) (last.map Lit.value), l, f) := by
    intro exact
    induction exact with
    | nil =>
      intro elines line he _ _
      cases he
      refine ⟨lline, ⟨[], false⟩, ?_⟩
      rw [show ([] : List (List Lit)).length + 1 + missing = missing + 1 by simp; omega]
      simp only [List.flatMap_nil, List.nil_append, readExacts, hgl, hx', hrep missing ⟨[], false⟩ rfl]
      rfl
    | cons x xs ih =>
      intro elines line he hx hn
      cases he with
      | @cons _ l _ ls hxl hxs =>
        obtain ⟨l', f', h2⟩ := ih ls l hxs (fun y hy => hx y (by simp [hy])) (fun m hm => hn m (by simp [hm]))
        refine ⟨l', f', ?_⟩
        have e : (l :: ls).flatMap (· ++ ['\n']) ++ lline = l ++ '\n' :: (ls.flatMap (· ++ ['\n']) ++ lline) := by simp
        have hx1 := readExact_line hxl
        rw [hx x (by simp)] at hx1
        rw [e, show (x :: xs).length + 1 + missing = (xs.length + 1 + missing) + 1 by simp; omega]
        simp only [readExacts, hget _ _ l (hn l (by simp)), hx1, h2]
        rfl
  obtain ⟨l, f, h2⟩ := hmain exact elines header he hexact hns
  have e : (header :: elines).flatMap (· ++ ['\n']) ++ lline = header ++ '\n' :: (elines.flatMap (· ++ ['\n']) ++ lline) := by simp
  unfold readSamples
  simp only [openFile, e, hget [] _ header hn, split_words hheader, pop]
  have hb : ∀ {α β : Type} (a : α) (g : α → Outcome β), (Outcome.ok a >>= g) = g a := fun _ _ => rfl
  simp only [hb, stoi_decimal _ hmax, stoi_decimal 0 (by omega)]
  rw [if_neg (by omega), if_neg (by omega)]
  simp only [Int.toNat_natCast, h2, hb]
  simp [readApproxs, hb]

/-! ## A concrete case -/

/-- The literal `0.5`. -/
def half : Lit := ⟨none, [0], some [5], none⟩

/-- The literal `-2`. -/
def minusTwo : Lit := ⟨some true, [2], none, none⟩

theorem words_one {w : Str} (hne : w ≠ []) (h : ∀ c ∈ w, isSpace c = false) : Words [w] w := by
  have := Words.cons [] w [] [] (by intro c hc; cases hc) hne h (by simp) (.nil [] (by intro c hc; cases hc))
  simpa using this

example : ExactLine [half] "0.5".toList ∧ ApproxLine ([minusTwo], [half, half]) "-2 : 0.5\t0.5".toList := by
  have hv : half.Valid := ⟨Or.inl (by simp [half]), by simp [half]⟩
  have hm : minusTwo.Valid := ⟨Or.inl (by simp [minusTwo]), by simp [minusTwo]⟩
  have hh : half.text = "0.5".toList := by decide
  have ht : minusTwo.text = "-2".toList := by decide
  refine ⟨⟨by simpa using hv, ?_⟩, "-2 ".toList, " 0.5\t0.5".toList, ⟨by simpa using hm, ?_⟩, ⟨by simpa using hv, ?_⟩, by decide, by decide⟩
  · rw [List.map_singleton, hh]; exact words_one (by decide) (by decide)
  · rw [List.map_singleton, ht]
    exact .cons [] "-2".toList " ".toList [] (by intro c hc; cases hc) (by decide) (by decide) (by decide) (.nil _ (by unfold Blank; decide))
  · simp only [List.map_cons, List.map_nil, hh]
    exact .cons " ".toList "0.5".toList "\t0.5".toList _ (by unfold Blank; decide) (by decide) (by decide) (by decide)
      (.cons "\t".toList "0.5".toList [] _ (by unfold Blank; decide) (by decide) (by decide) (by decide) (.nil _ (by unfold Blank; decide)))

example : tables (readSamples (some "1 1\n0.5\n-2 : 0.5\t0.5\n".toList) 1) =
    some (1, 1, [[1/2], [-2]], [[1/2, 1/2]]) := by decide +kernel

/-- **C76, no file.**  Without the file nothing is read: the numbers of samples are taken from an empty list. -/
theorem missing_file_undefined (np : ℕ) : readSamples none np = .undefined := by
  have h : split ([] : Str) = [] := split_nil_of_blank (by intro c hc; simp at hc)
  simp [readSamples, openFile, getLine, h, pop, bind, Outcome.bind]

/-- `std::stoi` gives only numbers of 32 bits, and the number that is written. -/
theorem stoi_range (s : Str) (n : ℤ) (h : stoi s = .ok n) : -2 ^ 31 ≤ n ∧ n < 2 ^ 31 ∧ n = atoi s := by
  unfold stoi at h
  simp only at h
  split_ifs at h with h1 h2
  obtain rfl : atoi s = n := by injection h
  exact ⟨by omega, by omega, rfl⟩

end NimbleSM.Uq
