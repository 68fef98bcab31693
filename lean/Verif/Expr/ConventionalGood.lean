import Verif.Expr.ConventionalLemmas

/-!
# C49: what is shown of texts in conventional notation, operator by operator
-/

namespace NimbleSM.Expr

open NimbleSM.Parse

variable {K : Type} (A : Arith K)

/-- Characters of conditions. -/
abbrev Base (c : Char) : Prop := c ≠ '|' ∧ c ≠ '&' ∧ c ≠ '!' ∧ c ≠ '>' ∧ c ≠ '<' ∧ c ≠ '='

/-- What may stand outside parentheses at each level. -/
def Allowed : Cat → Char → Prop
  | .prim, c => N6 c ∧ Base c
  | .sprim, c => N6 c ∧ Base c
  | .signed, c => N5 c ∧ Base c
  | .term, c => N3 c ∧ Base c
  | .sum, c => N2 c ∧ Base c
  | .modc, c => N1 c ∧ Base c
  | .arith, c => N1 c ∧ Base c
  | .full, _ => True
  | .batom, c => c ≠ '?' ∧ c ≠ '|' ∧ c ≠ '^' ∧ c ≠ '&'
  | .band, c => c ≠ '?' ∧ c ≠ '|' ∧ c ≠ '^'
  | .bxor, c => c ≠ '?' ∧ c ≠ '|'
  | .bor, c => c ≠ '?'

/-- The integers a text may be taken for. -/
def IntOf (x : Ex) (v : ℤ) : Prop := ∃ l : Num, (x = .num l ∧ l.lit.value = v) ∨ (x = .neg (.num l) ∧ -l.lit.value = v)

/-- A product is split at the last `*`. -/
def TermSplit (t : Str) (x : Ex) : Prop :=
  Top N4 t ∨ ∃ a i j b, ∃ na nb : Node K, t = a ++ i ++ '*' :: (j ++ b) ∧ Blank i ∧ Blank j ∧ Trim a ∧ Trim b ∧ Top N3 a ∧ Top N4 b ∧
    SubFall a ∧ SubFall b ∧ ParsesAll A a na ∧ ParsesAll A b nb ∧
    ∀ env, A.op .mul (na.eval A env) (nb.eval A env) = x.eval A env

/-- A sum is split at the last `+`. -/
def SumSplit (t : Str) (x : Ex) : Prop :=
  Top N3 t ∨ ∃ a i j b, ∃ na nb : Node K, t = a ++ i ++ '+' :: (j ++ b) ∧ Blank i ∧ Blank j ∧ Trim a ∧ Trim b ∧ Top N2 a ∧ Top N3 b ∧
    ¬ NumE a ∧ Ends b ∧ ParsesAll A a na ∧ ParsesAll A b nb ∧
    ∀ env, A.op .add (na.eval A env) (nb.eval A env) = x.eval A env

/-- What is shown of the texts of expressions. -/
structure Good (c : Cat) (p : Bool) (t : Str) (x : Ex) : Prop where
  trim : Trim t
  nest : Nest '(' ')' t
  nestQ : Nest '?' ':' t
  top : Top (Allowed c) t
  ends : Ends t
  numE : ¬ NumE t
  sub : c = .prim ∨ c = .sprim ∨ c = .signed ∨ c = .term → SubFall t
  head : c = .prim → t.head? ≠ some '-'
  neg : c = .prim ∨ c = .sprim → isNumber ('-' :: t) = true → ∃ l : Num, t = l.lit.text ∧ x = .num l
  core : ∃ n : Node K, (∀ i j, Pad p i j → Core A (i ++ t ++ j) n (IntOf x)) ∧ ∀ env, n.eval A env = x.eval A env
  term : c = .term → TermSplit A t x
  sum : c = .sum → SumSplit A t x

/-- What is shown of the texts of conditions. -/
structure GoodB (c : Cat) (p : Bool) (t : Str) (x : BEx) : Prop where
  trim : Trim t
  nest : Nest '(' ')' t
  nestQ : Nest '?' ':' t
  top : Top (Allowed c) t
  core : ∃ n : BNode K, (∀ i j, Pad p i j → CoreB A (i ++ t ++ j) n) ∧ ∀ env, n.eval A env = x.eval A env

variable {A}

theorem pad_nil (p : Bool) : Pad p [] [] := ⟨blank_nil, blank_nil, fun _ => ⟨rfl, rfl⟩⟩

theorem Good.parses {c : Cat} {p : Bool} {t : Str} {x : Ex} (h : Good A c p t x) :
    ∃ n : Node K, ParsesAll A t n ∧ Core A t n (IntOf x) ∧ ∀ env, n.eval A env = x.eval A env := by
  obtain ⟨n, hc, he⟩ := h.core
  have hc0 : Core A t n (IntOf x) := by simpa using hc [] [] (pad_nil p)
  exact ⟨n, fun i j hi hj => hc0.parses A h.trim hi hj, hc0, he⟩

theorem GoodB.parses {c : Cat} {p : Bool} {t : Str} {x : BEx} (h : GoodB A c p t x) :
    ∃ n : BNode K, ParsesAllB A t n ∧ ∀ env, n.eval A env = x.eval A env := by
  obtain ⟨n, hc, he⟩ := h.core
  have hc0 : CoreB A t n := by simpa using hc [] [] (pad_nil p)
  exact ⟨n, fun i j hi hj => hc0.parses A h.trim hi hj, he⟩

theorem Blank.nest {t : Str} (h : Blank t) : Nest '(' ')' t := (h.top (p := fun _ => True) trivial).nest

/-! ## Primaries -/

/-- Numbers, at any level that allows their characters. -/
theorem good_num (l : Num) (c : Cat) (hc : Top (Allowed c) l.lit.text) (hcat : c = .prim ∨ c = .arith) :
    Good A c false l.lit.text (.num l) := by
  obtain ⟨d, r, hcr, hd⟩ := l.head
  obtain ⟨a, b, hab, hb⟩ := l.last
  have htrim : Trim l.lit.text := by
    refine ⟨by rw [hcr]; simp, ?_, ?_⟩
    · rw [hcr]
      simp only [List.head?_cons, ne_eq, Option.some.injEq]
      rintro rfl
      revert hd; decide
    · rw [hab, List.getLast?_append]
      simp only [List.getLast?_singleton, Option.some_or, ne_eq, Option.some.injEq]
      rintro rfl
      revert hb; decide
  have hch : ∀ x ∈ l.lit.text, ∀ y, numChar y = false → x ≠ y := by
    rintro x hx y hy rfl
    rw [l.mem hx] at hy; cases hy
  have hlast : ∀ y, (isDigit y = false ∧ y ≠ '.') → b ≠ y := by
    rintro y ⟨h1, h2⟩ rfl
    rcases hb with h | h
    · rw [h] at h1; cases h1
    · exact h2 h
  refine ⟨htrim, Nest.of_chars fun x hx => ⟨hch x hx _ (by decide), hch x hx _ (by decide)⟩,
    Nest.of_chars fun x hx => ⟨hch x hx _ (by decide), hch x hx _ (by decide)⟩, hc, ?_, ?_, fun _ => l.subFall, fun _ => ?_,
    fun _ _ => ⟨l, rfl, rfl⟩, ⟨.const (A.ofRat l.lit.value), ?_, fun env => by rw [Node.eval, Ex.eval]⟩, ?_, ?_⟩
  · refine ⟨a, b, hab, Or.inl ?_, hlast _ (by decide), hlast _ (by decide)⟩
    have h1 := hlast '*' (by decide)
    have h2 := hlast '/' (by decide)
    have h3 := hlast '^' (by decide)
    have h4 := hlast 'e' (by decide)
    have h5 := hlast '=' (by decide)
    have h6 := hlast '<' (by decide)
    have h7 := hlast '~' (by decide)
    have h8 := hlast '>' (by decide)
    simp [beforeNegation, h1, h2, h3, h4, h5, h6, h7, h8]
  · refine not_numE_last ?_
    rw [hab, List.getLast?_append]
    simp only [List.getLast?_singleton, Option.some_or, ne_eq, Option.some.injEq]
    exact hlast 'e' (by decide)
  · rw [hcr]
    simp only [List.head?_cons, ne_eq, Option.some.injEq]
    rintro rfl
    revert hd; decide
  · intro i j hp
    obtain ⟨rfl, rfl⟩ := hp.2.2 rfl
    simp only [List.nil_append, List.append_nil]
    refine core_atom A htrim ?_ (body_number A l.isNumber.1 l.scan) ?_
    · rw [hcr]
      refine opened_head ?_
      rintro rfl
      revert hd; decide
    · intro h
      obtain ⟨v, hv, he⟩ := l.integerOf h
      exact ⟨v, ⟨l, Or.inl ⟨rfl, hv⟩⟩, he⟩
  · rintro rfl; rcases hcat with h | h <;> cases h
  · rintro rfl; rcases hcat with h | h <;> cases h

/-- Names. -/
theorem good_name {t : Str} {x : Ex} {n : Node K} (ht : Trim t) (hc : ∀ c ∈ t, c ≠ '(' ∧ c ≠ ')' ∧ c ≠ '?' ∧ c ≠ ':' ∧ c ≠ '-' ∧ N6 c ∧ Base c)
    (he : Ends t) (hn : ¬ NumE t) (hneg : isNumber ('-' :: t) = false) (hint : isInteger t = false) (hb : Body A t n)
    (hv : ∀ env, n.eval A env = x.eval A env) : Good A .prim false t x := by
  have hhead : t.head? ≠ some '-' := by
    intro h
    exact (hc _ (List.mem_of_mem_head? (by rw [h]; rfl))).2.2.2.2.1 rfl
  refine ⟨ht, Nest.of_chars fun c h => ⟨(hc c h).1, (hc c h).2.1⟩, Nest.of_chars fun c h => ⟨(hc c h).2.2.1, (hc c h).2.2.2.1⟩,
    Top.of_chars fun c h => ⟨(hc c h).1, (hc c h).2.1, (hc c h).2.2.2.2.2⟩, he, hn,
    fun _ => .none _ (Top.of_chars fun c h => ⟨(hc c h).1, (hc c h).2.1, (hc c h).2.2.2.2.1⟩), fun _ => hhead,
    fun _ h => (by rw [hneg] at h; cases h), ⟨n, ?_, hv⟩, by simp, by simp⟩
  intro i j hp
  obtain ⟨rfl, rfl⟩ := hp.2.2 rfl
  simp only [List.nil_append, List.append_nil]
  obtain ⟨c, r, rfl⟩ := List.exists_cons_of_ne_nil ht.1
  exact core_atom A ht (opened_head (hc c (by simp)).1) hb (by rw [hint]; intro h; cases h)

/-- Texts that end in a closed group. -/
theorem good_group {name t : Str} {x : Ex} {n : Node K} (hname : ∀ c ∈ name, c ≠ '(' ∧ c ≠ ')' ∧ c ≠ '?' ∧ c ≠ ':' ∧ c ≠ '-' ∧ N6 c ∧ Base c ∧ c ≠ ' ')
    (hn : Nest '(' ')' t) (hq : Nest '?' ':' t) (hc : Core A (name ++ '(' :: (t ++ [')'])) n (IntOf x))
    (hv : ∀ env, n.eval A env = x.eval A env) : Good A .prim false (name ++ '(' :: (t ++ [')'])) x := by
  have htop : ∀ {p : Char → Prop}, (∀ c ∈ name, p c) → Top p (name ++ '(' :: (t ++ [')'])) := fun h =>
    (Top.of_chars fun c hc => ⟨(hname c hc).1, (hname c hc).2.1, h c hc⟩).append (Top.wrap hn)
  have hhead : ∀ d, d ≠ '(' → (∀ c ∈ name, c ≠ d) → (name ++ '(' :: (t ++ [')'])).head? ≠ some d := by
    intro d hd hnd
    rcases name with _ | ⟨c, name⟩
    · simpa using hd.symm
    · simpa using hnd c (by simp)
  have hparen : '(' ∈ name ++ '(' :: (t ++ [')']) := by simp
  have e : name ++ '(' :: (t ++ [')']) = (name ++ '(' :: t) ++ [')'] := by simp
  refine ⟨⟨by simp, hhead ' ' (by decide) fun c h => (hname c h).2.2.2.2.2.2.2, ?_⟩, ?_, ?_, htop fun c h => ⟨(hname c h).2.2.2.2.2.1, (hname c h).2.2.2.2.2.2.1⟩,
    ⟨name ++ '(' :: t, ')', e, Or.inl (by decide), by decide, by decide⟩, not_numE_of_mem hparen (by decide),
    fun _ => .none _ (htop fun c h => (hname c h).2.2.2.2.1), fun _ => hhead '-' (by decide) fun c h => (hname c h).2.2.2.2.1,
    fun _ h => ?_, ⟨n, ?_, hv⟩, by simp, by simp⟩
  · rw [e, List.getLast?_append]
    simp
  · exact (Nest.of_chars fun c h => ⟨(hname c h).1, (hname c h).2.1⟩).append hn.wrap
  · exact (Nest.of_chars fun c h => ⟨(hname c h).2.2.1, (hname c h).2.2.2.1⟩).append
      (Nest.char '(' _ (by decide) (by decide) (hq.append (Nest.single (ch := ')') (by decide) (by decide))))
  · rw [isNumber_false (c := '(') (by simp) (by decide)] at h; cases h
  · intro i j hp
    obtain ⟨rfl, rfl⟩ := hp.2.2 rfl
    simpa using hc

/-! ## Going up -/

theorem Good.up {c c' : Cat} {p : Bool} {t : Str} {x : Ex} (h : Good A c p t x) (htop : ∀ ch, Allowed c ch → Allowed c' ch)
    (hsub : (c' = .prim ∨ c' = .sprim ∨ c' = .signed ∨ c' = .term) → (c = .prim ∨ c = .sprim ∨ c = .signed ∨ c = .term))
    (hneg : (c' = .prim ∨ c' = .sprim) → (c = .prim ∨ c = .sprim)) (hp : c' ≠ .prim)
    (ht : c' = .term → TermSplit A t x) (hs : c' = .sum → SumSplit A t x) : Good A c' p t x :=
  ⟨h.trim, h.nest, h.nestQ, h.top.mono htop, h.ends, h.numE, fun hc => h.sub (hsub hc), fun hc => absurd hc hp,
    fun hc => h.neg (hneg hc), h.core, ht, hs⟩

/-! ## Operators -/

theorem ends_op {c : Char} {a i j b : Str} (hb : Ends b) : Ends (a ++ i ++ c :: (j ++ b)) := by
  have := hb.append (a ++ i ++ c :: j)
  simpa using this

theorem trim_op {c : Char} {a i j b : Str} (ha : Trim a) (hb : Trim b) : Trim (a ++ i ++ c :: (j ++ b)) := by
  have := trim_ends ha hb (i ++ c :: j)
  simpa using this

theorem nest_op {o k c : Char} {a i j b : Str} (hc : c ≠ o ∧ c ≠ k) (ha : Nest o k a) (hi : Nest o k i) (hj : Nest o k j) (hb : Nest o k b) :
    Nest o k (a ++ i ++ c :: (j ++ b)) :=
  (ha.append hi).append (Nest.char c _ hc.1 hc.2 (hj.append hb))

theorem top_op {p : Char → Prop} {c : Char} {a i j b : Str} (hc : c ≠ '(' ∧ c ≠ ')') (hpc : p c) (hs : p ' ') (ha : Top p a) (hi : Blank i) (hj : Blank j)
    (hb : Top p b) : Top p (a ++ i ++ c :: (j ++ b)) :=
  (ha.append (hi.top hs)).op ((hj.top hs).append hb) hc hpc

/-- The parts of `Good` that do not depend on the operator. -/
theorem good_op {c : Char} {cat : Cat} {p : Bool} {a i j b : Str} {x y z : Ex} {ca cb : Cat} {pa pb : Bool} (hi : Blank i) (hj : Blank j)
    (ha : Good A ca pa a x) (hb : Good A cb pb b y) (hc : c ≠ '(' ∧ c ≠ ')' ∧ c ≠ '?' ∧ c ≠ ':') (hpc : Allowed cat c) (hs : Allowed cat ' ')
    (hta : Top (Allowed cat) a) (htb : Top (Allowed cat) b)
    (hn : numChar c = false ∨ c = '+' ∨ c = '-') (hcat : cat ≠ .prim ∧ cat ≠ .sprim)
    (hsub : cat = .signed ∨ cat = .term → SubFall (a ++ i ++ c :: (j ++ b)))
    (core : ∃ n : Node K, (∀ i0 j0, Pad p i0 j0 → Core A (i0 ++ (a ++ i ++ c :: (j ++ b)) ++ j0) n (IntOf z)) ∧ ∀ env, n.eval A env = z.eval A env)
    (hterm : cat = .term → TermSplit A (a ++ i ++ c :: (j ++ b)) z) (hsum : cat = .sum → SumSplit A (a ++ i ++ c :: (j ++ b)) z) :
    Good A cat p (a ++ i ++ c :: (j ++ b)) z := by
  refine ⟨trim_op ha.trim hb.trim, nest_op ⟨hc.1, hc.2.1⟩ ha.nest hi.nest hj.nest hb.nest,
    nest_op hc.2.2 ha.nestQ hi.nestQ hj.nestQ hb.nestQ,
    top_op ⟨hc.1, hc.2.1⟩ hpc hs hta hi hj htb, ends_op hb.ends, ?_, fun h => hsub ?_, fun h => absurd h hcat.1,
    fun h => ?_, core, hterm, hsum⟩
  · rcases hn with hn | hn
    · exact not_numE_of_mem (c := c) (by simp) hn
    · exact not_numE_op hn (by simp [ha.trim.1]) (numE_blank ha.numE hi)
  · rcases h with h | h | h | h
    · exact absurd h hcat.1
    · exact absurd h hcat.2
    · exact Or.inl h
    · exact Or.inr h
  · rcases h with h | h
    · exact absurd h hcat.1
    · exact absurd h hcat.2

theorem n4_of_signed {t : Str} (h : Top (Allowed .signed) t) : Top N4 t :=
  h.mono fun _ h => ⟨h.1.1, h.1.2.1, h.1.2.2.1, h.1.2.2.2.1⟩

theorem n3_of_term {t : Str} (h : Top (Allowed .term) t) : Top N3 t := h.mono fun _ h => h.1

theorem pad_head {a i j : Str} (h : Pad (decide (a.head? ≠ some '-')) i j) : Blank i ∧ Blank j ∧ (i = [] ∨ a.head? ≠ some '-') := by
  refine ⟨h.1, h.2.1, ?_⟩
  by_cases hh : a.head? ≠ some '-'
  · exact Or.inr hh
  · exact Or.inl (h.2.2 (by simpa using hh)).1

theorem good_mul {p q : Bool} {a i j b : Str} {x y : Ex} (ha : Good A .term p a x) (hi : Blank i) (hj : Blank j)
    (hb : Good A .signed q b y) : Good A .term (a.head? ≠ some '-') (a ++ i ++ '*' :: (j ++ b)) (.bin .mul x y) := by
  obtain ⟨na, pa, -, ea⟩ := ha.parses
  obtain ⟨nb, pb, -, eb⟩ := hb.parses
  have hsa := ha.sub (by simp)
  have hsb := hb.sub (by simp)
  refine good_op hi hj ha hb (by decide) ⟨by decide, by decide⟩ ⟨by decide, by decide⟩ ha.top
    (hb.top.mono fun _ h => ⟨⟨h.1.1, h.1.2.1, h.1.2.2.1⟩, h.2⟩) (Or.inl (by decide)) (by decide) (fun _ => subFall_op hsa hsb hi hj (by simp))
    ⟨.bin .mul na nb, fun i0 j0 hp => ?_, fun env => by rw [Node.eval, Ex.eval, ea, eb]⟩ (fun _ => Or.inr ?_) (by simp)
  · obtain ⟨h1, h2, h3⟩ := pad_head hp
    exact mul_core ha.trim hb.trim (n3_of_term ha.top) (n4_of_signed hb.top) hi hj hsa hsb pa pb i0 j0 h1 h2 h3
  · exact ⟨a, i, j, b, na, nb, rfl, hi, hj, ha.trim, hb.trim, n3_of_term ha.top, n4_of_signed hb.top, hsa, hsb, pa, pb,
      fun env => by rw [Ex.eval, ea, eb]⟩

theorem good_div (hA : Exact A) {p q : Bool} {a i j b : Str} {x y : Ex} (ha : Good A .term p a x) (hi : Blank i) (hj : Blank j)
    (hb : Good A .signed q b y) : Good A .term (a.head? ≠ some '-') (a ++ i ++ '/' :: (j ++ b)) (.bin .div x y) := by
  obtain ⟨na, pa, -, ea⟩ := ha.parses
  obtain ⟨nb, pb, -, eb⟩ := hb.parses
  have hsa := ha.sub (by simp)
  have hsb := hb.sub (by simp)
  have hb5 : Top N5 b := hb.top.mono fun _ h => h.1
  have base := fun core hterm => good_op (cat := .term) (p := decide (a.head? ≠ some '-')) (c := '/') (z := .bin .div x y) hi hj ha hb (by decide)
    ⟨by decide, by decide⟩ ⟨by decide, by decide⟩ ha.top
    (hb.top.mono fun _ h => ⟨⟨h.1.1, h.1.2.1, h.1.2.2.1⟩, h.2⟩) (Or.inl (by decide)) (by decide) (fun _ => subFall_op hsa hsb hi hj (by simp))
    core hterm (by simp)
  rcases ha.term rfl with h4 | ⟨a1, i1, j1, b1, n1, n2, rfl, hi1, hj1, ta1, tb1, top1, top2, s1, s2, p1, p2, e12⟩
  · refine base ⟨.bin .div na nb, fun i0 j0 hp => ?_, fun env => by rw [Node.eval, Ex.eval, ea, eb]⟩ (fun _ => Or.inl ?_)
    · obtain ⟨h1, h2, h3⟩ := pad_head hp
      exact div_core ha.trim hb.trim h4 hb5 hi hj hsa hsb pa pb i0 j0 h1 h2 h3
    · exact top_op (by decide) (by decide) (by decide) h4 hi hj (n4_of_signed hb.top)
  · -- the quotient belongs to the right factor
    have e : a1 ++ i1 ++ '*' :: (j1 ++ b1) ++ i ++ '/' :: (j ++ b) = a1 ++ i1 ++ '*' :: (j1 ++ (b1 ++ i ++ '/' :: (j ++ b))) := by simp
    have hc0 := div_core (A := A) (I := IntOf (.bin .div x y)) tb1 hb.trim top2 hb5 hi hj s2 hsb p2 pb [] [] blank_nil blank_nil (Or.inl rfl)
    simp only [List.nil_append, List.append_nil] at hc0
    have ht0 : Trim (b1 ++ i ++ '/' :: (j ++ b)) := trim_op tb1 hb.trim
    have hp0 : ParsesAll A (b1 ++ i ++ '/' :: (j ++ b)) (.bin .div n2 nb) := fun i0 j0 h1 h2 => hc0.parses A ht0 h1 h2
    have htop0 : Top N4 (b1 ++ i ++ '/' :: (j ++ b)) := top_op (by decide) (by decide) (by decide) top2 hi hj (n4_of_signed hb.top)
    have hs0 : SubFall (b1 ++ i ++ '/' :: (j ++ b)) := subFall_op s2 hsb hi hj (by simp)
    have hev : ∀ env, A.op .mul (n1.eval A env) ((Node.bin .div n2 nb).eval A env) = (Ex.bin .div x y).eval A env := by
      intro env
      rw [Node.eval, Ex.eval, hA.mul_div, e12, eb]
    refine base ⟨.bin .mul n1 (.bin .div n2 nb), fun i0 j0 hp => ?_, fun env => by rw [Node.eval]; exact hev env⟩ (fun _ => Or.inr ?_)
    · obtain ⟨h1, h2, h3⟩ := pad_head hp
      rw [e]
      refine mul_core ta1 ht0 top1 htop0 hi1 hj1 s1 hs0 p1 hp0 i0 j0 h1 h2 ?_
      rcases h3 with h3 | h3
      · exact Or.inl h3
      · right
        rwa [List.append_assoc, ta1.head_append] at h3
    · exact ⟨a1, i1, j1, _, n1, _, e, hi1, hj1, ta1, ht0, top1, htop0, s1, hs0, p1, hp0, hev⟩

theorem good_pow (hA : Exact A) {p q : Bool} {a i j b : Str} {x y : Ex} (ha : Good A .prim p a x) (hi : Blank i) (hj : Blank j)
    (hb : Good A .signed q b y) (hy : SmallExponent y) : Good A .signed true (a ++ i ++ '^' :: (j ++ b)) (.bin .pow x y) := by
  obtain ⟨na, pa, -, ea⟩ := ha.parses
  obtain ⟨nb, pb, cb, eb⟩ := hb.parses
  have hsa := ha.sub (by simp)
  have hsb := hb.sub (by simp)
  obtain ⟨n, hn, hcore⟩ := pow_core (A := A) (I' := IntOf (.bin .pow x y)) ha.trim hb.trim (ha.top.mono fun _ h => h.1) (hb.top.mono fun _ h => h.1) hi hj
    hsa hsb (ha.head rfl) pa cb
  refine good_op hi hj ha hb (by decide) ⟨by decide, by decide⟩ ⟨by decide, by decide⟩
    (ha.top.mono fun _ h => ⟨⟨h.1.1, h.1.2.1, h.1.2.2.1, h.1.2.2.2.1, h.1.2.2.2.2.1⟩, h.2⟩) hb.top (Or.inl (by decide)) (by decide)
    (fun _ => subFall_op hsa hsb hi hj (by simp)) ⟨n, fun i0 j0 hp => hcore i0 j0 hp.1 hp.2.1, ?_⟩ (by simp) (by simp)
  intro env
  rcases hn with rfl | ⟨v, ⟨l, hl⟩, rfl⟩
  · rw [Node.eval, Ex.eval, ea, eb]
  · have h0 := l.value_nonneg
    have hsm := hy l (by rcases hl with ⟨h, -⟩ | ⟨h, -⟩; exacts [Or.inl h, Or.inr h])
    have hv : y.eval A env = A.ofRat v := by
      rcases hl with ⟨h, h'⟩ | ⟨h, h'⟩
      · rw [h, Ex.eval, h']
      · rw [h, Ex.eval, Ex.eval, hA.neg_lit, h']
    have h1 : -2147483648 ≤ v ∧ v < 2147483648 := by
      rcases hl with ⟨-, h'⟩ | ⟨-, h'⟩
      · rw [h'] at h0 hsm
        have : (0 : ℤ) ≤ v := by exact_mod_cast h0
        have : v < 2147483648 := by exact_mod_cast hsm
        omega
      · have h2 : (v : ℚ) ≤ 0 := by rw [← h']; linarith
        have h3 : (-2147483648 : ℚ) < v := by rw [← h']; linarith
        have : v ≤ 0 := by exact_mod_cast h2
        have : -2147483648 < v := by exact_mod_cast h3
        omega
    rw [Node.eval, Ex.eval, ea, toInt32_id h1.1 h1.2, hA.int v h1.1 h1.2, hv]

theorem good_neg (hA : Exact A) {p : Bool} {i t : Str} {x : Ex} (hi : Blank i) (h : Good A .sprim p t x) :
    Good A .sprim false ('-' :: (i ++ t)) (.neg x) := by
  obtain ⟨n, pn, -, en⟩ := h.parses
  have htrim : Trim ('-' :: (i ++ t)) := by
    have := trim_ends (a := ['-']) ⟨by simp, by decide, by decide⟩ h.trim i
    simpa using this
  have hsub : SubFall ('-' :: (i ++ t)) := by
    cases h.sub (by simp) with
    | none _ h => exact .lead i t (fun c hc => Or.inr (hi c hc)) h
    | lead m b hm hb =>
      have := SubFall.lead (i ++ '-' :: m) b (by
        intro c hc
        simp only [List.mem_append, List.mem_cons] at hc
        rcases hc with hc | hc | hc
        · exact Or.inr (hi c hc)
        · exact Or.inl hc
        · exact hm c hc) hb
      simpa using this
    | op a ch m b h1 h2 h3 h4 =>
      have := SubFall.op ('-' :: (i ++ a)) ch m b h1 h2 h3 h4
      simpa using this
  have htop : Top (Allowed .sprim) ('-' :: (i ++ t)) :=
    Top.cons ((hi.top ⟨by decide, by decide⟩).append h.top) (by decide) ⟨by decide, by decide⟩
  -- a number directly after the sign
  have hnum : isNumber ('-' :: (i ++ t)) = true → i = [] ∧ ∃ l : Num, t = l.lit.text ∧ x = .num l := by
    intro hn
    have hi0 : i = [] := by
      rcases i with _ | ⟨c, i⟩
      · rfl
      · rw [hi c (by simp), isNumber_false (c := ' ') (by simp) (by decide)] at hn
        cases hn
    subst hi0
    exact ⟨rfl, h.neg (by simp) (by simpa using hn)⟩
  have hneg : isNumber ('-' :: ('-' :: (i ++ t))) = false := by
    rw [isNumber_cons, if_pos (Or.inl rfl)]
    unfold numLoop
    rw [if_neg (by decide), if_neg (by rintro ⟨h, -⟩; exact absurd h (by decide)), if_neg (by rintro ⟨h, -⟩; exact absurd h (by decide))]
  have hE : ¬ NumE ('-' :: (i ++ t)) := by
    rintro ⟨a0, h0, h1⟩
    -- the text without the sign is unfinished too
    rcases a0 with _ | ⟨c, a0⟩
    · simp only [List.nil_append, List.cons.injEq] at h0
      exact absurd h0.1 (by decide)
    · rw [List.cons_append] at h0 h1
      obtain ⟨rfl, h0'⟩ := List.cons.inj h0
      rw [isNumber_cons, if_pos (Or.inl rfl)] at h1
      have hit : i = [] := by
        rcases i with _ | ⟨c, i⟩
        · rfl
        · exfalso
          have hc := hi c (by simp)
          subst hc
          have hmem : ' ' ∈ a0 ++ ['e', '0'] := by
            have : ' ' ∈ a0 ++ ['e'] := by rw [← h0']; simp
            simp only [List.mem_append, List.mem_cons] at this ⊢
            rcases this with h | h | h
            · exact Or.inl h
            · exact absurd h (by decide)
            · cases h
          have := numLoop_mem h1 ' ' hmem
          revert this; decide
      subst hit
      simp only [List.nil_append] at h0'
      apply h.numE
      refine ⟨a0, h0', ?_⟩
      rcases a0 with _ | ⟨c, a0⟩
      · revert h1; decide
      · rw [List.cons_append] at h1 ⊢
        rw [isNumber_cons, if_neg]
        · exact h1
        · rintro (rfl | rfl)
          · revert h1
            unfold numLoop
            rw [if_neg (by decide), if_neg (by rintro ⟨h, -⟩; exact absurd h (by decide)), if_neg (by rintro ⟨h, -⟩; exact absurd h (by decide))]
            simp
          · revert h1
            unfold numLoop
            rw [if_neg (by decide), if_neg (by rintro ⟨h, -⟩; exact absurd h (by decide)), if_neg (by rintro ⟨h, -⟩; exact absurd h (by decide))]
            simp
  refine ⟨htrim, Nest.char '-' _ (by decide) (by decide) (hi.nest.append h.nest), Nest.char '-' _ (by decide) (by decide) (hi.nestQ.append h.nestQ),
    htop, ?_, hE, fun _ => hsub, by simp, fun _ hn => (by rw [hneg] at hn; cases hn), ?_, by simp, by simp⟩
  · have := h.ends.append ('-' :: i)
    simpa using this
  · by_cases hn : isNumber ('-' :: (i ++ t)) = true
    · obtain ⟨rfl, l, rfl, rfl⟩ := hnum hn
      refine ⟨.const (A.ofRat (-l.lit.value)), fun i j hp => ?_, fun env => by rw [Node.eval, Ex.eval, Ex.eval, hA.neg_lit]⟩
      obtain ⟨rfl, rfl⟩ := hp.2.2 rfl
      simp only [List.nil_append, List.append_nil] at htrim ⊢
      refine core_atom A htrim (opened_head (by decide)) (body_number A l.isNumber.2 l.scanNeg) fun hi => ?_
      obtain ⟨v, hv, he⟩ := l.integerOfNeg hi
      exact ⟨v, ⟨l, Or.inr ⟨rfl, hv⟩⟩, he⟩
    · refine ⟨.fn .neg n, fun i0 j0 hp => ?_, fun env => by rw [Node.eval, Ex.eval, en]⟩
      obtain ⟨rfl, rfl⟩ := hp.2.2 rfl
      simp only [List.nil_append, List.append_nil]
      refine core_atom A htrim (opened_head (by decide)) (body_neg A ((hi.top (by decide)).append (h.top.mono fun _ h => h.1)) hsub
        (by simpa using hn) (by simpa using pn i [] hi blank_nil)) fun hint => ?_
      -- an integer would be a number
      exfalso
      apply hn
      rw [isInteger_cons] at hint
      split_ifs at hint with h1 h2
      rw [isNumber_cons, if_pos (Or.inl rfl)]
      have key : ∀ (s : Str) (d g : Bool), s.all isDigit = true → numLoop d g s = true := by
        intro s
        induction s with
        | nil => intro d g _; rfl
        | cons c s ih =>
          intro d g hs
          rw [List.all_cons, Bool.and_eq_true] at hs
          unfold numLoop
          rw [if_pos hs.1]
          exact ih d true hs.2
      exact key _ _ _ hint

theorem good_add {p q : Bool} {c : Cat} {a i j b : Str} {x y : Ex} (ha : Good A c p a x) (hc : Top (Allowed .sum) a) (hi : Blank i) (hj : Blank j)
    (hb : Good A .term q b y) : Good A .sum true (a ++ i ++ '+' :: (j ++ b)) (.bin .add x y) := by
  obtain ⟨na, pa, -, ea⟩ := ha.parses
  obtain ⟨nb, pb, -, eb⟩ := hb.parses
  have ha2 : Top N2 a := hc.mono fun ch h => h.1
  refine good_op hi hj ha hb (by decide) ⟨by decide, by decide⟩ ⟨by decide, by decide⟩ hc
    (hb.top.mono fun _ h => ⟨⟨h.1.1, h.1.2.1⟩, h.2⟩) (Or.inr (Or.inl rfl)) (by decide) (by simp)
    ⟨.bin .add na nb, fun i0 j0 hp => add_core ha.trim hb.trim ha2 (n3_of_term hb.top) hi hj ha.numE pa pb i0 j0 hp.1 hp.2.1,
      fun env => by rw [Node.eval, Ex.eval, ea, eb]⟩ (by simp) (fun _ => Or.inr ?_)
  exact ⟨a, i, j, b, na, nb, rfl, hi, hj, ha.trim, hb.trim, ha2, n3_of_term hb.top, ha.numE, hb.ends, pa, pb, fun env => by rw [Ex.eval, ea, eb]⟩

theorem last_append {a b : Str} (hb : b ≠ []) : (a ++ b).getLast? = b.getLast? := by
  rw [List.getLast?_append]
  rcases h : b.getLast? with _ | x
  · exact absurd (List.getLast?_eq_none_iff.1 h) hb
  · rfl

theorem good_sub (hA : Exact A) {p q : Bool} {a i j b : Str} {x y : Ex} (ha : Good A .sum p a x) (hi : Blank i) (hj : Blank j)
    (hb : Good A .term q b y) (hlast : a.getLast? ≠ some 'e') (hm : MinusFirst b) :
    Good A .sum true (a ++ i ++ '-' :: (j ++ b)) (.bin .sub x y) := by
  obtain ⟨na, pa, -, ea⟩ := ha.parses
  obtain ⟨nb, pb, -, eb⟩ := hb.parses
  have base := fun core hsum => good_op (cat := .sum) (p := true) (c := '-') (z := .bin .sub x y) hi hj ha hb (by decide)
    ⟨by decide, by decide⟩ ⟨by decide, by decide⟩ ha.top
    (hb.top.mono fun _ h => ⟨⟨h.1.1, h.1.2.1⟩, h.2⟩) (Or.inr (Or.inr rfl)) (by decide) (by simp) core (by simp) hsum
  rcases ha.sum rfl with h3 | ⟨a1, i1, j1, b1, n1, n2, rfl, hi1, hj1, ta1, tb1, top1, top2, hE, hends, p1, p2, e12⟩
  · refine base ⟨.bin .sub na nb, fun i0 j0 hp => ?_, fun env => by rw [Node.eval, Ex.eval, ea, eb]⟩ (fun _ => Or.inl ?_)
    · exact sub_core ha.trim hb.trim h3 (n3_of_term hb.top) hi hj ha.ends hlast hm pa pb i0 j0 hp.1 hp.2.1
    · exact top_op (by decide) (by decide) (by decide) h3 hi hj (n3_of_term hb.top)
  · have e : a1 ++ i1 ++ '+' :: (j1 ++ b1) ++ i ++ '-' :: (j ++ b) = a1 ++ i1 ++ '+' :: (j1 ++ (b1 ++ i ++ '-' :: (j ++ b))) := by simp
    have hl1 : b1.getLast? ≠ some 'e' := by
      have : a1 ++ i1 ++ '+' :: (j1 ++ b1) = (a1 ++ i1 ++ '+' :: j1) ++ b1 := by simp
      rw [this, last_append tb1.1] at hlast
      exact hlast
    have hc0 := sub_core (A := A) (I := IntOf (.bin .sub x y)) tb1 hb.trim top2 (n3_of_term hb.top) hi hj hends hl1 hm p2 pb [] [] blank_nil blank_nil
    simp only [List.nil_append, List.append_nil] at hc0
    have ht0 : Trim (b1 ++ i ++ '-' :: (j ++ b)) := trim_op tb1 hb.trim
    have hp0 : ParsesAll A (b1 ++ i ++ '-' :: (j ++ b)) (.bin .sub n2 nb) := fun i0 j0 h1 h2 => hc0.parses A ht0 h1 h2
    have htop0 : Top N3 (b1 ++ i ++ '-' :: (j ++ b)) := top_op (by decide) (by decide) (by decide) top2 hi hj (n3_of_term hb.top)
    have hev : ∀ env, A.op .add (n1.eval A env) ((Node.bin .sub n2 nb).eval A env) = (Ex.bin .sub x y).eval A env := by
      intro env
      rw [Node.eval, Ex.eval, hA.add_sub, e12, eb]
    refine base ⟨.bin .add n1 (.bin .sub n2 nb), fun i0 j0 hp => ?_, fun env => by rw [Node.eval]; exact hev env⟩ (fun _ => Or.inr ?_)
    · rw [e]
      exact add_core ta1 ht0 top1 htop0 hi1 hj1 hE p1 hp0 i0 j0 hp.1 hp.2.1
    · exact ⟨a1, i1, j1, _, n1, _, e, hi1, hj1, ta1, ht0, top1, htop0, hE, ends_op hb.ends, p1, hp0, hev⟩

theorem good_mod {p q : Bool} {c : Cat} {a i j b : Str} {x y : Ex} (ha : Good A c p a x) (hc : ∀ ch, Allowed c ch → Allowed .modc ch) (hi : Blank i) (hj : Blank j)
    (hb : Good A .signed q b y) : Good A .modc true (a ++ i ++ '%' :: (j ++ b)) (.bin .mod x y) := by
  obtain ⟨na, pa, -, ea⟩ := ha.parses
  obtain ⟨nb, pb, -, eb⟩ := hb.parses
  exact good_op hi hj ha hb (by decide) ⟨by decide, by decide⟩ ⟨by decide, by decide⟩ (ha.top.mono hc)
    (hb.top.mono fun _ h => ⟨h.1.1, h.2⟩) (Or.inl (by decide)) (by decide) (by simp)
    ⟨.bin .mod na nb, fun i0 j0 hp => mod_core ha.trim hb.trim (ha.top.mono fun ch h => (hc ch h).1)
      (hb.top.mono fun _ h => ⟨h.1.1, h.1.2.1⟩) hi hj pa pb i0 j0 hp.1 hp.2.1,
      fun env => by rw [Node.eval, Ex.eval, ea, eb]⟩ (by simp) (by simp)

theorem good_cond {p q r : Bool} {c i j a k l b : Str} {z : BEx} {x y : Ex} (hc : GoodB A .bor p c z) (hi : Blank i) (hj : Blank j)
    (ha : Good A .full q a x) (hk : Blank k) (hl : Blank l) (hb : Good A .full r b y) :
    Good A .full true (c ++ i ++ '?' :: (j ++ a ++ k ++ ':' :: (l ++ b))) (.cond z x y) := by
  obtain ⟨nc, pc, ec⟩ := hc.parses
  obtain ⟨na, pa, -, ea⟩ := ha.parses
  obtain ⟨nb, pb, -, eb⟩ := hb.parses
  have hn : Nest '(' ')' (c ++ i ++ '?' :: (j ++ a ++ k ++ ':' :: (l ++ b))) :=
    (hc.nest.append hi.nest).append (Nest.char '?' _ (by decide) (by decide)
      (((hj.nest.append ha.nest).append hk.nest).append (Nest.char ':' _ (by decide) (by decide) (hl.nest.append hb.nest))))
  refine ⟨?_, hn, ?_, Top.of_nest hn, ?_, not_numE_of_mem (c := '?') (by simp) (by decide), by simp, by simp, by simp,
    ⟨.cond nc na nb, fun i0 j0 hp => cond_core hc.trim hb.trim (hc.top.mono fun _ h => h) hi hj hk hl ha.nestQ pc pa pb i0 j0 hp.1 hp.2.1,
      fun env => by rw [Node.eval, Ex.eval, ec, ea, eb]⟩, by simp, by simp⟩
  · have := trim_ends hc.trim hb.trim (i ++ '?' :: (j ++ a ++ k ++ ':' :: l))
    simpa using this
  · exact (hc.nestQ.append hi.nestQ).append (Nest.group _ _ ((hj.nestQ.append ha.nestQ).append hk.nestQ) (hl.nestQ.append hb.nestQ))
  · have := hb.ends.append (c ++ i ++ '?' :: (j ++ a ++ k ++ ':' :: l))
    simpa using this

/-! ## Conditions -/

theorem GoodB.up {c c' : Cat} {p : Bool} {t : Str} {x : BEx} (h : GoodB A c p t x) (htop : ∀ ch, Allowed c ch → Allowed c' ch) :
    GoodB A c' p t x := ⟨h.trim, h.nest, h.nestQ, h.top.mono htop, h.core⟩

theorem goodB_cmp (hA : Exact A) (o : Cmp) {p q : Bool} {a i j b : Str} {x y : Ex} (ha : Good A .arith p a x) (hta : Top (· ≠ '^') a) (hi : Blank i) (hj : Blank j)
    (hb : Good A .arith q b y) (htb : Top (· ≠ '^') b) : GoodB A .batom true (a ++ i ++ o.text ++ (j ++ b)) (.cmp o x y) := by
  obtain ⟨na, pa, -, ea⟩ := ha.parses
  obtain ⟨nb, pb, -, eb⟩ := hb.parses
  have hC1 : ∀ {t : Str}, Top (Allowed .arith) t → Top (· ≠ '^') t → Top C1 t := by
    intro t h h'
    exact (top_and h h').mono fun _ h => ⟨h.1.2.1, h.2, h.1.2.2.1, h.1.2.2.2.1, h.1.2.2.2.2.1, h.1.2.2.2.2.2.1, h.1.2.2.2.2.2.2⟩
  have h1 := hC1 ha.top hta
  have h2 := hC1 hb.top htb
  have hw : o.text ≠ [] := by cases o <;> simp [Cmp.text]
  have e : ∀ u v : Str, u ++ o.text ++ v = u ++ (o.text ++ v) := by intro u v; simp
  have hbody : ∀ i0 j0, Blank i0 → Blank j0 → BodyB A ((i0 ++ a ++ i) ++ (o.text ++ (j ++ b ++ j0))) (o.node na nb) := by
    intro i0 j0 hi0 hj0
    have := bodyB_cmp A o (((hi0.top (by decide)).append h1).append (hi.top (by decide)))
      (((hj.top (by decide)).append h2).append (hj0.top (by decide))) (by simp [hb.trim.1]) (pa i0 i hi0 hi) (pb j j0 hj hj0)
    rwa [e] at this
  have htop : Top (Allowed .batom) (a ++ i ++ o.text ++ (j ++ b)) := by
    have h3 : ∀ {t : Str}, Top (Allowed .arith) t → Top (· ≠ '^') t → Top (Allowed .batom) t := by
      intro t h h'
      have hq : Top (· ≠ '?') t := h.mono fun _ h => h.1
      exact top_and (hC1 h h') hq |>.mono fun c hc => ⟨hc.2, hc.1.1, hc.1.2.1, hc.1.2.2.1⟩
    have hbl : Allowed .batom ' ' := by simp [Allowed]
    exact (((h3 ha.top hta).append (hi.top hbl)).append (Top.of_chars (by cases o <;> simp [Cmp.text, Allowed]))).append
      ((hj.top hbl).append (h3 hb.top htb))
  refine ⟨?_, ?_, ?_, htop, o.node na nb, fun i0 j0 hp => ?_, ?_⟩
  · have := trim_ends ha.trim hb.trim (i ++ o.text ++ j)
    simpa using this
  · exact htop.nest
  · exact ((ha.nestQ.append hi.nestQ).append (Nest.of_chars (by cases o <;> decide))).append (hj.nestQ.append hb.nestQ)
  · rw [e]
    exact coreB_op ha.trim h1 hi (by decide) hw hbody i0 j0 hp.1 hp.2.1
  · intro env
    rw [BEx.eval]
    by_cases ho : o = .eq
    · subst ho
      simp only [Cmp.node, if_true]
      rw [BNode.eval, ea, eb, hA.symm]
    · simp only [Cmp.node, if_neg ho]
      rw [BNode.eval, ea, eb]

theorem goodB_bop (o : BOp) {ca cb cat : Cat} {p q : Bool} {a i j b : Str} {x y : BEx} (ha : GoodB A ca p a x) (hi : Blank i) (hj : Blank j)
    (hb : GoodB A cb q b y) (hpc : Allowed cat o.char) (hs : Allowed cat ' ') (hta : ∀ ch, Allowed ca ch → Allowed cat ch)
    (htb : ∀ ch, Allowed cb ch → Allowed cat ch)
    (hbody : ∀ na nb i0 j0, Blank i0 → Blank j0 → ParsesB A (i0 ++ a ++ i) na → ParsesB A (j ++ b ++ j0) nb →
      BodyB A ((i0 ++ a ++ i) ++ o.char :: (j ++ b ++ j0)) (.bop o na nb)) :
    GoodB A cat true (a ++ i ++ o.char :: (j ++ b)) (.bop o x y) := by
  obtain ⟨na, pa, ea⟩ := ha.parses
  obtain ⟨nb, pb, eb⟩ := hb.parses
  refine ⟨trim_op ha.trim hb.trim, nest_op (by cases o <;> decide) ha.nest hi.nest hj.nest hb.nest,
    nest_op (by cases o <;> decide) ha.nestQ hi.nestQ hj.nestQ hb.nestQ,
    top_op (by cases o <;> decide) hpc hs (ha.top.mono hta) hi hj (hb.top.mono htb), .bop o na nb, fun i0 j0 hp => ?_, fun env => by
      rw [BNode.eval, BEx.eval, ea, eb, BOp.eval_meaning]⟩
  exact coreB_op (w := [o.char]) ha.trim (ha.top.mono hta) hi hs (by simp)
    (fun i0 j0 h1 h2 => hbody na nb i0 j0 h1 h2 (pa i0 i h1 hi) (pb j j0 hj h2)) i0 j0 hp.1 hp.2.1

end NimbleSM.Expr
