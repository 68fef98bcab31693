import Verif.Expr.ParseLemmas
import Verif.Expr.OptimizeProps
import Verif.Expr.FunctorProps
import Mathlib.Tactic.Positivity

/-!
# C47: fully parenthesised expressions

The specification: expressions as trees with their mathematical value, and the texts that are fully
parenthesised ways of writing them (with blanks around the operators).
-/

namespace NimbleSM.Expr

open NimbleSM.Parse

mutual
/-- Expressions. -/
inductive Ex where
  | num (l : Num)
  | e | pi | tau
  | var (v : Var)
  | neg (a : Ex)
  | bin (o : Op) (a b : Ex)
  | call (f : Fn) (a : Ex)
  | cond (c : BEx) (a b : Ex)
/-- Conditions. -/
inductive BEx where
  | lit (v : Bool)
  | cmp (o : Cmp) (a b : Ex)
  | bop (o : BOp) (a b : BEx)
end

variable {K : Type} (A : Arith K) (env : Var → K)

/-- What the operators on truth values mean: or, exclusive or, and. -/
def BOp.meaning : BOp → Bool → Bool → Bool
  | .or, true, _ => true
  | .or, false, b => b
  | .xor, true, b => !b
  | .xor, false, b => b
  | .and, true, b => b
  | .and, false, _ => false

theorem BOp.eval_meaning (o : BOp) (a b : Bool) : o.eval a b = o.meaning a b := by
  cases o <;> cases a <;> cases b <;> rfl

mutual
/-- The value of an expression. -/
def Ex.eval : Ex → K
  | .num l => A.ofRat l.lit.value
  | .e => A.e
  | .pi => A.pi
  | .tau => A.tau
  | .var v => env v
  | .neg a => A.fn .neg a.eval
  | .bin o a b => A.op o a.eval b.eval
  | .call f a => A.fn f a.eval
  | .cond c a b => if c.eval then a.eval else b.eval
/-- The truth value of a condition. -/
def BEx.eval : BEx → Bool
  | .lit v => v
  | .cmp o a b => A.cmp o a.eval b.eval
  | .bop o a b => o.meaning a.eval b.eval
end

/-- The operators as written. -/
def Op.char : Op → Char
  | .add => '+'
  | .sub => '-'
  | .mul => '*'
  | .div => '/'
  | .mod => '%'
  | .pow => '^'

/-- The operators as written. -/
def BOp.char : BOp → Char
  | .or => '|'
  | .xor => '^'
  | .and => '&'

/-- Operands: a variable, or anything in parentheses. -/
def Operand (F : Str → Prop) (a : Ex) (t : Str) : Prop :=
  (∃ v, a = .var v ∧ t = [v.name]) ∨ ∃ s, F s ∧ t = '(' :: (s ++ [')'])

mutual
/-- The fully parenthesised ways to write an expression: operands that are not variables are in
parentheses, and there may be blanks around operators. -/
def Ex.Text : Ex → Str → Prop
  | .num l, t => t = l.lit.text
  | .e, t => t = "e".toList
  | .pi, t => t = "pi".toList
  | .tau, t => t = "tau".toList
  | .var v, t => t = [v.name]
  | .neg a, t => ∃ i s, Blank i ∧ Operand a.Text a s ∧ t = '-' :: (i ++ s)
  | .bin o a b, t => ∃ i j s r, Blank i ∧ Blank j ∧ Operand a.Text a s ∧ Operand b.Text b r ∧ t = s ++ i ++ o.char :: (j ++ r)
  | .call f a, t => ∃ name s, f.name = some name ∧ a.Text s ∧ t = name ++ '(' :: (s ++ [')'])
  | .cond c a b, t => ∃ i j k l s r q, Blank i ∧ Blank j ∧ Blank k ∧ Blank l ∧ c.Text s ∧ Operand a.Text a r ∧
      Operand b.Text b q ∧ t = '(' :: (s ++ [')']) ++ i ++ '?' :: (j ++ r ++ k ++ ':' :: (l ++ q))
/-- The same for conditions. -/
def BEx.Text : BEx → Str → Prop
  | .lit v, t => t = if v then "true".toList else "false".toList
  | .cmp o a b, t => ∃ i j s r, Blank i ∧ Blank j ∧ Operand a.Text a s ∧ Operand b.Text b r ∧ t = s ++ i ++ o.text ++ (j ++ r)
  | .bop o a b, t => ∃ i j s r, Blank i ∧ Blank j ∧ a.Text s ∧ b.Text r ∧
      t = '(' :: (s ++ [')']) ++ i ++ o.char :: (j ++ '(' :: (r ++ [')']))
end

mutual
/-- Exponents that are whole numbers fit an `int`. -/
def Ex.IntExponents : Ex → Prop
  | .neg a => a.IntExponents
  | .bin o a b => a.IntExponents ∧ b.IntExponents ∧
      (o = .pow → ∀ l, b = .num l → l.lit.value < 2147483648)
  | .call _ a => a.IntExponents
  | .cond c a b => c.IntExponents ∧ a.IntExponents ∧ b.IntExponents
  | _ => True
/-- The same for conditions. -/
def BEx.IntExponents : BEx → Prop
  | .lit _ => True
  | .cmp _ a b => a.IntExponents ∧ b.IntExponents
  | .bop _ a b => a.IntExponents ∧ b.IntExponents
end

/-- What is needed of the arithmetic: reading a whole number as `double` or as `int` is the same, and
equality is symmetric.  Both hold for IEEE doubles. -/
structure Laws : Prop where
  int : ∀ n : ℤ, -2147483648 ≤ n → n < 2147483648 → A.ofInt n = A.ofRat n
  symm : ∀ a b, A.cmp .eq a b = A.cmp .eq b a

theorem Num.value_nonneg (l : Num) : 0 ≤ l.lit.value := by
  obtain ⟨⟨sign, ip, fp, ex⟩, hv, hs, hlow⟩ := l
  simp only at hs hlow
  subst hs
  have h1 : (0 : ℚ) ≤ natVal ip + fracVal fp := by
    have h2 : (0 : ℚ) ≤ fracVal fp := by
      rcases fp with _ | d
      · exact le_refl _
      · exact div_nonneg (by positivity) (by positivity)
    exact add_nonneg (by positivity) h2
  have hn : ¬ (none : Option Bool) = some true := by simp
  simp only [Lit.value, hn, if_false]
  rcases ex with _ | ⟨b, s, d⟩
  · exact h1
  · simp only
    by_cases hs : s = some true
    · rw [if_pos hs]; exact div_nonneg h1 (by positivity)
    · rw [if_neg hs]; exact mul_nonneg h1 (by positivity)

theorem toInt32_id {v : ℤ} (h1 : -2147483648 ≤ v) (h2 : v < 2147483648) : toInt32 v = v := by
  unfold toInt32
  rw [min_eq_left (by omega), max_eq_right (by omega)]
  omega

/-- What is shown of a text of an expression. -/
structure Fine (x : Ex) (t : Str) : Prop where
  trim : Trim t
  nest : Nest '(' ')' t
  nestQ : Nest '?' ':' t
  core : ∃ n : Node K, Core A t n (fun v => ∃ l, x = .num l ∧ l.lit.value = v) ∧ ∀ env, n.eval A env = x.eval A env

/-- What is shown of a text of a condition. -/
structure FineB (c : BEx) (t : Str) : Prop where
  trim : Trim t
  nest : Nest '(' ')' t
  nestQ : Nest '?' ':' t
  core : ∃ n : BNode K, CoreB A t n ∧ ∀ env, n.eval A env = c.eval A env

/-- The same for operands. -/
structure FineArg (x : Ex) (t : Str) : Prop extends Fine A x t where
  top : Top (fun c => c = 'x' ∨ c = 'y' ∨ c = 'z' ∨ c = 't') t
  last : ∃ a0 ch, t = a0 ++ [ch] ∧ (ch = 'x' ∨ ch = 'y' ∨ ch = 'z' ∨ ch = 't' ∨ ch = ')')

theorem trim_group (s : Str) : Trim ('(' :: (s ++ [')'])) := by
  refine ⟨by simp, by simp, ?_⟩
  rw [← List.cons_append, List.getLast?_append]
  simp

theorem trim_ends {a b : Str} (ha : Trim a) (hb : Trim b) (m : Str) : Trim (a ++ m ++ b) := by
  obtain ⟨c, a, rfl⟩ := List.exists_cons_of_ne_nil ha.1
  refine ⟨by simp, by simpa using ha.2.1, ?_⟩
  rw [List.getLast?_append]
  have := hb.2.2
  rcases h : b.getLast? with _ | x
  · exact absurd (List.getLast?_eq_none_iff.1 h) hb.1
  · rw [h] at this
    simpa using this

theorem trim_var (v : Var) : Trim [v.name] := by cases v <;> exact ⟨by simp, by decide, by decide⟩

variable {A}

theorem var_fine (v : Var) : FineArg A (.var v) [v.name] where
  trim := trim_var v
  nest := Nest.of_chars (by cases v <;> decide)
  nestQ := Nest.of_chars (by cases v <;> decide)
  core := ⟨.ref v, core_atom A (trim_var v) (opened_head (by cases v <;> decide)) (body_var A v)
    (by intro h; exfalso; revert h; cases v <;> decide), fun _ => by rw [Node.eval, Ex.eval]⟩
  top := Top.of_chars (by cases v <;> decide)
  last := ⟨[], v.name, rfl, by cases v <;> decide⟩

theorem group_fine {x : Ex} {s : Str} (h : Fine A x s) : FineArg A x ('(' :: (s ++ [')'])) where
  trim := trim_group s
  nest := h.nest.wrap
  nestQ := Nest.char '(' _ (by decide) (by decide) (h.nestQ.append (Nest.single (ch := ')') (by decide) (by decide)))
  core := by
    obtain ⟨n, hc, he⟩ := h.core
    exact ⟨n, hc.group A h.nest, he⟩
  top := Top.wrap h.nest
  last := ⟨'(' :: s, ')', by simp, by simp⟩

theorem operand_fine {x : Ex} {t : Str} {F : Str → Prop} (hF : ∀ s, F s → Fine A x s) (h : Operand F x t) : FineArg A x t := by
  rcases h with ⟨v, rfl, rfl⟩ | ⟨s, hs, rfl⟩
  · exact var_fine v
  · exact group_fine (hF s hs)

theorem FineArg.top' {x : Ex} {t : Str} (h : FineArg A x t) {p : Char → Prop} (hp : p 'x' ∧ p 'y' ∧ p 'z' ∧ p 't') : Top p t :=
  h.top.mono fun c hc => by
    rcases hc with rfl | rfl | rfl | rfl
    exacts [hp.1, hp.2.1, hp.2.2.1, hp.2.2.2]

theorem FineArg.numE {x : Ex} {t : Str} (h : FineArg A x t) (i : Str) : ¬ NumE (t ++ i) := by
  obtain ⟨a0, ch, rfl, hch⟩ := h.last
  refine not_numE_of_mem (c := ch) (by simp) ?_
  rcases hch with rfl | rfl | rfl | rfl | rfl <;> decide

theorem FineArg.parses {x : Ex} {t : Str} (h : FineArg A x t) : ∃ n : Node K,
    (∀ i j, Blank i → Blank j → Parses A (i ++ t ++ j) n) ∧ (∀ env, n.eval A env = x.eval A env) ∧
    Core A t n (fun v => ∃ l, x = .num l ∧ l.lit.value = v) := by
  obtain ⟨n, hc, he⟩ := h.core
  exact ⟨n, fun i j hi hj => hc.parses A h.trim hi hj, he, hc⟩

/-- A text that cannot be mistaken for an integer. -/
theorem no_int {t : Str} {c : Char} {P : Prop} (hc : c ∈ t) (h : numChar c = false) : isInteger t = true → P := by
  rw [isInteger_false hc h]; intro h; cases h

theorem integer_minus {c : Char} {a b : Str} (ha : a ≠ []) (hc : isDigit c = false) : isInteger (a ++ c :: b) = false := by
  obtain ⟨x, a, rfl⟩ := List.exists_cons_of_ne_nil ha
  rw [List.cons_append, isInteger_cons]
  split_ifs
  · rfl
  · rfl
  · rw [← Bool.not_eq_true, List.all_eq_true]
    intro h
    rw [h c (by simp)] at hc
    cases hc

theorem bin_fine (hA : Laws A) (o : Op) {x y : Ex} {s r i j : Str} (hs : FineArg A x s) (hr : FineArg A y r) (hi : Blank i)
    (hj : Blank j) (hexp : o = .pow → ∀ l, y = .num l → l.lit.value < 2147483648) :
    Fine A (.bin o x y) (s ++ i ++ o.char :: (j ++ r)) := by
  obtain ⟨na, pa, ea, -⟩ := hs.parses
  obtain ⟨nb, pb, eb, cb⟩ := hr.parses
  have hsne : s ≠ [] := hs.trim.1
  have ht : Trim (s ++ i ++ o.char :: (j ++ r)) := by
    have := trim_ends hs.trim hr.trim (i ++ o.char :: j)
    simpa using this
  have htop : ∀ {p : Char → Prop}, p 'x' ∧ p 'y' ∧ p 'z' ∧ p 't' → p ' ' → Top p (s ++ i) ∧ Top p (j ++ r) :=
    fun hp hb => ⟨(hs.top' hp).append (hi.top hb), (hj.top hb).append (hr.top' hp)⟩
  have pa' : Parses A (s ++ i) na := by simpa using pa [] i blank_nil hi
  have pb' : Parses A (j ++ r) nb := by simpa using pb j [] hj blank_nil
  have hopen : Opened (s ++ i ++ o.char :: (j ++ r)) :=
    opened_op (p := fun _ => True) (htop ⟨trivial, trivial, trivial, trivial⟩ trivial).1 (by simp [hsne]) (by simp)
  have hsub : o ≠ .sub → SubFall (s ++ i ++ o.char :: (j ++ r)) := by
    intro ho
    have h := htop (p := (· ≠ '-')) (by decide) (by decide)
    exact .none _ (h.1.op h.2 (by cases o <;> decide) (by cases o <;> first | exact absurd rfl ho | decide))
  have hint : isInteger (s ++ i ++ o.char :: (j ++ r)) = false :=
    integer_minus (by simp [hsne]) (by cases o <;> decide)
  refine ⟨ht, ?_, ?_, ?_⟩
  · have h := htop (p := fun _ => True) ⟨trivial, trivial, trivial, trivial⟩ trivial
    exact (h.1.op h.2 (by cases o <;> decide) trivial).nest
  · have h1 := (hs.nestQ.append hi.nestQ).append (Nest.char o.char _ (by cases o <;> decide) (by cases o <;> decide) (hj.nestQ.append hr.nestQ))
    exact h1
  · have fin : ∀ n : Node K, Body A (s ++ i ++ o.char :: (j ++ r)) n → (∀ env, n.eval A env = (Ex.bin o x y).eval A env) →
        ∃ n : Node K, Core A (s ++ i ++ o.char :: (j ++ r)) n (fun v => ∃ l, Ex.bin o x y = .num l ∧ l.lit.value = v) ∧
          ∀ env, n.eval A env = (Ex.bin o x y).eval A env := fun n hb he =>
      ⟨n, core_atom A ht hopen hb (by rw [hint]; intro h; cases h), he⟩
    have plain : ∀ env, (Node.bin o na nb).eval A env = (Ex.bin o x y).eval A env := by
      intro env
      rw [Node.eval, Ex.eval, ea, eb]
    cases o with
    | mod => exact fin _ (body_mod A (htop (by decide) (by decide)).1 (htop (by decide) (by decide)).2 pa' pb') plain
    | add =>
      exact fin _ (body_add A (htop (by decide) (by decide)).1 (htop (by decide) (by decide)).2 (by simp [hsne])
        (hs.numE i) pa' pb') plain
    | mul =>
      exact fin _ (body_mul A (htop (by decide) (by decide)).1 (htop (by decide) (by decide)).2 (hsub (by decide)) pa' pb') plain
    | div =>
      exact fin _ (body_div A (htop (by decide) (by decide)).1 (htop (by decide) (by decide)).2 (hsub (by decide)) pa' pb') plain
    | sub =>
      refine fin _ ?_ plain
      obtain ⟨a0, ch, hl, hch⟩ := hs.last
      have e1 : s ++ i = a0 ++ ch :: i := by rw [hl]; simp
      rw [e1] at pa' ⊢
      have htop1 := (htop (p := N3) (by decide) (by decide)).1
      have hnum := hs.numE i
      rw [e1] at htop1 hnum
      exact body_sub A (by rcases hch with rfl | rfl | rfl | rfl | rfl <;> decide)
        (by rcases hch with rfl | rfl | rfl | rfl | rfl <;> decide) hi htop1 (fun c hc => Or.inr (hj c hc))
        (hr.top' (by decide)) (hr.top' (by decide)) hnum pa' pb'
    | pow =>
      have e : s ++ i ++ Op.char .pow :: (j ++ r) = (s ++ i) ++ '^' :: (j ++ r ++ []) := by simp [Op.char]
      have h := body_pow A hj blank_nil (htop (by decide) (by decide)).1
        (by simpa using (htop (p := N5) (by decide) (by decide)).2)
        (by rw [← e]; exact hsub (by decide)) pa' hr.trim cb
      rw [← e] at h
      rcases h with ⟨v, ⟨l, rfl, hv⟩, h⟩ | h
      · refine fin _ h fun env => ?_
        have hlt := hexp rfl l rfl
        rw [hv] at hlt
        have h0 := l.value_nonneg
        rw [hv] at h0
        have h1 : v < 2147483648 := by exact_mod_cast hlt
        have h2 : 0 ≤ v := by exact_mod_cast h0
        rw [Node.eval, Ex.eval, ea, toInt32_id (by omega) h1, hA.int v (by omega) h1, Ex.eval, hv]
      · exact fin _ h plain

mutual
theorem text_fine (hA : Laws A) : ∀ (x : Ex) (t : Str), x.IntExponents → x.Text t → Fine A x t
  | .num l, t, _, h => by
    rw [Ex.Text] at h
    subst h
    obtain ⟨c, r, hcr, hc⟩ := l.head
    obtain ⟨a, d, had, hd⟩ := l.last
    have htrim : Trim l.lit.text := by
      refine ⟨by rw [hcr]; simp, ?_, ?_⟩
      · rw [hcr]
        simp only [List.head?_cons, ne_eq, Option.some.injEq]
        rintro rfl
        revert hc; decide
      · rw [had, List.getLast?_append]
        simp only [List.getLast?_singleton, Option.some_or, ne_eq, Option.some.injEq]
        rintro rfl
        revert hd; decide
    have hch : ∀ x ∈ l.lit.text, ∀ y, numChar y = false → x ≠ y := by
      rintro x hx y hy rfl
      rw [l.mem hx] at hy; cases hy
    refine ⟨htrim, Nest.of_chars fun x hx => ⟨hch x hx _ (by decide), hch x hx _ (by decide)⟩,
      Nest.of_chars fun x hx => ⟨hch x hx _ (by decide), hch x hx _ (by decide)⟩, _,
      core_atom A htrim ?_ (body_number A l.isNumber.1 l.scan) ?_, fun env => by rw [Node.eval, Ex.eval]⟩
    · rw [hcr]
      refine opened_head ?_
      rintro rfl
      revert hc; decide
    · intro h
      obtain ⟨v, hv, he⟩ := l.integerOf h
      exact ⟨v, ⟨l, rfl, hv⟩, he⟩
  | .e, t, _, h => by
    rw [Ex.Text] at h
    subst h
    exact ⟨⟨by simp, by decide, by decide⟩, Nest.of_chars (by decide), Nest.of_chars (by decide), _,
      core_atom A ⟨by simp, by decide, by decide⟩ (opened_head (by decide)) (body_e A) (fun h => absurd h (by decide)),
      fun env => by rw [Node.eval, Ex.eval]⟩
  | .pi, t, _, h => by
    rw [Ex.Text] at h
    subst h
    exact ⟨⟨by simp, by decide, by decide⟩, Nest.of_chars (by decide), Nest.of_chars (by decide), _,
      core_atom A ⟨by simp, by decide, by decide⟩ (opened_head (by decide)) (body_pi A) (fun h => absurd h (by decide)),
      fun env => by rw [Node.eval, Ex.eval]⟩
  | .tau, t, _, h => by
    rw [Ex.Text] at h
    subst h
    exact ⟨⟨by simp, by decide, by decide⟩, Nest.of_chars (by decide), Nest.of_chars (by decide), _,
      core_atom A ⟨by simp, by decide, by decide⟩ (opened_head (by decide)) (body_tau A) (fun h => absurd h (by decide)),
      fun env => by rw [Node.eval, Ex.eval]⟩
  | .var v, t, _, h => by
    rw [Ex.Text] at h
    subst h
    exact (var_fine v).toFine
  | .neg a, t, hx, h => by
    rw [Ex.Text] at h
    rw [Ex.IntExponents] at hx
    obtain ⟨i, s, hi, ha, rfl⟩ := h
    have hs := operand_fine (fun s hs => text_fine hA a s hx hs) ha
    obtain ⟨n, pn, en, -⟩ := hs.parses
    have htrim : Trim ('-' :: (i ++ s)) := by
      have := trim_ends (a := ['-']) ⟨by simp, by decide, by decide⟩ hs.trim i
      simpa using this
    have hmem : ∃ c ∈ s, numChar c = false := by
      obtain ⟨a0, ch, rfl, hch⟩ := hs.last
      exact ⟨ch, by simp, by rcases hch with rfl | rfl | rfl | rfl | rfl <;> decide⟩
    obtain ⟨c, hc, hcn⟩ := hmem
    have hc' : c ∈ '-' :: (i ++ s) := by simp [hc]
    have htop : ∀ {p : Char → Prop}, p 'x' ∧ p 'y' ∧ p 'z' ∧ p 't' → p ' ' → Top p (i ++ s) :=
      fun hp hb => (hi.top hb).append (hs.top' hp)
    refine ⟨htrim, ?_, ?_, .fn .neg n, core_atom A htrim (opened_head (by decide)) ?_ (no_int hc' hcn), ?_⟩
    · exact (htop (p := fun _ => True) ⟨trivial, trivial, trivial, trivial⟩ trivial).nest |> Nest.char '-' _ (by decide) (by decide)
    · exact Nest.char '-' _ (by decide) (by decide) (hi.nestQ.append hs.nestQ)
    · refine body_neg A (htop (by decide) (by decide)) ?_ (isNumber_false hc' hcn) (by simpa using pn i [] hi blank_nil)
      exact SubFall.lead i s (fun c hc => Or.inr (hi c hc)) (hs.top' (by decide))
    · intro env
      rw [Node.eval, Ex.eval, en]
  | .bin o a b, t, hx, h => by
    rw [Ex.Text] at h
    rw [Ex.IntExponents] at hx
    obtain ⟨i, j, s, r, hi, hj, hs, hr, rfl⟩ := h
    exact bin_fine hA o (operand_fine (fun s hs => text_fine hA a s hx.1 hs) hs)
      (operand_fine (fun s hs => text_fine hA b s hx.2.1 hs) hr) hi hj hx.2.2
  | .call f a, t, hx, h => by
    rw [Ex.Text] at h
    rw [Ex.IntExponents] at hx
    obtain ⟨name, s, hname, hs, rfl⟩ := h
    have hf := text_fine hA a s hx hs
    have hg := group_fine hf
    obtain ⟨n, pn, en, -⟩ := hg.parses
    obtain ⟨⟨c, r, hcr, -, hc1, hc2, hc3⟩, -, hchars, -⟩ := f.name_facts name hname
    have htrim : Trim (name ++ '(' :: (s ++ [')'])) := by
      subst hcr
      have := trim_ends (a := [c]) ⟨by simp, by simpa using hc3, by simpa using hc3⟩ (trim_group s) r
      simpa using this
    refine ⟨htrim, ?_, ?_, .fn f n, core_atom A htrim ?_ ?_ (no_int (c := '(') (by simp) (by decide)), ?_⟩
    · exact (Nest.of_chars fun x hx => ⟨(hchars x hx).1, (hchars x hx).2.1⟩).append hf.nest.wrap
    · exact (Nest.of_chars fun x hx => ⟨(hchars x hx).2.2.1.1, (hchars x hx).2.2.2.2⟩).append hg.nestQ
    · subst hcr
      exact opened_head hc1
    · exact body_call A f name s hname n hf.nest (by simpa using pn [] [] blank_nil blank_nil)
    · intro env
      rw [Node.eval, Ex.eval, en]
  | .cond c a b, t, hx, h => by
    rw [Ex.Text] at h
    rw [Ex.IntExponents] at hx
    obtain ⟨i, j, k, l, s, r, q, hi, hj, hk, hl, hs, hr, hq, rfl⟩ := h
    have hc := textB_fine hA c s hx.1 hs
    have ha := operand_fine (fun s hs => text_fine hA a s hx.2.1 hs) hr
    have hb := operand_fine (fun s hs => text_fine hA b s hx.2.2 hs) hq
    obtain ⟨nc, cc, ec⟩ := hc.core
    obtain ⟨na, pa, ea, -⟩ := ha.parses
    obtain ⟨nb, pb, eb, -⟩ := hb.parses
    have hcp : ParsesB A ('(' :: (s ++ [')']) ++ i) nc := by
      simpa using (cc.group A hc.nest).parses A (trim_group s) blank_nil hi
    have hgq : Nest '?' ':' ('(' :: (s ++ [')'])) := by
      simpa using Nest.char '(' _ (by decide) (by decide) (hc.nestQ.append (Nest.single (ch := ')') (by decide) (by decide)))
    have htrim : Trim ('(' :: (s ++ [')']) ++ i ++ '?' :: (j ++ r ++ k ++ ':' :: (l ++ q))) := by
      have := trim_ends (trim_group s) hb.trim (i ++ '?' :: (j ++ r ++ k ++ ':' :: l))
      simpa using this
    have hnest : ∀ {u : Str} {x : Ex}, FineArg A x u → ∀ {i j : Str}, Blank i → Blank j → Nest '?' ':' (i ++ u ++ j) :=
      fun hu _ _ hi hj => (hi.nestQ.append hu.nestQ).append hj.nestQ
    refine ⟨htrim, ?_, ?_, .cond nc na nb, core_atom A htrim ?_ ?_ (no_int (c := '?') (by simp) (by decide)), ?_⟩
    · have hblank : ∀ {u : Str}, Blank u → Nest '(' ')' u := fun hu => (hu.top (p := fun _ => True) trivial).nest
      exact (hc.nest.wrap.append (hblank hi)).append (Nest.char '?' _ (by decide) (by decide)
        ((((hblank hj).append ha.nest).append (hblank hk)).append
          (Nest.char ':' _ (by decide) (by decide) ((hblank hl).append hb.nest))))
    · refine (hgq.append hi.nestQ).append (Nest.group _ _ (hnest ha hj hk) ?_)
      simpa using hnest hb hl blank_nil
    · exact opened_op (p := fun _ => True) ((Top.wrap hc.nest).append (hi.top trivial)) (by simp) (by simp)
    · exact body_cond A ((Top.wrap hc.nest).append (hi.top (by decide))) (hnest ha hj hk) hcp (pa j k hj hk)
        (by simpa using pb l [] hl blank_nil)
    · intro env
      rw [Node.eval, Ex.eval, ec, ea, eb]
theorem textB_fine (hA : Laws A) : ∀ (c : BEx) (t : Str), c.IntExponents → c.Text t → FineB A c t
  | .lit v, t, _, h => by
    rw [BEx.Text] at h
    subst h
    cases v
    · exact ⟨⟨by simp, by decide, by decide⟩, Nest.of_chars (by decide), Nest.of_chars (by decide), .const false,
        ⟨_, (opened_head (by decide)).strips, bodyB_false A⟩, fun env => by rw [BNode.eval, BEx.eval]⟩
    · exact ⟨⟨by simp, by decide, by decide⟩, Nest.of_chars (by decide), Nest.of_chars (by decide), .const true,
        ⟨_, (opened_head (by decide)).strips, bodyB_true A⟩, fun env => by rw [BNode.eval, BEx.eval]⟩
  | .cmp o a b, t, hx, h => by
    rw [BEx.Text] at h
    rw [BEx.IntExponents] at hx
    obtain ⟨i, j, s, r, hi, hj, hs, hr, rfl⟩ := h
    have hs := operand_fine (fun s hs => text_fine hA a s hx.1 hs) hs
    have hr := operand_fine (fun s hs => text_fine hA b s hx.2 hs) hr
    obtain ⟨na, pa, ea, -⟩ := hs.parses
    obtain ⟨nb, pb, eb, -⟩ := hr.parses
    have htop : ∀ {p : Char → Prop}, p 'x' ∧ p 'y' ∧ p 'z' ∧ p 't' → p ' ' → Top p (s ++ i) ∧ Top p (j ++ r) :=
      fun hp hb => ⟨(hs.top' hp).append (hi.top hb), (hj.top hb).append (hr.top' hp)⟩
    have htrim : Trim (s ++ i ++ o.text ++ (j ++ r)) := by
      have := trim_ends hs.trim hr.trim (i ++ o.text ++ j)
      simpa using this
    have htt := htop (p := fun _ => True) ⟨trivial, trivial, trivial, trivial⟩ trivial
    refine ⟨htrim, ?_, ?_, o.node na nb, ⟨_, Opened.strips ?_, bodyB_cmp A o (htop (by decide) (by decide)).1
      (htop (by decide) (by decide)).2 (by simp [hr.trim.1]) (by simpa using pa [] i blank_nil hi)
      (by simpa using pb j [] hj blank_nil)⟩, ?_⟩
    · exact (htt.1.nest.append (Nest.of_chars (by cases o <;> decide))).append htt.2.nest
    · exact ((hs.nestQ.append hi.nestQ).append (Nest.of_chars (by cases o <;> decide))).append (hj.nestQ.append hr.nestQ)
    · exact opened_op (p := fun _ => True) (htt.1.append (Top.of_chars (by cases o <;> decide))) (by simp [hs.trim.1]) (by simp [hr.trim.1])
    · intro env
      rw [BEx.eval]
      by_cases ho : o = .eq
      · subst ho
        simp only [Cmp.node, if_true]
        rw [BNode.eval, ea, eb, hA.symm]
      · simp only [Cmp.node, if_neg ho]
        rw [BNode.eval, ea, eb]
  | .bop o a b, t, hx, h => by
    rw [BEx.Text] at h
    rw [BEx.IntExponents] at hx
    obtain ⟨i, j, s, r, hi, hj, hs, hr, rfl⟩ := h
    have hs := textB_fine hA a s hx.1 hs
    have hr := textB_fine hA b r hx.2 hr
    obtain ⟨na, ca, ea⟩ := hs.core
    obtain ⟨nb, cb, eb⟩ := hr.core
    have pa : ParsesB A ('(' :: (s ++ [')']) ++ i) na := by
      simpa using (ca.group A hs.nest).parses A (trim_group s) blank_nil hi
    have pb : ParsesB A (j ++ '(' :: (r ++ [')'])) nb := by
      simpa using (cb.group A hr.nest).parses A (trim_group r) hj blank_nil
    have htop : ∀ {p : Char → Prop}, p ' ' → Top p ('(' :: (s ++ [')']) ++ i) ∧ Top p (j ++ '(' :: (r ++ [')'])) :=
      fun hb => ⟨(Top.wrap hs.nest).append (hi.top hb), (hj.top hb).append (Top.wrap hr.nest)⟩
    have htrim : Trim ('(' :: (s ++ [')']) ++ i ++ o.char :: (j ++ '(' :: (r ++ [')']))) := by
      have := trim_ends (trim_group s) (trim_group r) (i ++ o.char :: j)
      simpa using this
    have hq : ∀ {u : Str}, Nest '?' ':' u → Nest '?' ':' ('(' :: (u ++ [')'])) := fun hu => by
      simpa using Nest.char '(' _ (by decide) (by decide) (hu.append (Nest.single (ch := ')') (by decide) (by decide)))
    have htt := htop (p := fun _ => True) trivial
    refine ⟨htrim, ?_, ?_, .bop o na nb, ⟨_, Opened.strips ?_, ?_⟩, ?_⟩
    · exact htt.1.nest.append (Nest.char o.char _ (by cases o <;> decide) (by cases o <;> decide) htt.2.nest)
    · exact ((hq hs.nestQ).append hi.nestQ).append (Nest.char o.char _ (by cases o <;> decide) (by cases o <;> decide)
        (hj.nestQ.append (hq hr.nestQ)))
    · exact opened_op (p := fun _ => True) htt.1 (by simp) (by simp)
    · cases o
      · exact bodyB_or A (htop (by decide)).2 pa pb
      · exact bodyB_xor A (htop (by decide)).1 (htop (by decide)).2 pa pb
      · exact bodyB_and A (htop (by decide)).1 (htop (by decide)).2 pa pb
    · intro env
      rw [BNode.eval, BEx.eval, ea, eb, BOp.eval_meaning]
end

/-- **C47.**  Every fully parenthesised text of an expression, in any mixture of upper and lower case and with
blanks around it, is parsed to a tree with the value of the expression, for all x, y, z, t and every
arithmetic. -/
theorem parse_print (hA : Laws A) (x : Ex) (hx : x.IntExponents) (t : Str) (ht : x.Text t) (i j : Str) (hi : Blank i)
    (hj : Blank j) (s : Str) (hs : toLower s = i ++ t ++ j) :
    ∃ n, parse A s = .ok n ∧ ∀ env, n.eval A env = x.eval A env := by
  have h := text_fine hA x t hx ht
  obtain ⟨n, hc, he⟩ := h.core
  refine ⟨n, ?_, he⟩
  unfold parse
  rw [hs]
  have hl : s.length = (i ++ t ++ j).length := by rw [← hs]; simp [toLower]
  exact hc.parses A h.trim hi hj _ (by simp) _ (by rw [hl]; omega)

/-- The point and time at which an expression is evaluated. -/
def point {K : Type} (x y z t : K) : Var → K
  | .x => x
  | .y => y
  | .z => z
  | .t => t

theorem values_eq_point {K : Type} (x y z t : K) : values x y z t = point x y z t := by
  funext v; cases v <;> rfl

/-- **C47**, as the user of a boundary condition sees it. -/
theorem functor_print (hA : Laws A) (x : Ex) (hx : x.IntExponents) (t : Str) (ht : x.Text t) (i j : Str) (hi : Blank i)
    (hj : Blank j) (s : Str) (hs : toLower s = i ++ t ++ j) :
    ∃ f, Functor.ofText A s = .ok f ∧ ∀ vx vy vz vt, f.eval A vx vy vz vt = some (x.eval A (point vx vy vz vt)) := by
  obtain ⟨n, hn, he⟩ := parse_print hA x hx t ht i j hi hj s hs
  have hne : s ≠ [] := by
    rintro rfl
    have htr := (text_fine hA x t hx ht).trim.1
    have := congrArg List.length hs
    simp only [toLower, List.map_nil, List.length_nil, List.length_append] at this
    exact htr (List.length_eq_zero_iff.1 (by omega))
  refine ⟨⟨some (n.optimize A), s⟩, ?_, fun vx vy vz vt => ?_⟩
  · unfold Functor.ofText
    rw [if_neg hne, hn]
    rfl
  · simp only [Functor.eval, Option.map_some, optimize_eval, he, values_eq_point]

/-! ## The hypotheses hold for concrete cases -/

/-- Unsigned whole numbers and decimals for the examples. -/
def mkNum (ip fp : List (Fin 10)) (h : ip ≠ []) : Num where
  lit := ⟨none, ip, some fp, none⟩
  valid := ⟨Or.inl h, by simp⟩
  unsigned := rfl
  lower := by simp

/-- The literal `2`. -/
def two : Num where
  lit := ⟨none, [2], none, none⟩
  valid := ⟨Or.inl (by simp), by simp⟩
  unsigned := rfl
  lower := by simp

theorem demo_laws : Laws demo where
  int := fun _ _ _ => rfl
  symm := fun a b => by
    show decide (a = b) = decide (b = a)
    simp [eq_comm]

/-- `(x - (2.5))^(2)` within a conditional. -/
def demoEx : Ex :=
  .cond (.cmp .eq (.var .t) (.num two)) (.bin .pow (.bin .sub (.var .x) (.num (mkNum [2] [5] (by simp)))) (.num two)) (.neg (.var .y))

example : demoEx.IntExponents := by
  simp only [demoEx, Ex.IntExponents, BEx.IntExponents, true_and, and_true, reduceCtorEq, false_imp_iff]
  intro _ l hl
  cases hl
  have hn : ¬ (none : Option Bool) = some true := by simp
  norm_num [two, Lit.value, natVal, fracVal, hn]

instance (t : Str) : Decidable (Blank t) := inferInstanceAs (Decidable (∀ c ∈ t, c = ' '))

example : demoEx.Text "(t == (2)) ? ((x - (2.5))^(2)) : (-y)".toList := by
  refine ⟨[' '], [' '], [' '], [' '], "t == (2)".toList, "((x - (2.5))^(2))".toList, "(-y)".toList, by decide, by decide, by decide, by decide,
    ⟨[' '], [' '], "t".toList, "(2)".toList, by decide, by decide, Or.inl ⟨.t, rfl, rfl⟩, Or.inr ⟨"2".toList, rfl, rfl⟩, rfl⟩,
    Or.inr ⟨"(x - (2.5))^(2)".toList, ⟨[], [], "(x - (2.5))".toList, "(2)".toList, by decide, by decide,
      Or.inr ⟨"x - (2.5)".toList, ⟨[' '], [' '], "x".toList, "(2.5)".toList, by decide, by decide, Or.inl ⟨.x, rfl, rfl⟩,
        Or.inr ⟨"2.5".toList, rfl, rfl⟩, rfl⟩, rfl⟩, Or.inr ⟨"2".toList, rfl, rfl⟩, rfl⟩, rfl⟩,
    Or.inr ⟨"-y".toList, ⟨[], "y".toList, by decide, Or.inl ⟨.y, rfl, rfl⟩, rfl⟩, rfl⟩, rfl⟩

example : (Functor.ofText demo "(t == (2)) ? ((x - (2.5))^(2)) : (-y)".toList).toOption.bind (fun f => f.eval demo 3 0 0 2) = some (1/4) := by
  decide +kernel

/-- Is the tree the power of x with exponent 0? -/
def isPowZero : Res (Node ℚ) → Bool
  | .ok (.powi (.ref .x) n) => n = 0
  | _ => false

/-- The limit on whole exponents is needed: 4294967296 is taken for 0. -/
theorem huge_exponent : parse demo "x^(4294967296)".toList = .ok (.powi (.ref .x) 0) := by
  have h : isPowZero (parse demo "x^(4294967296)".toList) = true := by decide +kernel
  unfold isPowZero at h
  split at h
  · rename_i n hn
    rw [hn]
    simp only [decide_eq_true_eq] at h
    rw [h]
  · cases h

end NimbleSM.Expr
