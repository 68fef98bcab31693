import Verif.Expr.ConventionalGood

/-!
# C49: conventional precedence — where the code follows it, and where it does not
-/

namespace NimbleSM.Expr

open NimbleSM.Parse

variable {K : Type} {A : Arith K}

/-- What is shown of texts. -/
def GoodV (A : Arith K) (cat : Cat) (p : Bool) (t : Str) : Val → Prop
  | .ex x => Good A cat p t x
  | .bx c => GoodB A cat p t c

theorem good_sum_term {p : Bool} {t : Str} {x : Ex} (h : Good A .term p t x) : Good A .sum p t x :=
  h.up (fun _ h => ⟨⟨h.1.1, h.1.2.1⟩, h.2⟩) (by simp) (by simp) (by simp) (by simp) (fun _ => Or.inl (n3_of_term h.top))

theorem conv_good (hA : Exact A) {cat : Cat} {p : Bool} {t : Str} {v : Val} (h : Conv cat p t v) : GoodV A cat p t v := by
  induction h with
  | num l hl =>
    refine good_num l .prim (Top.of_chars fun c hc => ?_) (Or.inl rfl)
    have hch : ∀ y, numChar y = false → c ≠ y := by
      rintro y hy rfl
      rw [l.mem hc] at hy; cases hy
    have hplus : c ≠ '+' := by rintro rfl; exact hl hc
    exact ⟨hch _ (by decide), hch _ (by decide), ⟨hch _ (by decide), hch _ (by decide), hplus, hch _ (by decide), hch _ (by decide), hch _ (by decide)⟩,
      hch _ (by decide), hch _ (by decide), hch _ (by decide), hch _ (by decide), hch _ (by decide), hch _ (by decide)⟩
  | e =>
    exact good_name (x := .e) ⟨by simp, by decide, by decide⟩ (by decide) ⟨[], 'e', rfl, Or.inr rfl, by decide, by decide⟩
      (by rintro ⟨a0, h, h1⟩
          rcases a0 with _ | ⟨c, a0⟩
          · revert h1; decide
          · have := congrArg List.length h
            simp at this) (by decide) (by decide) (body_e A) (fun env => by rw [Node.eval, Ex.eval])
  | pi =>
    exact good_name (x := .pi) ⟨by simp, by decide, by decide⟩ (by decide) ⟨['p'], 'i', rfl, Or.inl (by decide), by decide, by decide⟩
      (not_numE_last (by decide)) (by decide) (by decide) (body_pi A) (fun env => by rw [Node.eval, Ex.eval])
  | tau =>
    exact good_name (x := .tau) ⟨by simp, by decide, by decide⟩ (by decide) ⟨['t', 'a'], 'u', rfl, Or.inl (by decide), by decide, by decide⟩
      (not_numE_last (by decide)) (by decide) (by decide) (body_tau A) (fun env => by rw [Node.eval, Ex.eval])
  | var v =>
    exact good_name (x := .var v) (trim_var v) (by cases v <;> decide) ⟨[], v.name, rfl, by cases v <;> decide, by cases v <;> decide, by cases v <;> decide⟩
      (not_numE_last (by cases v <;> decide)) (by cases v <;> decide) (by cases v <;> decide) (body_var A v) (fun env => by rw [Node.eval, Ex.eval])
  | call f name p t i j x hname _ hp ih =>
    obtain ⟨n, hc, he⟩ := Good.core ih
    have hn : Nest '(' ')' (i ++ t ++ j) := (hp.1.nest.append (Good.nest ih)).append hp.2.1.nest
    have hq : Nest '?' ':' (i ++ t ++ j) := (hp.1.nestQ.append (Good.nestQ ih)).append hp.2.1.nestQ
    have hcg := (hc i j hp).group A hn
    have pn := hcg.parses A (trim_group _) blank_nil blank_nil
    simp only [List.nil_append, List.append_nil] at pn
    obtain ⟨⟨c, r, hcr, -, hc1, hc2, hc3⟩, -, hchars, -⟩ := f.name_facts name hname
    have hb := body_call A f name (i ++ t ++ j) hname n hn pn
    have hall : ∀ c ∈ name, c ≠ '(' ∧ c ≠ ')' ∧ c ≠ '?' ∧ c ≠ ':' ∧ c ≠ '-' ∧ N6 c ∧ Base c ∧ c ≠ ' ' := by
      cases f <;> simp only [Fn.name, Option.some.injEq, reduceCtorEq] at hname <;> subst hname <;> decide
    have htrim : Trim (name ++ '(' :: (i ++ t ++ j ++ [')'])) := by
      subst hcr
      have := trim_ends (a := [c]) ⟨by simp, by simpa using hc3, by simpa using hc3⟩ (trim_group (i ++ t ++ j)) r
      simpa using this
    refine good_group (x := .call f x) (n := .fn f n) hall hn hq (core_atom A htrim ?_ hb (no_int (c := '(') (by simp) (by decide)))
      (fun env => by rw [Node.eval, Ex.eval, he])
    subst hcr
    exact opened_head hc1
  | group p t i j x _ hp ih =>
    obtain ⟨n, hc, he⟩ := Good.core ih
    have hn : Nest '(' ')' (i ++ t ++ j) := (hp.1.nest.append (Good.nest ih)).append hp.2.1.nest
    have hq : Nest '?' ':' (i ++ t ++ j) := (hp.1.nestQ.append (Good.nestQ ih)).append hp.2.1.nestQ
    exact good_group (name := []) (by simp) hn hq ((hc i j hp).group A hn) he
  | sprim p t x _ ih => exact Good.up ih (fun _ h => h) (by simp) (by simp) (by simp) (by simp) (by simp)
  | neg p i t x hi _ ih => exact good_neg hA hi ih
  | signed p t x _ ih =>
    exact Good.up ih (fun _ h => ⟨⟨h.1.1, h.1.2.1, h.1.2.2.1, h.1.2.2.2.1, h.1.2.2.2.2.1⟩, h.2⟩) (by simp) (by simp) (by simp) (by simp) (by simp)
  | pow p q a i j b x y _ hi hj _ hy iha ihb => exact good_pow hA iha hi hj ihb hy
  | term p t x _ ih =>
    exact Good.up ih (fun _ h => ⟨⟨h.1.1, h.1.2.1, h.1.2.2.1⟩, h.2⟩) (by simp) (by simp) (by simp)
      (fun _ => Or.inl (n4_of_signed (Good.top ih))) (by simp)
  | mul p q a i j b x y _ hi hj _ iha ihb => exact good_mul iha hi hj ihb
  | div p q a i j b x y _ hi hj _ iha ihb => exact good_div hA iha hi hj ihb
  | sum p t x _ ih => exact good_sum_term ih
  | add p q a i j b x y _ hi hj _ iha ihb => exact good_add iha (Good.top iha) hi hj ihb
  | addNum l q i j b y hi hj _ ihb =>
    have hch : ∀ c ∈ l.lit.text, ∀ y, numChar y = false → c ≠ y := by
      rintro c hc y hy rfl
      rw [l.mem hc] at hy; cases hy
    have htop : Top (Allowed .sum) l.lit.text := Top.of_chars fun c hc =>
      have h := hch c hc
      ⟨h _ (by decide), h _ (by decide), ⟨h _ (by decide), h _ (by decide)⟩, h _ (by decide), h _ (by decide), h _ (by decide), h _ (by decide), h _ (by decide), h _ (by decide)⟩
    exact good_add (good_num l .arith (htop.mono fun _ h => ⟨h.1.1, h.2⟩) (Or.inr rfl)) htop hi hj ihb
  | sub p q a i j b x y _ hi hj _ hl hm iha ihb => exact good_sub hA iha hi hj ihb hl hm
  | mod p q a i j b x y _ hi hj _ iha ihb => exact good_mod iha (fun _ h => ⟨h.1.1, h.2⟩) hi hj ihb
  | modMore p q a i j b x y _ hi hj _ iha ihb => exact good_mod iha (fun _ h => h) hi hj ihb
  | arithSum p t x _ ih => exact Good.up ih (fun _ h => ⟨h.1.1, h.2⟩) (by simp) (by simp) (by simp) (by simp) (by simp)
  | arithMod p t x _ ih => exact Good.up ih (fun _ h => h) (by simp) (by simp) (by simp) (by simp) (by simp)
  | arithNum l =>
    refine good_num l .arith (Top.of_chars fun c hc => ?_) (Or.inr rfl)
    have h : ∀ y, numChar y = false → c ≠ y := by
      rintro y hy rfl
      rw [l.mem hc] at hy; cases hy
    exact ⟨h _ (by decide), h _ (by decide), h _ (by decide), h _ (by decide), h _ (by decide), h _ (by decide), h _ (by decide), h _ (by decide), h _ (by decide)⟩
  | full p t x _ ih => exact Good.up ih (fun _ _ => trivial) (by simp) (by simp) (by simp) (by simp) (by simp)
  | cond p q r c i j a k l b z x y _ hi hj _ hk hl _ ihc iha ihb => exact good_cond ihc hi hj iha hk hl ihb
  | btrue =>
    refine ⟨⟨by simp, by decide, by decide⟩, Nest.of_chars (by decide), Nest.of_chars (by decide), Top.of_chars (by simp [Allowed]), .const true,
      fun i j hp => ?_, fun env => by rw [BNode.eval, BEx.eval]⟩
    obtain ⟨rfl, rfl⟩ := hp.2.2 rfl
    exact ⟨_, (opened_head (by decide)).strips, bodyB_true A⟩
  | bfalse =>
    refine ⟨⟨by simp, by decide, by decide⟩, Nest.of_chars (by decide), Nest.of_chars (by decide), Top.of_chars (by simp [Allowed]), .const false,
      fun i j hp => ?_, fun env => by rw [BNode.eval, BEx.eval]⟩
    obtain ⟨rfl, rfl⟩ := hp.2.2 rfl
    exact ⟨_, (opened_head (by decide)).strips, bodyB_false A⟩
  | bgroup p t i j c _ hp ih =>
    obtain ⟨n, hc, he⟩ := GoodB.core ih
    have hn : Nest '(' ')' (i ++ t ++ j) := (hp.1.nest.append (GoodB.nest ih)).append hp.2.1.nest
    have hq : Nest '?' ':' (i ++ t ++ j) := (hp.1.nestQ.append (GoodB.nestQ ih)).append hp.2.1.nestQ
    refine ⟨trim_group _, hn.wrap, Nest.char '(' _ (by decide) (by decide) (hq.append (Nest.single (ch := ')') (by decide) (by decide))),
      Top.wrap hn, n, fun i' j' hp' => ?_, he⟩
    obtain ⟨rfl, rfl⟩ := hp'.2.2 rfl
    simpa using (hc i j hp).group A hn
  | cmp o p q a i j b x y _ hta hi hj _ htb iha ihb => exact goodB_cmp hA o iha hta hi hj ihb htb
  | band p t c _ ih => exact GoodB.up ih fun _ h => ⟨h.1, h.2.1, h.2.2.1⟩
  | and p q a i j b x y _ hi hj _ iha ihb =>
    refine goodB_bop .and iha hi hj ihb (by simp [Allowed, BOp.char]) (by simp [Allowed]) (fun _ h => h) (fun _ h => ⟨h.1, h.2.1, h.2.2.1⟩)
      fun na nb i0 j0 h1 h2 pa pb => bodyB_and A ?_ ?_ pa pb
    · exact ((h1.top (by decide)).append ((GoodB.top iha).mono fun _ h => ⟨h.2.1, h.2.2⟩)).append (hi.top (by decide))
    · exact ((hj.top (by decide)).append ((GoodB.top ihb).mono fun _ h => ⟨h.2.1, h.2.2.1, h.2.2.2⟩)).append (h2.top (by decide))
  | bxor p t c _ ih => exact GoodB.up ih fun _ h => ⟨h.1, h.2.1⟩
  | xor p q a i j b x y _ hi hj _ iha ihb =>
    refine goodB_bop .xor iha hi hj ihb (by simp [Allowed, BOp.char]) (by simp [Allowed]) (fun _ h => h) (fun _ h => ⟨h.1, h.2.1⟩)
      fun na nb i0 j0 h1 h2 pa pb => bodyB_xor A ?_ ?_ pa pb
    · exact ((h1.top (by decide)).append ((GoodB.top iha).mono fun _ h => h.2)).append (hi.top (by decide))
    · exact ((hj.top (by decide)).append ((GoodB.top ihb).mono fun _ h => ⟨h.2.1, h.2.2⟩)).append (h2.top (by decide))
  | bor p t c _ ih => exact GoodB.up ih fun _ h => h.1
  | or p q a i j b x y _ hi hj _ iha ihb =>
    refine goodB_bop .or iha hi hj ihb (by simp [Allowed, BOp.char]) (by simp [Allowed]) (fun _ h => h) (fun _ h => h.1)
      fun na nb i0 j0 h1 h2 pa pb => bodyB_or A ?_ pa pb
    exact ((hj.top (by decide)).append ((GoodB.top ihb).mono fun _ h => h.2)).append (h2.top (by decide))

/-- **C49**, as far as the code follows the convention (the side conditions of `Conv`): a text in conventional
notation, with any mixture of upper and lower case and with blanks around operators, is parsed to a tree with
the value that the conventional precedence and grouping give it, in exact arithmetic, for all x, y, z, t. -/
theorem conventional_partial (hA : Exact A) {p : Bool} {t : Str} {x : Ex} (h : Conv .full p t (.ex x)) (i j : Str) (hi : Blank i)
    (hj : Blank j) (s : Str) (hs : toLower s = i ++ t ++ j) :
    ∃ n, parse A s = .ok n ∧ ∀ env, n.eval A env = x.eval A env := by
  obtain ⟨n, pn, -, he⟩ := Good.parses (conv_good hA h)
  refine ⟨n, ?_, he⟩
  unfold parse
  rw [hs]
  have hl : s.length = (i ++ t ++ j).length := by rw [← hs]; simp [toLower]
  exact pn i j hi hj _ (by simp) _ (by rw [hl]; omega)

/-- **C49**, as the user of a boundary condition sees it. -/
theorem functor_conventional_partial (hA : Exact A) {p : Bool} {t : Str} {x : Ex} (h : Conv .full p t (.ex x)) (i j : Str) (hi : Blank i)
    (hj : Blank j) (s : Str) (hs : toLower s = i ++ t ++ j) :
    ∃ f, Functor.ofText A s = .ok f ∧ ∀ vx vy vz vt, f.eval A vx vy vz vt = some (x.eval A (point vx vy vz vt)) := by
  obtain ⟨n, hn, he⟩ := conventional_partial hA h i j hi hj s hs
  have hne : s ≠ [] := by
    rintro rfl
    have htr := (Good.trim (conv_good hA h)).1
    have := congrArg List.length hs
    simp only [toLower, List.map_nil, List.length_nil, List.length_append] at this
    exact htr (List.length_eq_zero_iff.1 (by omega))
  refine ⟨⟨some (n.optimize A), s⟩, ?_, fun vx vy vz vt => ?_⟩
  · unfold Functor.ofText
    rw [if_neg hne, hn]
    rfl
  · simp only [Functor.eval, Option.map_some, optimize_eval, he, values_eq_point]

/-! ## Where the code does not follow the convention

`demo` computes in ℚ (`OptimizeProps`).  `none` means that the text is refused. -/

/-- The value of a text at a point, or `none` if the functor cannot be made. -/
def valueOf (s : String) (x y z t : ℚ) : Option ℚ :=
  match Functor.ofText demo s.toList with
  | .ok f => f.eval demo x y z t
  | .error _ => none

/-- A sign binds more tightly than a power: `-x^2` is `(-x)^2`, 9 at x = 3. -/
theorem sign_before_power : valueOf "-x^2" 3 0 0 0 = some 9 := by decide +kernel

/-- A minus sign in the exponent of a number to the right of a difference is taken for the difference, with a wrong value:
5 - 2*1e-3 is 3/1000. -/
theorem exponent_sign_taken : valueOf "t - 2*1e-3" 0 0 0 5 = some (3 / 1000) := by decide +kernel

/-- ... or the text is refused. -/
theorem exponent_sign_refused : valueOf "x - 1e-3" 3 0 0 0 = none ∧ valueOf "2*1e+3" 3 0 0 0 = none := by decide +kernel

/-- A sign after a product to the right of a difference: 1 - 2*(-5) is 5. -/
theorem sign_after_product : valueOf "x - y*-t" 1 2 0 5 = some 5 := by decide +kernel

/-- The constant e before a minus sign. -/
theorem e_before_minus : valueOf "e - x" 3 0 0 0 = none := by decide +kernel

/-- Blanks between parentheses and a variable. -/
theorem blanks_in_parentheses : valueOf "( x )" 3 0 0 0 = none := by decide +kernel

/-- A power in a condition. -/
theorem power_in_condition : valueOf "x^2 > 1 ? y : z" 3 7 8 0 = none := by decide +kernel

/-- A sum with a remainder is split at the remainder. -/
theorem remainder_of_sum : parse demo "x + y % z".toList = .ok (.bin .mod (.bin .add (.ref .x) (.ref .y)) (.ref .z)) := by
  have key : (match parse demo "x + y % z".toList with
      | .ok (.bin .mod (.bin .add (.ref .x) (.ref .y)) (.ref .z)) => true
      | _ => false) = true := by decide +kernel
  split at key
  · rename_i hn
    exact hn
  · cases key

/-! ## The hypotheses hold for concrete cases -/

theorem demo_exact : Exact demo where
  toLaws := demo_laws
  neg_lit := fun q => rfl
  add_sub := fun a b c => by
    show a + (b - c) = a + b - c
    ring
  mul_div := fun a b c => by
    show a * (b / c) = a * b / c
    ring

theorem conv_var (v : Var) : Conv .signed false [v.name] (.ex (.var v)) := .signed _ _ _ (.sprim _ _ _ (.var v))

theorem conv_two : Conv .prim false "2".toList (.ex (.num two)) := .num two (by decide)

theorem two_small : SmallExponent (.num two) := by
  rintro l (h | h) <;> cases h
  have hn : ¬ (none : Option Bool) = some true := by simp
  norm_num [two, Lit.value, natVal, fracVal, hn]

/-- `x - 2*y/z + t > 2 ? x^2 : -y` with its conventional grouping. -/
def convEx : Ex :=
  .cond (.cmp .gt (.bin .add (.bin .sub (.var .x) (.bin .div (.bin .mul (.num two) (.var .y)) (.var .z))) (.var .t)) (.num two))
    (.bin .pow (.var .x) (.num two)) (.neg (.var .y))

theorem conv_demo : Conv .full true "x - 2*y/z + t > 2 ? x^2 : -y".toList (.ex convEx) := by
  have hprod : Conv .term true "2*y/z".toList (.ex (.bin .div (.bin .mul (.num two) (.var .y)) (.var .z))) :=
    .div true false "2*y".toList [] [] "z".toList _ _
      (.mul false false "2".toList [] [] "y".toList _ _ (.term _ _ _ (.signed _ _ _ (.sprim _ _ _ conv_two))) (by decide) (by decide) (conv_var .y))
      (by decide) (by decide) (conv_var .z)
  have hdiff : Conv .sum true "x - 2*y/z".toList (.ex (.bin .sub (.var .x) (.bin .div (.bin .mul (.num two) (.var .y)) (.var .z)))) :=
    .sub false true "x".toList [' '] [' '] "2*y/z".toList _ _ (.sum _ _ _ (.term _ _ _ (conv_var .x))) (by decide) (by decide) hprod (by decide)
      ⟨[], "2*y/z".toList, rfl, (by intro c hc; cases hc), Top.of_chars (by decide)⟩
  have hsum : Conv .arith true "x - 2*y/z + t".toList (.ex (.bin .add (.bin .sub (.var .x) (.bin .div (.bin .mul (.num two) (.var .y)) (.var .z))) (.var .t))) :=
    .arithSum _ _ _ (.add true false "x - 2*y/z".toList [' '] [' '] "t".toList _ _ hdiff (by decide) (by decide) (.term _ _ _ (conv_var .t)))
  have hcond : Conv .bor true "x - 2*y/z + t > 2".toList (.bx (.cmp .gt _ (.num two))) :=
    .bor _ _ _ (.bxor _ _ _ (.band _ _ _ (.cmp .gt true false "x - 2*y/z + t".toList [' '] [' '] "2".toList _ _ hsum (Top.of_chars (by decide))
      (by decide) (by decide) (.arithNum two) (Top.of_chars (by decide)))))
  have hpow : Conv .full true "x^2".toList (.ex (.bin .pow (.var .x) (.num two))) :=
    .full _ _ _ (.arithSum _ _ _ (.sum _ _ _ (.term _ _ _ (.pow false false "x".toList [] [] "2".toList _ _ (.var .x) (by decide) (by decide)
      (.signed _ _ _ (.sprim _ _ _ conv_two)) two_small))))
  have hneg : Conv .full false "-y".toList (.ex (.neg (.var .y))) :=
    .full _ _ _ (.arithSum _ _ _ (.sum _ _ _ (.term _ _ _ (.signed _ _ _ (.neg false [] "y".toList _ (by decide) (.sprim _ _ _ (.var .y)))))))
  exact .cond true true false "x - 2*y/z + t > 2".toList [' '] [' '] "x^2".toList [' '] [' '] "-y".toList _ _ _ hcond (by decide) (by decide) hpow
    (by decide) (by decide) hneg

/-- The theorem applied: `"X - 2*Y/Z + T > 2 ? X^2 : -Y "`. -/
example : ∃ n, parse demo "X - 2*Y/Z + T > 2 ? X^2 : -Y ".toList = .ok n ∧ ∀ env, n.eval demo env = convEx.eval demo env :=
  conventional_partial demo_exact conv_demo [] [' '] (by decide) (by decide) _ (by decide)

/-- A number with a signed exponent at the beginning of a sum. -/
example : Conv .full true "2+x".toList (.ex (.bin .add (.num two) (.var .x))) :=
  .full _ _ _ (.arithSum _ _ _ (.addNum two false [] [] "x".toList _ (by decide) (by decide) (.term _ _ _ (conv_var .x))))

/-- Remainders, and conditions with `&`, `^`, `|`. -/
example : Conv .full true "x%y%z".toList (.ex (.bin .mod (.bin .mod (.var .x) (.var .y)) (.var .z))) :=
  .full _ _ _ (.arithMod _ _ _ (.modMore true false "x%y".toList [] [] "z".toList _ _
    (.mod false false "x".toList [] [] "y".toList _ _ (.term _ _ _ (conv_var .x)) (by decide) (by decide) (conv_var .y))
    (by decide) (by decide) (conv_var .z)))

example : Conv .bor true "true & false ^ true | false".toList
    (.bx (.bop .or (.bop .xor (.bop .and (.lit true) (.lit false)) (.lit true)) (.lit false))) :=
  .or true false "true & false ^ true".toList [' '] [' '] "false".toList _ _
    (.bor _ _ _ (.xor true false "true & false".toList [' '] [' '] "true".toList _ _
      (.bxor _ _ _ (.and false false "true".toList [' '] [' '] "false".toList _ _ (.band _ _ _ .btrue) (by decide) (by decide) .bfalse))
      (by decide) (by decide) (.band _ _ _ .btrue)))
    (by decide) (by decide) (.bxor _ _ _ (.band _ _ _ .bfalse))

end NimbleSM.Expr
