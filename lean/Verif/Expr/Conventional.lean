import Verif.Expr.PrintProps

/-!
# C49: conventional precedence — the specification

`Conv cat pad t v`: the text `t` is, at precedence level `cat`, a conventional way to write the expression (or
condition) `v`.  The trees `Ex` are the conventional ones: `+ -` and `* / %` group to the left, `^` to the
right and more tightly than `* / %`, comparisons bind more tightly than `&`, `&` more than `^` (exclusive or),
that more than `|`, and `? :` least.

The code does not follow the convention everywhere (see the refutations in `ConventionalProps`); the side
conditions of the rules are marked with the text that shows that they are needed.
-/

namespace NimbleSM.Expr

open NimbleSM.Parse

/-- Levels of precedence. -/
inductive Cat where
  | prim | sprim | signed | term | sum | modc | arith | full | batom | band | bxor | bor
  deriving DecidableEq

/-- Expressions and conditions. -/
inductive Val where
  | ex (x : Ex)
  | bx (c : BEx)

/-- Blanks just inside parentheses are allowed if `pad`. -/
def Pad (pad : Bool) (i j : Str) : Prop := Blank i ∧ Blank j ∧ (pad = false → i = [] ∧ j = [])

/-- Whole exponents fit an `int`. -/
def SmallExponent (x : Ex) : Prop := ∀ l, x = .num l ∨ x = .neg (.num l) → l.lit.value < 2147483648

/-- Outside parentheses there is no minus sign, except signs at the beginning. -/
def MinusFirst (t : Str) : Prop := ∃ m b, t = m ++ b ∧ Signs m ∧ Top (· ≠ '-') b

/-- Texts in conventional notation.  `pad` says that blanks may stand between the text and parentheses
around it (`"( x )"` is not understood by the code). -/
inductive Conv : Cat → Bool → Str → Val → Prop
  /-- no `+` sign in the exponent: "2*1e+3" -/
  | num (l : Num) : '+' ∉ l.lit.text → Conv .prim false l.lit.text (.ex (.num l))
  | e : Conv .prim false "e".toList (.ex .e)
  | pi : Conv .prim false "pi".toList (.ex .pi)
  | tau : Conv .prim false "tau".toList (.ex .tau)
  | var (v : Var) : Conv .prim false [v.name] (.ex (.var v))
  | call (f : Fn) (name : Str) (p : Bool) (t i j : Str) (x : Ex) : f.name = some name → Conv .full p t (.ex x) → Pad p i j →
      Conv .prim false (name ++ '(' :: (i ++ t ++ j ++ [')'])) (.ex (.call f x))
  | group (p : Bool) (t i j : Str) (x : Ex) : Conv .full p t (.ex x) → Pad p i j →
      Conv .prim false ('(' :: (i ++ t ++ j ++ [')'])) (.ex x)
  | sprim (p : Bool) (t : Str) (x : Ex) : Conv .prim p t (.ex x) → Conv .sprim p t (.ex x)
  /-- the operand of a sign is not a power: "-x^2" -/
  | neg (p : Bool) (i t : Str) (x : Ex) : Blank i → Conv .sprim p t (.ex x) → Conv .sprim false ('-' :: (i ++ t)) (.ex (.neg x))
  | signed (p : Bool) (t : Str) (x : Ex) : Conv .sprim p t (.ex x) → Conv .signed p t (.ex x)
  /-- "x^4294967296" -/
  | pow (p q : Bool) (a i j b : Str) (x y : Ex) : Conv .prim p a (.ex x) → Blank i → Blank j → Conv .signed q b (.ex y) →
      SmallExponent y → Conv .signed true (a ++ i ++ '^' :: (j ++ b)) (.ex (.bin .pow x y))
  | term (p : Bool) (t : Str) (x : Ex) : Conv .signed p t (.ex x) → Conv .term p t (.ex x)
  | mul (p q : Bool) (a i j b : Str) (x y : Ex) : Conv .term p a (.ex x) → Blank i → Blank j → Conv .signed q b (.ex y) →
      Conv .term (a.head? ≠ some '-') (a ++ i ++ '*' :: (j ++ b)) (.ex (.bin .mul x y))
  | div (p q : Bool) (a i j b : Str) (x y : Ex) : Conv .term p a (.ex x) → Blank i → Blank j → Conv .signed q b (.ex y) →
      Conv .term (a.head? ≠ some '-') (a ++ i ++ '/' :: (j ++ b)) (.ex (.bin .div x y))
  | sum (p : Bool) (t : Str) (x : Ex) : Conv .term p t (.ex x) → Conv .sum p t (.ex x)
  | add (p q : Bool) (a i j b : Str) (x y : Ex) : Conv .sum p a (.ex x) → Blank i → Blank j → Conv .term q b (.ex y) →
      Conv .sum true (a ++ i ++ '+' :: (j ++ b)) (.ex (.bin .add x y))
  /-- numbers with a `+` sign in the exponent can only stand at the beginning of a sum -/
  | addNum (l : Num) (q : Bool) (i j b : Str) (y : Ex) : Blank i → Blank j → Conv .term q b (.ex y) →
      Conv .sum true (l.lit.text ++ i ++ '+' :: (j ++ b)) (.ex (.bin .add (.num l) y))
  /-- the left operand does not end in the constant e: "e - x"; no further minus sign to the right, except
  directly: "x - y*-t", "x - 1e-3" -/
  | sub (p q : Bool) (a i j b : Str) (x y : Ex) : Conv .sum p a (.ex x) → Blank i → Blank j → Conv .term q b (.ex y) →
      a.getLast? ≠ some 'e' → MinusFirst b → Conv .sum true (a ++ i ++ '-' :: (j ++ b)) (.ex (.bin .sub x y))
  /-- a remainder is neither followed by another operation nor part of a sum: "x % y * z", "x + y % z" -/
  | mod (p q : Bool) (a i j b : Str) (x y : Ex) : Conv .term p a (.ex x) → Blank i → Blank j → Conv .signed q b (.ex y) →
      Conv .modc true (a ++ i ++ '%' :: (j ++ b)) (.ex (.bin .mod x y))
  | modMore (p q : Bool) (a i j b : Str) (x y : Ex) : Conv .modc p a (.ex x) → Blank i → Blank j → Conv .signed q b (.ex y) →
      Conv .modc true (a ++ i ++ '%' :: (j ++ b)) (.ex (.bin .mod x y))
  | arithSum (p : Bool) (t : Str) (x : Ex) : Conv .sum p t (.ex x) → Conv .arith p t (.ex x)
  | arithMod (p : Bool) (t : Str) (x : Ex) : Conv .modc p t (.ex x) → Conv .arith p t (.ex x)
  | arithNum (l : Num) : Conv .arith false l.lit.text (.ex (.num l))
  | full (p : Bool) (t : Str) (x : Ex) : Conv .arith p t (.ex x) → Conv .full p t (.ex x)
  | cond (p q r : Bool) (c i j a k l b : Str) (z : BEx) (x y : Ex) : Conv .bor p c (.bx z) → Blank i → Blank j →
      Conv .full q a (.ex x) → Blank k → Blank l → Conv .full r b (.ex y) →
      Conv .full true (c ++ i ++ '?' :: (j ++ a ++ k ++ ':' :: (l ++ b))) (.ex (.cond z x y))
  | btrue : Conv .batom false "true".toList (.bx (.lit true))
  | bfalse : Conv .batom false "false".toList (.bx (.lit false))
  | bgroup (p : Bool) (t i j : Str) (c : BEx) : Conv .bor p t (.bx c) → Pad p i j →
      Conv .batom false ('(' :: (i ++ t ++ j ++ [')'])) (.bx c)
  /-- no power outside parentheses: "x^2 > 1 ? y : z" -/
  | cmp (o : Cmp) (p q : Bool) (a i j b : Str) (x y : Ex) : Conv .arith p a (.ex x) → Top (· ≠ '^') a → Blank i → Blank j →
      Conv .arith q b (.ex y) → Top (· ≠ '^') b → Conv .batom true (a ++ i ++ o.text ++ (j ++ b)) (.bx (.cmp o x y))
  | band (p : Bool) (t : Str) (c : BEx) : Conv .batom p t (.bx c) → Conv .band p t (.bx c)
  | and (p q : Bool) (a i j b : Str) (x y : BEx) : Conv .band p a (.bx x) → Blank i → Blank j → Conv .batom q b (.bx y) →
      Conv .band true (a ++ i ++ '&' :: (j ++ b)) (.bx (.bop .and x y))
  | bxor (p : Bool) (t : Str) (c : BEx) : Conv .band p t (.bx c) → Conv .bxor p t (.bx c)
  | xor (p q : Bool) (a i j b : Str) (x y : BEx) : Conv .bxor p a (.bx x) → Blank i → Blank j → Conv .band q b (.bx y) →
      Conv .bxor true (a ++ i ++ '^' :: (j ++ b)) (.bx (.bop .xor x y))
  | bor (p : Bool) (t : Str) (c : BEx) : Conv .bxor p t (.bx c) → Conv .bor p t (.bx c)
  | or (p q : Bool) (a i j b : Str) (x y : BEx) : Conv .bor p a (.bx x) → Blank i → Blank j → Conv .bxor q b (.bx y) →
      Conv .bor true (a ++ i ++ '|' :: (j ++ b)) (.bx (.bop .or x y))

/-- The laws of exact arithmetic that the regrouping done by the parser relies on. -/
structure Exact {K : Type} (A : Arith K) : Prop extends Laws A where
  neg_lit : ∀ q, A.fn .neg (A.ofRat q) = A.ofRat (-q)
  add_sub : ∀ a b c, A.op .add a (A.op .sub b c) = A.op .sub (A.op .add a b) c
  mul_div : ∀ a b c, A.op .mul a (A.op .div b c) = A.op .div (A.op .mul a b) c

end NimbleSM.Expr
