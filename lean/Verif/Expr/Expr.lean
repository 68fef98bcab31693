import Verif.Parse.Tokens
import Mathlib.Data.Rat.Defs

/-!
# Boundary expressions: `src/nimble_expression_parser.h`, `src/nimble_expression_parser.cc`

A `Reader` (a pointer into a C string, a length and a position) is modelled by the text it covers and what
follows it in the buffer, terminating null character included; a read beyond that is the outcome `outside`.
Objects made by the memory manager are modelled as trees.  Arithmetic is a parameter (`Arith`): the
doubles of the code, or exact numbers.  `std::stod` reads exact decimals (overflow, `std::out_of_range`, is
not modelled).
-/

namespace NimbleSM.Expr

open NimbleSM.Parse

abbrev Str := List Char

/-- nimble_expression_parser.cc:46-80: the functions of one argument, and negation
(nimble_expression_parser.h:300-309). -/
inductive Fn where
  | sin | cos | tan | erf | exp | log | abs | asin | acos | atan | sqrt | cbrt | erfc | ceil | round | floor
  | log10 | neg
  deriving DecidableEq, Repr

/-- nimble_expression_parser.h:311-324, real-valued operations of two arguments. -/
inductive Op where
  | add | sub | mul | div | mod | pow
  deriving DecidableEq, Repr

/-- nimble_expression_parser.h:311-324, comparisons. -/
inductive Cmp where
  | gt | ge | lt | le | eq
  deriving DecidableEq, Repr

/-- nimble_expression_parser.h:311-324, operations on truth values. -/
inductive BOp where
  | or | xor | and
  deriving DecidableEq, Repr

/-- nimble_expression_parser.h:711-714: the variables. -/
inductive Var where
  | x | y | z | t
  deriving DecidableEq, Repr

/-- What the code takes from the processor and the C library. -/
structure Arith (K : Type) where
  /-- `std::stod` of a decimal -/
  ofRat : ℚ → K
  e : K
  pi : K
  tau : K
  /-- conversion from `int` -/
  ofInt : ℤ → K
  fn : Fn → K → K
  op : Op → K → K → K
  cmp : Cmp → K → K → Bool

/-- Operations on truth values. -/
def BOp.eval : BOp → Bool → Bool → Bool
  | .or, a, b => a || b
  | .xor, a, b => Bool.xor a b
  | .and, a, b => a && b

mutual
/-- nimble_expression_parser.h:107-350: real-valued evaluatable objects.  R, E and C say whether an
operand is a raw reference to a variable, an evaluatable object or a stored constant. -/
inductive Node (K : Type) where
  /-- `GenericConstant<double>` (124-131) -/
  | const (v : K)
  /-- `GenericReference<double>` (133-140) -/
  | ref (x : Var)
  /-- `GenericFunction` (144-170) -/
  | fn (f : Fn) (a : Node K)
  /-- `GenericFunction::ReferenceCase` -/
  | fnRef (f : Fn) (x : Var)
  /-- `MakeGenericOperator`, `MakeGenericTwoInputFunc` (172-297) -/
  | bin (o : Op) (a b : Node K)
  | binRR (o : Op) (x y : Var)
  | binRE (o : Op) (x : Var) (b : Node K)
  | binER (o : Op) (a : Node K) (y : Var)
  | binCR (o : Op) (u : K) (y : Var)
  | binCE (o : Op) (u : K) (b : Node K)
  | binRC (o : Op) (x : Var) (w : K)
  | binEC (o : Op) (a : Node K) (w : K)
  /-- `DoubleToIntegerPow` with its constant exponent, and its two `ConstCase2` -/
  | powi (a : Node K) (n : ℤ)
  | powiR (x : Var) (n : ℤ)
  | powiE (a : Node K) (n : ℤ)
  /-- `Conditional` (326-355) -/
  | cond (c : BNode K) (a b : Node K)
/-- Truth-valued evaluatable objects. -/
inductive BNode (K : Type) where
  | const (v : Bool)
  | not (a : BNode K)
  | cmp (o : Cmp) (a b : Node K)
  | cmpRR (o : Cmp) (x y : Var)
  | cmpRE (o : Cmp) (x : Var) (b : Node K)
  | cmpER (o : Cmp) (a : Node K) (y : Var)
  | cmpCR (o : Cmp) (u : K) (y : Var)
  | cmpCE (o : Cmp) (u : K) (b : Node K)
  | cmpRC (o : Cmp) (x : Var) (w : K)
  | cmpEC (o : Cmp) (a : Node K) (w : K)
  | bop (o : BOp) (a b : BNode K)
  | bopC1 (o : BOp) (u : Bool) (b : BNode K)
  | bopC2 (o : BOp) (a : BNode K) (w : Bool)
end

variable {K : Type}

mutual
/-- The conversion operators `operator T() const` of the classes (107-350). -/
def Node.eval (A : Arith K) (env : Var → K) : Node K → K
  | .const v => v
  | .ref x => env x
  | .fn f a => A.fn f (a.eval A env)
  | .fnRef f x => A.fn f (env x)
  | .bin o a b => A.op o (a.eval A env) (b.eval A env)
  | .binRR o x y => A.op o (env x) (env y)
  | .binRE o x b => A.op o (env x) (b.eval A env)
  | .binER o a y => A.op o (a.eval A env) (env y)
  | .binCR o u y => A.op o u (env y)
  | .binCE o u b => A.op o u (b.eval A env)
  | .binRC o x w => A.op o (env x) w
  | .binEC o a w => A.op o (a.eval A env) w
  | .powi a n => A.op .pow (a.eval A env) (A.ofInt n)
  | .powiR x n => A.op .pow (env x) (A.ofInt n)
  | .powiE a n => A.op .pow (a.eval A env) (A.ofInt n)
  | .cond c a b => if c.eval A env then a.eval A env else b.eval A env
/-- The conversion operators of the truth-valued classes. -/
def BNode.eval (A : Arith K) (env : Var → K) : BNode K → Bool
  | .const v => v
  | .not a => !(a.eval A env)
  | .cmp o a b => A.cmp o (a.eval A env) (b.eval A env)
  | .cmpRR o x y => A.cmp o (env x) (env y)
  | .cmpRE o x b => A.cmp o (env x) (b.eval A env)
  | .cmpER o a y => A.cmp o (a.eval A env) (env y)
  | .cmpCR o u y => A.cmp o u (env y)
  | .cmpCE o u b => A.cmp o u (b.eval A env)
  | .cmpRC o x w => A.cmp o (env x) w
  | .cmpEC o a w => A.cmp o (a.eval A env) w
  | .bop o a b => o.eval (a.eval A env) (b.eval A env)
  | .bopC1 o u b => o.eval u (b.eval A env)
  | .bopC2 o a w => o.eval (a.eval A env) w
end

/-- nimble_expression_parser.h:158-169: rebuilding a function after its argument has been optimised. -/
def optFn (A : Arith K) (f : Fn) : Node K → Node K
  | .const v => .const (A.fn f v)
  | .ref x => .fnRef f x
  | a => .fn f a

/-- nimble_expression_parser.h:206-233 (and 270-297): rebuilding an operation after its operands have been
optimised. -/
def optBin (A : Arith K) (o : Op) : Node K → Node K → Node K
  | .const u, .const w => .const (A.op o u w)
  | .const u, .ref y => .binCR o u y
  | .const u, b => .binCE o u b
  | .ref x, .const w => .binRC o x w
  | .ref x, .ref y => .binRR o x y
  | .ref x, b => .binRE o x b
  | a, .const w => .binEC o a w
  | a, .ref y => .binER o a y
  | a, b => .bin o a b

/-- The same for a power with an integer constant as exponent. -/
def optPowi (A : Arith K) (n : ℤ) : Node K → Node K
  | .const u => .const (A.op .pow u (A.ofInt n))
  | .ref x => .powiR x n
  | a => .powiE a n

/-- The same for comparisons. -/
def optCmp (A : Arith K) (o : Cmp) : Node K → Node K → BNode K
  | .const u, .const w => .const (A.cmp o u w)
  | .const u, .ref y => .cmpCR o u y
  | .const u, b => .cmpCE o u b
  | .ref x, .const w => .cmpRC o x w
  | .ref x, .ref y => .cmpRR o x y
  | .ref x, b => .cmpRE o x b
  | a, .const w => .cmpEC o a w
  | a, .ref y => .cmpER o a y
  | a, b => .cmp o a b

/-- The same for negation of truth values. -/
def optNot : BNode K → BNode K
  | .const v => .const (!v)
  | a => .not a

/-- The same for operations on truth values. -/
def optBop (o : BOp) : BNode K → BNode K → BNode K
  | .const u, .const w => .const (o.eval u w)
  | .const u, b => .bopC1 o u b
  | a, .const w => .bopC2 o a w
  | a, b => .bop o a b

/-- nimble_expression_parser.h:340-355: the same for conditionals. -/
def optCond : BNode K → Node K → Node K → Node K
  | .const v, a, b => if v then a else b
  | c, a, b => .cond c a b

mutual
/-- The `optimize` methods; classes without one return themselves (114-118). -/
def Node.optimize (A : Arith K) : Node K → Node K
  | .fn f a => optFn A f (a.optimize A)
  | .bin o a b => optBin A o (a.optimize A) (b.optimize A)
  | .powi a n => optPowi A n (a.optimize A)
  | .cond c a b => optCond (c.optimize A) (a.optimize A) (b.optimize A)
  | n => n
/-- The `optimize` methods of the truth-valued classes. -/
def BNode.optimize (A : Arith K) : BNode K → BNode K
  | .not a => optNot (a.optimize A)
  | .cmp o a b => optCmp A o (a.optimize A) (b.optimize A)
  | .bop o a b => optBop o (a.optimize A) (b.optimize A)
  | n => n
end

/-! ## Readers -/

/-- What can go wrong. -/
inductive Err where
  /-- `std::invalid_argument` -/
  | invalid
  /-- a read outside the buffer -/
  | outside
  /-- the model's recursion budget is used up -/
  | fuel
  deriving DecidableEq, Repr

abbrev Res (α : Type) := Except Err α

/-- nimble_expression_parser.h:370-396 `Reader`: the characters covered, and the rest of the buffer.  The
position is passed explicitly; copying a `Reader` resets it (379). -/
structure Reader where
  text : Str
  after : Str

/-- `first[i]`. -/
def Reader.at (r : Reader) (i : ℕ) : Res Char :=
  match (r.text ++ r.after)[i]? with
  | some c => .ok c
  | none => .error .outside

/-- nimble_expression_parser.h:381-397 `sub(start, end)`; an end before the start would be a huge length. -/
def Reader.sub (r : Reader) (a b : ℕ) : Res Reader :=
  if a ≤ b ∧ b ≤ r.text.length then .ok ⟨(r.text.drop a).take (b - a), r.text.drop b ++ r.after⟩
  else .error .outside

/-- nimble_expression_parser.h:399-416, the loop of `Next`: `k = length - pos` passes at most. -/
def nextLoop (r : Reader) (o c : Char) : ℕ → ℕ → ℕ → Res (ℕ × ℕ)
  | 0, pos, depth => .ok (pos, depth)
  | k + 1, pos, depth =>
    if depth = 0 then .ok (pos, depth)
    else (r.at (pos + 1)).bind fun ch =>
      nextLoop r o c k (pos + 1) (if ch = o then depth + 1 else if ch = c then depth - 1 else depth)

/-- nimble_expression_parser.h:399-416 `Next(open, close)`: new position and depth. -/
def next (r : Reader) (o c : Char) (pos : ℕ) : Res (ℕ × ℕ) :=
  (r.at pos).bind fun ch =>
    if ch = o then nextLoop r o c (r.text.length - pos) pos 1 else .ok (pos + 1, 0)

/-- nimble_expression_parser.h:417-433, the loop of `Prev`. -/
def prevLoop (r : Reader) (o c : Char) : ℕ → ℕ → Res (ℕ × ℕ)
  | 0, depth => .ok (0, depth)
  | pos + 1, depth =>
    if depth = 0 then .ok (pos + 1, depth)
    else (r.at pos).bind fun ch =>
      prevLoop r o c pos (if ch = c then depth + 1 else if ch = o then depth - 1 else depth)

/-- nimble_expression_parser.h:417-433 `Prev(open, close)`. -/
def prev (r : Reader) (o c : Char) (pos : ℕ) : Res (ℕ × ℕ) :=
  (r.at pos).bind fun ch => if ch = c then prevLoop r o c pos 1 else .ok (pos - 1, 0)

/-- nimble_expression_parser.h:441, the loop of `operator>>` (each pass moves forward, so `length` passes
are enough). -/
def shrLoop (r : Reader) (c : Char) : ℕ → ℕ → Res ℕ
  | 0, pos => .ok pos
  | k + 1, pos =>
    if pos < r.text.length - 1 then
      (r.at pos).bind fun ch =>
        if ch ≠ c then (next r '(' ')' pos).bind fun q => shrLoop r c k q.1 else .ok pos
    else .ok pos

/-- nimble_expression_parser.h:435-446 `operator>>`: search forward for `c` outside parentheses.  With an
empty reader `max_pos` is -1, i.e. huge when compared with the unsigned position. -/
def shr (r : Reader) (c : Char) : Res (Bool × ℕ) :=
  if r.text.length = 0 then .error .outside
  else (shrLoop r c r.text.length 0).bind fun pos => (r.at pos).bind fun ch => .ok (ch = c, pos)

/-- nimble_expression_parser.h:453, the loop of `operator<<`. -/
def shlLoop (r : Reader) (c : Char) : ℕ → ℕ → Res ℕ
  | 0, pos => .ok pos
  | k + 1, pos =>
    if pos > 0 then
      (r.at pos).bind fun ch =>
        if ch ≠ c then (prev r '(' ')' pos).bind fun q => shlLoop r c k q.1 else .ok pos
    else .ok pos

/-- nimble_expression_parser.h:448-456 `operator<<`: search backward for `c` outside parentheses.  With an
empty reader the position starts at the largest unsigned number. -/
def shl (r : Reader) (c : Char) : Res (Bool × ℕ) :=
  if r.text.length = 0 then .error .outside
  else (shlLoop r c r.text.length (r.text.length - 1)).bind fun pos =>
    (r.at pos).bind fun ch => .ok (ch = c, pos)

/-! ## Lexical functions -/

/-- nimble_expression_parser.cc:46-80 `IsCMathFunc`, `GetCMathFunc`. -/
def mathFunc (name : Str) : Option Fn :=
  if name = "sin".toList then some .sin
  else if name = "cos".toList then some .cos
  else if name = "tan".toList then some .tan
  else if name = "erf".toList then some .erf
  else if name = "exp".toList then some .exp
  else if name = "log".toList then some .log
  else if name = "abs".toList then some .abs
  else if name = "asin".toList then some .asin
  else if name = "acos".toList then some .acos
  else if name = "atan".toList then some .atan
  else if name = "sqrt".toList then some .sqrt
  else if name = "cbrt".toList then some .cbrt
  else if name = "erfc".toList then some .erfc
  else if name = "ceil".toList then some .ceil
  else if name = "round".toList then some .round
  else if name = "floor".toList then some .floor
  else if name = "log10".toList then some .log10
  else none

/-- nimble_expression_parser.cc:88-99 `IsInteger`. -/
def isInteger : Str → Bool
  | [] => false
  | c :: cs =>
    if cs = [] ∧ (c = '-' ∨ c = '+') then false
    else if c ≠ '-' ∧ c ≠ '+' ∧ isDigit c = false then false
    else cs.all isDigit

/-- nimble_expression_parser.cc:108-121, the loop of `IsNumber`. -/
def numLoop : Bool → Bool → Str → Bool
  | _, _, [] => true
  | decimal, digits, c :: cs =>
    if isDigit c then numLoop decimal true cs
    else if c = '.' ∧ decimal = false then numLoop true digits cs
    else if c = 'e' ∧ digits = true then isInteger cs
    else false

/-- nimble_expression_parser.cc:101-123 `IsNumber`. -/
def isNumber : Str → Bool
  | [] => false
  | c :: cs => if c = '-' ∨ c = '+' then numLoop false false cs else numLoop false false (c :: cs)

/-- nimble_expression_parser.cc:125-133 `ConvertStringToLowercase`. -/
def toLower (s : Str) : Str := s.map Char.toLower

/-- nimble_expression_parser.cc:135-146 `RemoveWhitespace` of a non-empty reader: with a blank at either
end, leading blanks are dropped and then trailing blanks, always keeping one character. -/
def removeWhitespace (r : Reader) : Reader :=
  if r.text.head? ≠ some ' ' ∧ r.text.getLast? ≠ some ' ' then r
  else
    let front := if r.text.all (· = ' ') then [' '] else r.text.dropWhile (· = ' ')
    let kept := (front.reverse.dropWhile (· = ' ')).reverse
    let kept := if kept = [] then [' '] else kept
    ⟨kept, front.drop kept.length ++ r.after⟩

/-- nimble_expression_parser.cc:148-163 `RemoveRedundantParenthesis`; every pass removes two characters. -/
def removeParens : ℕ → Reader → Res Reader
  | 0, r => .ok r
  | k + 1, r =>
    (r.at 0).bind fun ch =>
      if ch = '(' then
        (next r '(' ')' 0).bind fun q =>
          if q.1 + 1 = r.text.length then (r.sub 1 (r.text.length - 1)).bind fun r => removeParens k r
          else .ok r
      else .ok r

/-- nimble_expression_parser.cc:165-171 `ApplyNecessaryFormatting`. -/
def format (r : Reader) : Res Reader :=
  if r.text = [] then .ok r
  else removeParens ((removeWhitespace r).text.length + 1) (removeWhitespace r)

/-- `strtol(text, NULL, 10)` of a text accepted by `IsInteger`, stored in an `int`.  The code lets `strtol`
read on behind the reader; the next character is never a digit there, because readers end before an
operator, a blank, a parenthesis or the end.  `strtol` saturates at 64 bits; the conversion to `int`
keeps the low 32 bits. -/
def toInt32 (v : ℤ) : ℤ := (max (-9223372036854775808) (min v 9223372036854775807) + 2147483648) % 4294967296 - 2147483648

/-- See `toInt32`. -/
def integerOf (t : Str) : ℤ :=
  let (neg, d) := takeSign t
  toInt32 (if neg then -(digitsVal d : ℤ) else digitsVal d)

/-! ## The parser -/

variable (A : Arith K)

/-- nimble_expression_parser.h:545-560 `ParseDoubleConstant`. -/
def parseConstant (t : Str) : Res (Option (Node K)) :=
  if t = "e".toList then .ok (some (.const A.e))
  else if t = "pi".toList then .ok (some (.const A.pi))
  else if t = "tau".toList then .ok (some (.const A.tau))
  else if isNumber t then
    match scanDouble t with
    | some (v, _) => .ok (some (.const (A.ofRat v)))
    | none => .error .invalid
  else .ok none

/-- The characters that end the search for a function name (nimble_expression_parser.h:567). -/
def stopsName (c : Char) : Bool :=
  c = '*' || c = '/' || c = '^' || c = '+' || c = '=' || c = '<' || c = '~' || c = '>'

/-- nimble_expression_parser.h:566-571: does the scan for the name run into an operator? -/
def nameScan : Str → Bool
  | [] => false
  | c :: cs => if c = '(' ∨ c = ' ' then false else if stopsName c then true else nameScan cs

/-- nimble_expression_parser.h:561-583 `ParseFunction`; `pe` is `ParseEquation`. -/
def parseFunction (pe : Reader → Res (Node K)) (r : Reader) : Res (Option (Node K)) :=
  (r.at 0).bind fun c =>
    if isDigit c ∨ c = '(' ∨ c = '-' ∨ r.text.length < 3 then .ok none
    else if nameScan r.text then .ok none
    else (shr r '(').bind fun f =>
      if f.1 then
        (next r '(' ')' f.2).bind fun q =>
          if q.2 > 0 then .error .invalid
          else if q.1 < r.text.length - 1 then .ok none
          else
            match mathFunc (r.text.take f.2) with
            | some fn => (r.sub f.2 r.text.length).bind fun s => (pe s).bind fun a => .ok (some (.fn fn a))
            | none => .ok none
      else .ok none

/-- Both sides of an operator of width `w` at `pos`. -/
def split2 {α : Type} (pe : Reader → Res α) (r : Reader) (pos w : ℕ) : Res (α × α) :=
  (r.sub 0 pos).bind fun l => (pe l).bind fun a =>
    (r.sub (pos + w) r.text.length).bind fun s => (pe s).bind fun b => .ok (a, b)

/-- nimble_expression_parser.h:597-613 for `%`, `+`, `*`, `/`: split at the last occurrence. -/
def binStage (pe : Reader → Res (Node K)) (r : Reader) (c : Char) (o : Op) (k : Res (Option (Node K))) :
    Res (Option (Node K)) :=
  (shl r c).bind fun f =>
    if f.1 then (split2 pe r f.2 1).bind fun ab => .ok (some (.bin o ab.1 ab.2)) else k

/-- nimble_expression_parser.h:604: go back over minus signs and blanks. -/
def backOver (r : Reader) : ℕ → Res ℕ
  | 0 => .ok 0
  | p + 1 => (r.at (p + 1)).bind fun ch => if ch = '-' ∨ ch = ' ' then backOver r p else .ok (p + 1)

/-- nimble_expression_parser.h:608: forward to the next minus sign. -/
def forwardMinus (r : Reader) : ℕ → ℕ → Res ℕ
  | 0, _ => .error .outside
  | k + 1, pos => (r.at pos).bind fun ch => if ch = '-' then .ok pos else forwardMinus r k (pos + 1)

/-- Characters before a minus sign that make it a negation (nimble_expression_parser.h:607). -/
def beforeNegation (c : Char) : Bool :=
  c = '*' || c = '/' || c = '^' || c = 'e' || c = '=' || c = '<' || c = '~' || c = '>'

/-- nimble_expression_parser.h:602-613: subtraction. -/
def subStage (pe : Reader → Res (Node K)) (r : Reader) (k : Res (Option (Node K))) : Res (Option (Node K)) :=
  (shl r '-').bind fun f =>
    if f.1 then
      (backOver r f.2).bind fun pos =>
        (r.at pos).bind fun c =>
          if (pos > 0 ∨ c ≠ '-') ∧ beforeNegation c = false then
            (forwardMinus r (r.text.length + 1) pos).bind fun pos =>
              (split2 pe r pos 1).bind fun ab => .ok (some (.bin .sub ab.1 ab.2))
          else k
    else k

/-- nimble_expression_parser.h:621-629: powers, split at the first `^`. -/
def powStage (pe : Reader → Res (Node K)) (r : Reader) (k : Res (Option (Node K))) : Res (Option (Node K)) :=
  (shr r '^').bind fun f =>
    if f.1 then
      (r.sub 0 f.2).bind fun l => (pe l).bind fun base =>
        (r.sub (f.2 + 1) r.text.length).bind fun p => (format p).bind fun p =>
          if isInteger p.text then .ok (some (.powi base (integerOf p.text)))
          else (pe p).bind fun b => .ok (some (.bin .pow base b))
    else k

/-- nimble_expression_parser.h:631: negation. -/
def negStage (pe : Reader → Res (Node K)) (r : Reader) : Res (Option (Node K)) :=
  (r.at 0).bind fun c =>
    if c = '-' then (r.sub 1 r.text.length).bind fun s => (pe s).bind fun a => .ok (some (.fn .neg a))
    else .ok none

/-- nimble_expression_parser.h:587-596: conditionals; `pb` is `ParseBooleanExpression`. -/
def condStage (pe : Reader → Res (Node K)) (pb : Reader → Res (BNode K)) (r : Reader)
    (k : Res (Option (Node K))) : Res (Option (Node K)) :=
  (shr r '?').bind fun f =>
    if f.1 then
      (next r '?' ':' f.2).bind fun q =>
        if q.2 > 0 then .error .invalid
        else if q.1 ≠ r.text.length then
          (r.sub 0 f.2).bind fun c => (pb c).bind fun c =>
            (r.sub (f.2 + 1) q.1).bind fun a => (pe a).bind fun a =>
              (r.sub (q.1 + 1) r.text.length).bind fun b => (pe b).bind fun b => .ok (some (.cond c a b))
        else k
    else k

/-- nimble_expression_parser.h:584-634 `ParseOperation`. -/
def parseOperation (pe : Reader → Res (Node K)) (pb : Reader → Res (BNode K)) (r : Reader) :
    Res (Option (Node K)) :=
  condStage pe pb r <| binStage pe r '%' .mod <| binStage pe r '+' .add <| subStage pe r <|
    binStage pe r '*' .mul <| binStage pe r '/' .div <| powStage pe r <| negStage pe r

/-- nimble_expression_parser.h:711-714 and nimble_expression_parser.cc:188: the variables. -/
def lookupVar (t : Str) : Option Var :=
  if t = ['x'] then some .x else if t = ['y'] then some .y else if t = ['z'] then some .z
  else if t = ['t'] then some .t else none

/-- nimble_expression_parser.cc:173-191 `ParseEquation(Reader)`. -/
def equationBody (pe : Reader → Res (Node K)) (pb : Reader → Res (BNode K)) (r : Reader) : Res (Node K) :=
  (format r).bind fun r =>
    if r.text = [] then .error .invalid
    else (parseConstant A r.text).bind fun
      | some n => .ok n
      | none => (parseOperation pe pb r).bind fun
        | some n => .ok n
        | none => (parseFunction pe r).bind fun
          | some n => .ok n
          | none =>
            match lookupVar r.text with
            | some v => .ok (.ref v)
            | none => .error .invalid

/-- nimble_expression_parser.h:643-653 for `|`, `^`, `&`. -/
def bopStage (pb : Reader → Res (BNode K)) (r : Reader) (c : Char) (o : BOp) (k : Res (BNode K)) :
    Res (BNode K) :=
  (shl r c).bind fun f =>
    if f.1 then (split2 pb r f.2 1).bind fun ab => .ok (.bop o ab.1 ab.2) else k

/-- nimble_expression_parser.h:655: `r.sub(r.first + 1, r.length)` is the reader of the same length one
character further on, wherever the exclamation mark is. -/
def notStage (pb : Reader → Res (BNode K)) (r : Reader) (k : Res (BNode K)) : Res (BNode K) :=
  (shl r '!').bind fun f =>
    if f.1 then
      if r.text.length < (r.text ++ r.after).length then
        (pb ⟨((r.text ++ r.after).drop 1).take r.text.length, (r.text ++ r.after).drop (r.text.length + 1)⟩).bind
          fun a => .ok (.not a)
      else .error .outside
    else k

/-- nimble_expression_parser.h:657-677 for `>` and `<`. -/
def cmpStage (pe : Reader → Res (Node K)) (r : Reader) (c : Char) (o oeq : Cmp) (k : Res (BNode K)) :
    Res (BNode K) :=
  (shl r c).bind fun f =>
    if f.1 then
      (r.at (f.2 + 1)).bind fun ch =>
        if ch = '=' then (split2 pe r f.2 2).bind fun ab => .ok (.cmp oeq ab.1 ab.2)
        else (split2 pe r f.2 1).bind fun ab => .ok (.cmp o ab.1 ab.2)
    else k

/-- nimble_expression_parser.h:687-692: equality.  `r.pos - 1` wraps around at position 0. -/
def eqStage (pe : Reader → Res (Node K)) (r : Reader) : Res (BNode K) :=
  (shl r '=').bind fun f =>
    if f.1 then
      if f.2 = 0 then .error .outside
      else (r.at (f.2 - 1)).bind fun ch =>
        if ch = '=' then
          (r.sub (f.2 + 1) r.text.length).bind fun s => (pe s).bind fun a =>
            (r.sub 0 (f.2 - 1)).bind fun l => (pe l).bind fun b => .ok (.cmp .eq a b)
        else .error .invalid
    else .error .invalid

/-- nimble_expression_parser.h:636-694 `ParseBooleanExpression`. -/
def booleanBody (pe : Reader → Res (Node K)) (pb : Reader → Res (BNode K)) (r : Reader) : Res (BNode K) :=
  (format r).bind fun r =>
    if r.text = "true".toList then .ok (.const true)
    else if r.text = "false".toList then .ok (.const false)
    else bopStage pb r '|' .or <| bopStage pb r '^' .xor <| bopStage pb r '&' .and <| notStage pb r <|
      cmpStage pe r '>' .gt .ge <| cmpStage pe r '<' .lt .le <| eqStage pe r

mutual
/-- `ParseEquation`, with a bound on the depth of the recursion. -/
def parseEquation : ℕ → Reader → Res (Node K)
  | 0, _ => .error .fuel
  | n + 1, r => equationBody A (parseEquation n) (parseBoolean n) r
/-- `ParseBooleanExpression`, with a bound on the depth of the recursion. -/
def parseBoolean : ℕ → Reader → Res (BNode K)
  | 0, _ => .error .fuel
  | n + 1, r => booleanBody (parseEquation n) (parseBoolean n) r
end

/-- nimble_expression_parser.h:533-538 `ParseEquation(std::string)`.  The model's bound on the depth is
shown to be large enough (`parse_terminates`). -/
def parse (s : Str) : Res (Node K) := parseEquation A (2 * s.length + 3) ⟨toLower s, ['\x00']⟩

/-! ## The functor -/

/-- nimble_expression_parser.h:697-804 `BoundaryConditionFunctor`: the expression (`nullptr` = `none`) and
the text it was made from. -/
structure Functor (K : Type) where
  expression : Option (Node K)
  equation : Str

/-- nimble_expression_parser.h:703-732: construction from a text. -/
def Functor.ofText (equation : Str) : Res (Functor K) :=
  if equation = [] then .ok ⟨none, []⟩
  else (parse A equation).bind fun n => .ok ⟨some (n.optimize A), equation⟩

/-- nimble_expression_parser.h:738-760: assignment of a text; the result and the exception, if any. -/
def Functor.assign (f : Functor K) (equation : Str) : Functor K × Option Err :=
  match parse A equation with
  | .ok n => (⟨some (n.optimize A), equation⟩, none)
  | .error e => (f, some e)

/-- nimble_expression_parser.h:711-714, 772-776: the variables hold the arguments. -/
def values (x y z t : K) : Var → K
  | .x => x
  | .y => y
  | .z => z
  | .t => t

/-- nimble_expression_parser.h:761-797: evaluation; `none` = `std::invalid_argument`. -/
def Functor.eval (f : Functor K) (x y z t : K) : Option K :=
  f.expression.map fun n => n.eval A (values x y z t)

/-- nimble_expression_parser.h:733: the copy constructor parses the stored text again. -/
def Functor.copy (f : Functor K) : Res (Functor K) := Functor.ofText A f.equation

/-- nimble_expression_parser.h:734-738: copy assignment assigns the stored text. -/
def Functor.copyAssign (f g : Functor K) : Functor K × Option Err := f.assign A g.equation

end NimbleSM.Expr
