import Mathlib.Data.Rat.Defs
import Mathlib.Algebra.Order.Ring.Rat
import Mathlib.Data.List.TakeWhile

/-!
# Tokens and numbers: `src/nimble_parser_util.h`

Strings are lists of characters.  Numbers are exact decimal values (`ℚ`); rounding to `double`,
overflow, hexadecimal floats, `inf` and `nan` are not modelled.
-/

namespace NimbleSM.Parse

/-- `std::isspace` in the "C" locale, the characters skipped by `std::ws` and by `>>`. -/
def isSpace (c : Char) : Bool :=
  c = ' ' || c = '\t' || c = '\n' || c = '\x0b' || c = '\x0c' || c = '\r'

/-- nimble_parser_util.h:57-65 `tokenize_string_with_separator`: skip white space, stop at the end of
the text, else read up to the separator (which is dropped). -/
def tokenizeSep (sep : Char) (s : List Char) : List (List Char) :=
  match h : s.dropWhile isSpace with
  | [] => []
  | c :: cs =>
    ((c :: cs).takeWhile (· ≠ sep)) :: tokenizeSep sep ((c :: cs).drop (((c :: cs).takeWhile (· ≠ sep)).length + 1))
termination_by s.length
decreasing_by
  have h1 : (s.dropWhile isSpace).length ≤ s.length := (List.dropWhile_sublist _).length_le
  rw [h] at h1
  simp only [List.length_drop, List.length_cons] at *
  omega

/-- nimble_parser_util.h:69-87: the loop of `tokenize_string` over the quote-delimited segments;
`i` is the index of the first one. -/
def tokenizeSegments : ℕ → List (List Char) → List (List Char)
  | _, [] => []
  | i, q :: qs =>
    (if i % 2 = 1 then [q] else tokenizeSep ' ' q) ++ tokenizeSegments (i + 1) qs

/-- nimble_parser_util.h:69-87 `tokenize_string`. -/
def tokenize (s : List Char) : List (List Char) := tokenizeSegments 0 (tokenizeSep '"' s)

/-- Value of a decimal digit. -/
def digitVal (c : Char) : ℕ := c.toNat - '0'.toNat

/-- A decimal digit. -/
def isDigit (c : Char) : Bool := '0'.toNat ≤ c.toNat && c.toNat ≤ '9'.toNat

/-- Value of a string of digits. -/
def digitsVal (l : List Char) : ℕ := l.foldl (fun a c => 10 * a + digitVal c) 0

/-- An optional sign: `(is it minus, rest)`. -/
def takeSign : List Char → Bool × List Char
  | '-' :: s => (true, s)
  | '+' :: s => (false, s)
  | s => (false, s)

/-- An optional fraction: `(digits, rest)`. -/
def takeFraction : List Char → List Char × List Char
  | '.' :: s => (s.takeWhile isDigit, s.dropWhile isDigit)
  | s => ([], s)

/-- Does the text start with an exponent letter? -/
def expLetter : List Char → Bool
  | 'e' :: _ => true
  | 'E' :: _ => true
  | _ => false

/-- What extracting a `double` from a text finds (C++ standard, [facet.num.get.virtuals] and
libstdc++ `_M_extract_float`: the longest prefix of the form
`[sign] digits [. digits] [e [sign] digits]` is collected and converted as a whole).
`none`: the conversion fails. Otherwise the value and the rest of the text. -/
def scanDouble (s : List Char) : Option (ℚ × List Char) :=
  let (neg, s) := takeSign s
  let ip := s.takeWhile isDigit
  let s := s.dropWhile isDigit
  let (fp, s) := takeFraction s
  if ip = [] ∧ fp = [] then none
  else
    let mant : ℚ := (digitsVal (ip ++ fp) : ℚ) / 10 ^ fp.length
    let mant := if neg then -mant else mant
    if expLetter s then
      let (eneg, s) := takeSign s.tail
      let ed := s.takeWhile isDigit
      if ed = [] then none
      else some (if eneg then mant / 10 ^ digitsVal ed else mant * 10 ^ digitsVal ed,
        s.dropWhile isDigit)
    else some (mant, s)

/-- nimble_parser_util.h:89-97 `string_to_double`: `ss >> val` with `val` preset to the largest
double.  If nothing but white space is there the extraction stops before it touches `val`; if
the conversion fails it stores zero (C++11). -/
def stringToDouble (dmax : ℚ) (s : List Char) : ℚ :=
  match s.dropWhile isSpace with
  | [] => dmax
  | c :: cs => match scanDouble (c :: cs) with
    | none => 0
    | some (v, _) => v

end NimbleSM.Parse
