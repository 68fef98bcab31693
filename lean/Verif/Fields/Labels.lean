import Verif.Parse.Tokens
import Mathlib.Data.Fin.VecNotation

/-!
# Field labels: `src/nimble_data_utils.{h,cc}`

Strings are lists of characters.  A thrown exception or an aborting assertion is `none`.
Integer overflow of `ss >> int` is not modelled.
-/

namespace NimbleSM.Fields

open NimbleSM.Parse (isDigit digitsVal)

/-- Strings. -/
abbrev Str := List Char

/-- nimble_data_utils.h:64-91 `enum Length`. -/
inductive Length
  | len (n : Fin 21)
  | scalar
  | vector
  | symmetricTensor
  | fullTensor
  | undefined
  deriving DecidableEq

/-- nimble_data_utils.h:56-62 `enum Relation`. -/
inductive Relation
  | undefined | node | element | global
  deriving DecidableEq

/-- nimble_data_utils.h:64-91: `static_cast<int>(length)`, the position in the enumeration. -/
def Length.toInt : Length → ℕ
  | .len n => n
  | .scalar => 21
  | .vector => 22
  | .symmetricTensor => 23
  | .fullTensor => 24
  | .undefined => 25

/-- nimble_data_utils.cc:56-82 `LengthToInt`; `none` when it throws. -/
def lengthToInt (length : Length) (dim : ℕ) : Option ℕ :=
  if dim = 2 then
    match length with
    | .scalar => some 1
    | .vector => some 2
    | .symmetricTensor => some 3
    | .fullTensor => some 4
    | .undefined => none
    | .len n => some n
  else if dim = 3 then
    match length with
    | .scalar => some 1
    | .vector => some 3
    | .symmetricTensor => some 6
    | .fullTensor => some 9
    | .undefined => none
    | .len n => some n
  else none

/-- The digit character of a number below ten. -/
def digitChar (d : ℕ) : Char := Char.ofNat ('0'.toNat + d)

/-- Text of a nonnegative `int` written to a stream (`ss << i`). -/
def decimal (n : ℕ) : Str :=
  if n < 10 then [digitChar n] else decimal (n / 10) ++ [digitChar (n % 10)]
decreasing_by omega

/-- The text of an `int`. -/
def intText : ℤ → Str
  | .ofNat n => decimal n
  | .negSucc n => '-' :: decimal (n + 1)

/-- nimble_data_utils.cc:84-96 `AddIntegrationPointPrefix`. -/
def addPrefix (label : Str) (ipt : ℤ) : Str :=
  if (intText ipt).length = 1 then "ipt0".toList ++ intText ipt ++ ['_'] ++ label
  else "ipt".toList ++ intText ipt ++ ['_'] ++ label

/-- nimble_data_utils.cc:98-121 `RemoveIntegrationPointPrefix`.  `label.find("ipt") == 0` is "starts
with ipt"; `substr` throws when its position exceeds the length.  The loop counts the leading
digits. -/
def removePrefix (label : Str) : Option Str :=
  if label.take 3 = "ipt".toList then
    let temp := label.drop 3
    let numDigits := 1 + (temp.takeWhile isDigit).length
    if numDigits ≤ temp.length then some (temp.drop numDigits) else none
  else some label

/-- nimble_data_utils.cc:123-129 `HasIntegrationPointPrefix`. -/
def hasPrefix (label : Str) : Option Bool := do
  let r ← removePrefix label
  return decide (label ≠ r)

/-- nimble_data_utils.cc:131-156 `LabelToIntegrationPointNumber`: abort without the prefix; with no
digit the returned variable is 0 (extraction failure on an empty stream writes nothing before C++11
and at end of file; the result is then unspecified), modelled as `none`. -/
def labelToIpt (label : Str) : Option ℕ :=
  if label.take 3 = "ipt".toList then
    let ds := (label.drop 3).takeWhile isDigit
    if ds = [] then none else some (digitsVal ds)
  else none

/-- nimble_data_utils.cc:158-207 `GetComponentLabels`: the suffixes appended to the label.
A dimension that is neither 2 nor 3 yields no tensor labels. -/
def suffixes (length : Length) (dim : ℕ) : List Str :=
  match length with
  | .scalar => [[]]
  | .vector => ["_x".toList, "_y".toList] ++ (if dim = 3 then ["_z".toList] else [])
  | .symmetricTensor =>
    if dim = 2 then ["_xx".toList, "_yy".toList, "_xy".toList]
    else if dim = 3 then
      ["_xx".toList, "_yy".toList, "_zz".toList, "_xy".toList, "_yz".toList, "_zx".toList]
    else []
  | .fullTensor =>
    if dim = 2 then ["_xx".toList, "_yy".toList, "_xy".toList, "_xy".toList]
    else if dim = 3 then
      ["_xx".toList, "_yy".toList, "_zz".toList, "_xy".toList, "_yz".toList, "_zx".toList,
       "_yx".toList, "_zy".toList, "_xz".toList]
    else []
  | l => (List.range l.toInt).map fun i => '_' :: decimal (i + 1)

/-- nimble_data_utils.cc:158-207 `GetComponentLabels`. -/
def componentLabels (label : Str) (length : Length) (dim : ℕ) : List Str :=
  (suffixes length dim).map (label ++ ·)

/-- nimble_data_utils.cc:212-261: the suffix chosen by `GetComponentLabel`; `none` when it throws. -/
def suffix (length : Length) (dim : ℕ) (i : ℕ) : Option Str :=
  match length with
  | .vector =>
    match i with
    | 0 => some "_x".toList
    | 1 => some "_y".toList
    | 2 => some "_z".toList
    | _ => none
  | .symmetricTensor =>
    if dim = 2 then
      match i with
      | 0 => some "_xx".toList
      | 1 => some "_yy".toList
      | 2 => some "_xy".toList
      | _ => none
    else if dim = 3 then
      match i with
      | 0 => some "_xx".toList
      | 1 => some "_yy".toList
      | 2 => some "_zz".toList
      | 3 => some "_xy".toList
      | 4 => some "_yz".toList
      | 5 => some "_zx".toList
      | _ => none
    else some []
  | .fullTensor =>
    if dim = 2 then
      match i with
      | 0 => some "_xx".toList
      | 1 => some "_yy".toList
      | 2 => some "_xy".toList
      | 3 => some "_yx".toList
      | _ => none
    else if dim = 3 then
      match i with
      | 0 => some "_xx".toList
      | 1 => some "_yy".toList
      | 2 => some "_zz".toList
      | 3 => some "_xy".toList
      | 4 => some "_yz".toList
      | 5 => some "_zx".toList
      | 6 => some "_yx".toList
      | 7 => some "_zy".toList
      | 8 => some "_xz".toList
      | _ => none
    else some []
  | _ => some []

/-- nimble_data_utils.cc:209-266 `GetComponentLabel`. -/
def componentLabel (label : Str) (length : Length) (dim : ℕ) (i : ℕ) (ipt : ℤ) : Option Str := do
  let s ← suffix length dim i
  return addPrefix (label ++ s) ipt

/-- nimble_data_utils.h:123-144 `class Field`. -/
structure Field where
  label : Str
  relation : Relation
  length : Length
  deriving DecidableEq

/-- nimble_data_utils.cc:268-277 `LabelToLength`. `data_fields_` is a map with keys `0..n-1`
(see `assignFieldId`), i.e. a list. -/
def labelToLength (label : Str) (fields : List Field) : Option Length := do
  let l ← removePrefix label
  let rec go : List Field → Option Length
    | [] => none
    | f :: fs => do
      let r ← removePrefix f.label
      if l = r then some f.length else go fs
  go fields

end NimbleSM.Fields
