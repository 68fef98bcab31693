import Verif.Parse.Tokens
import Verif.Fields.Labels

/-!
# Input decks: `src/nimble_parser.cc`, `src/nimble_parser.h`

`Parser::ReadFile`, `Parser::ParseKeyValue`, `BlockProperties`, `GetModelMaterialParameters`,
`GetBlockIdFromMaterial`.  Strings are lists of characters.  `std::string::npos` is `none`; an exception
`std::out_of_range` of `substr` is a separate outcome.  Numbers read by `atof`/`atoi` are exact decimals
(no overflow, hexadecimal, `inf`, `nan`).  The build without BVH and UQ is modelled (lines 329-358:
"contact dicing" and "contact splitting" are accepted and ignored).
-/

namespace NimbleSM.Deck

open NimbleSM.Parse

abbrev Str := List Char

/-! ## `std::string` operations -/

/-- `s.find(c)`. -/
def find (c : Char) (s : Str) : Option ℕ := s.findIdx? (· == c)

/-- `s.find_first_not_of(set)`. -/
def findFirstNotOf (set : Str) (s : Str) : Option ℕ := s.findIdx? fun c => !(set.contains c)

/-- `s.find_last_not_of(set)`. -/
def findLastNotOf (set : Str) (s : Str) : Option ℕ :=
  (s.reverse.findIdx? fun c => !(set.contains c)).map fun i => s.length - 1 - i

/-- `s.substr(pos, n)`; `none` = `std::out_of_range` (`pos > size()`, in particular `pos = npos`). -/
def substr (s : Str) (pos : Option ℕ) (n : ℕ) : Option Str :=
  match pos with
  | none => none
  | some p => if p ≤ s.length then some ((s.drop p).take n) else none

/-- nimble_parser.cc:216-217: strip the comment. -/
def stripComment (line : Str) : Str :=
  match find '#' line with
  | some p => line.take p
  | none => line

/-- nimble_parser.cc:218-223: strip leading and trailing blanks and tabs of a non-empty line.  `none` =
`std::out_of_range`. -/
def trimLine (line : Str) : Option Str :=
  if line.length > 0 then
    let start_pos := findFirstNotOf [' ', '\t'] line
    let end_pos := findLastNotOf [' ', '\t'] line
    substr line start_pos (end_pos.getD 0 - start_pos.getD 0 + 1)
  else some line

/-- nimble_parser.cc:228-232: key and value of a non-empty line.  Without a colon `substr(0, npos)` and
`substr(npos + 1, ...)`, i.e. from position 0, are both the whole line. -/
def keyValue (line : Str) : Option (Str × Str) :=
  let colon_pos := find ':' line
  let key := match colon_pos with | some p => line.take p | none => line
  let value := match colon_pos with | some p => line.drop (p + 1) | none => line
  (substr key (findFirstNotOf [' '] key) (((findLastNotOf [' '] key).map (· + 1)).getD 0)).bind fun key =>
    (substr value (findFirstNotOf [' '] value) (((findLastNotOf [' '] value).map (· + 1)).getD 0)).map
      fun value => (key, value)

/-! ## The loop over lines -/

/-- nimble_parser.cc:200: `max_chars_per_line`. -/
def maxChars : ℕ := 1000

/-- The stream: unread text, `eofbit`, `failbit`. -/
structure Stream where
  rest : Str
  eof : Bool
  failed : Bool

/-- nimble_parser.cc:212-213: `fin.getline(buf, 1000); std::string line(buf)` ([istream.unformatted]: up
to 999 characters are stored; the delimiter is extracted and dropped; a longer line sets `failbit`;
reaching the end of the text sets `eofbit`, and `failbit` too if nothing was extracted; on a stream that
is not good nothing is extracted and the buffer holds the empty string).  `std::string(buf)` stops at a
null character. -/
def getline (s : Stream) : Str × Stream :=
  if s.failed || s.eof then ([], { s with failed := true })
  else
    let line := s.rest.takeWhile (· ≠ '\n')
    if line.length < maxChars then
      if line.length = s.rest.length then
        (line.takeWhile (· ≠ '\x00'), ⟨[], true, line.length = 0⟩)
      else (line.takeWhile (· ≠ '\x00'), ⟨s.rest.drop (line.length + 1), false, false⟩)
    else ((line.take (maxChars - 1)).takeWhile (· ≠ '\x00'), ⟨s.rest.drop (maxChars - 1), false, true⟩)

/-- What has happened after some passes of the loop. -/
inductive Outcome (σ : Type) where
  /-- the loop has not ended yet -/
  | running
  /-- the loop has ended normally -/
  | done (s : σ)
  /-- `std::out_of_range` from `substr` -/
  | outOfRange
  /-- `std::invalid_argument` -/
  | invalidArgument
  deriving DecidableEq

variable {σ : Type}

/-- nimble_parser.cc:215-235: what is done with one line; `handle` is `ParseKeyValue` (`none` =
`std::invalid_argument`). -/
def processLine (handle : σ → Str → Str → Option σ) (line : Str) (s : σ) : Outcome σ :=
  match trimLine (stripComment line) with
  | none => .outOfRange
  | some line =>
    if line.length > 0 then
      match keyValue line with
      | none => .outOfRange
      | some (key, value) =>
        match handle s key value with
        | none => .invalidArgument
        | some s => .done s
    else .done s

/-- nimble_parser.cc:210-236: `n` passes of the `while (!fin.eof())` loop. -/
def readLoop (handle : σ → Str → Str → Option σ) : ℕ → Stream → σ → Outcome σ
  | 0, _, _ => .running
  | n + 1, fin, s =>
    if fin.eof then .done s
    else
      match processLine handle (getline fin).1 s with
      | .done s => readLoop handle n (getline fin).2 s
      | o => o

/-- nimble_parser.cc:196-237 `ReadFile` on a readable file with the given text, cut off after `n` passes of
the loop. -/
def readFile (handle : σ → Str → Str → Option σ) (text : Str) (s : σ) (n : ℕ) : Outcome σ :=
  readLoop handle n ⟨text, false, false⟩ s

/-! ## Key/value pairs -/

/-- nimble_parser.h:88-104 `BlockProperties`. -/
structure Block where
  name : Str
  id : ℤ
  materialKey : Str
  deriving DecidableEq, Repr

/-- `stream >> int` into a variable holding `old` ([facet.num.get.virtuals]): nothing to read leaves the
variable; no digits store 0. -/
def readInt (old : ℤ) (s : Str) : ℤ :=
  match s.dropWhile isSpace with
  | [] => old
  | c :: cs =>
    let (neg, t) := takeSign (c :: cs)
    let v : ℤ := digitsVal (t.takeWhile isDigit)
    if neg then -v else v

/-- `s.rfind(c)`. -/
def rfind (c : Char) (s : Str) : Option ℕ := (s.reverse.findIdx? (· == c)).map fun i => s.length - 1 - i

/-- The two pieces `s.substr(0, pos)` and `s.substr(pos + 1, s.size())` for `pos = s.find(" ")`
(nimble_parser.cc:161-163 and 313-315); both are the whole string if there is no blank. -/
def splitAtSpace (s : Str) : Str × Str :=
  match find ' ' s with
  | some p => (s.take p, s.drop (p + 1))
  | none => (s, s)

/-- nimble_parser.cc:159-169 `BlockProperties::BlockProperties(std::string)`. -/
def blockProperties (props : Str) : Block :=
  let (block_name, material_key) := splitAtSpace props
  let block_id_str := match rfind '_' block_name with
    | some p => block_name.drop (p + 1)
    | none => block_name
  ⟨block_name, readInt (-1) block_id_str, material_key⟩

/-- `std::atoi`. -/
def atoi (s : Str) : ℤ :=
  let (neg, t) := takeSign (s.dropWhile isSpace)
  let v : ℤ := digitsVal (t.takeWhile isDigit)
  if neg then -v else v

/-- `std::atof` (`strtod`): an exponent letter without digits after it is not part of the number. -/
def atof (s : Str) : ℚ :=
  let (neg, s) := takeSign (s.dropWhile isSpace)
  let ip := s.takeWhile isDigit
  let s := s.dropWhile isDigit
  let (fp, s) := takeFraction s
  if ip = [] ∧ fp = [] then 0
  else
    let mant : ℚ := (digitsVal (ip ++ fp) : ℚ) / 10 ^ fp.length
    let mant := if neg then -mant else mant
    if expLetter s then
      let (eneg, s) := takeSign s.tail
      let ed := s.takeWhile isDigit
      if eneg then mant / 10 ^ digitsVal ed else mant * 10 ^ digitsVal ed
    else mant

/-- `std::toupper` in the "C" locale. -/
def toUpper (c : Char) : Char := if 'a' ≤ c ∧ c ≤ 'z' then Char.ofNat (c.toNat - 32) else c

/-- nimble_parser.cc:246-258 (and 262-274): an on/off value. -/
def parseBool (value : Str) : Option Bool :=
  let v := value.map toUpper
  if v = "TRUE".toList ∨ v = "YES".toList ∨ v = "ON".toList then some true
  else if v = "FALSE".toList ∨ v = "NO".toList ∨ v = "OFF".toList then some false
  else none

/-- `while (ss >> val) vals.push_back(val)`: the words of a text. -/
def words (s : Str) : List Str :=
  match h : s.dropWhile isSpace with
  | [] => []
  | c :: cs => ((c :: cs).takeWhile fun x => !isSpace x) :: words ((c :: cs).dropWhile fun x => !isSpace x)
termination_by s.length
decreasing_by
  have h1 : (s.dropWhile isSpace).length ≤ s.length := (List.dropWhile_sublist _).length_le
  rw [h] at h1
  have hc : isSpace c = false := by
    have := List.head_dropWhile_not (p := isSpace) (l := s) (by rw [h]; simp)
    simpa [h] using this
  have h2 : ((c :: cs).dropWhile fun x => !isSpace x) = (cs.dropWhile fun x => !isSpace x) := by
    simp [hc]
  rw [h2]
  have h3 : (cs.dropWhile fun x => !isSpace x).length ≤ cs.length := (List.dropWhile_sublist _).length_le
  simp only [List.length_cons] at h1
  omega

/-- nimble_parser.h: the members of `Parser`. -/
structure Settings where
  genesisFile : Str := "none".toList
  exodusFile : Str := "none".toList
  twoLevel : Bool := false
  timing : Bool := false
  scheme : Str := "explicit".toList
  relTol : ℚ := 1 / 1000000
  maxIter : ℤ := 200
  initialTime : ℚ := 0
  finalTime : ℚ := 0
  loadSteps : ℤ := 0
  frequency : ℤ := 1
  contact : Str := []
  contactBackend : Str := []
  /-- `visualize_contact_entities_`, `visualize_contact_bounding_boxes_`, `contact_visualization_file_name_` -/
  visualization : Bool × Bool × Str := (false, false, "none".toList)
  /-- `material_strings_` -/
  materials : Str → Option Str := fun _ => none
  /-- `model_blocks_` -/
  blocks : ℤ → Option Block := fun _ => none
  bcs : List Str := []
  outputFields : Str := []

/-- nimble_parser.cc:295-312: the value of "contact visualization". -/
def parseVisualization (value : Str) : Option (Bool × Bool × Str) :=
  match words value with
  | [a, b, c, d, e, f] =>
    if a ≠ "visualize_contact_entities".toList ∨ (b ≠ "on".toList ∧ b ≠ "off".toList) ∨
        c ≠ "visualize_bounding_boxes".toList ∨ (d ≠ "on".toList ∧ d ≠ "off".toList) ∨
        e ≠ "file_name".toList then none
    else some (b = "on".toList, d = "on".toList, f)
  | _ => none

/-- nimble_parser.cc:238-360 `ParseKeyValue`; `none` = `std::invalid_argument`. -/
def parseKeyValue (s : Settings) (key value : Str) : Option Settings :=
  if key = "genesis input file".toList then some { s with genesisFile := value }
  else if key = "exodus output file".toList then some { s with exodusFile := value }
  else if key = "use two level mesh decomposition".toList then
    (parseBool value).map fun b => { s with twoLevel := b }
  else if key = "write timing data file".toList then (parseBool value).map fun b => { s with timing := b }
  else if key = "time integration scheme".toList then some { s with scheme := value }
  else if key = "nonlinear solver relative tolerance".toList then some { s with relTol := atof value }
  else if key = "nonlinear solver maximum iterations".toList then some { s with maxIter := atoi value }
  else if key = "initial time".toList then some { s with initialTime := atof value }
  else if key = "final time".toList then some { s with finalTime := atof value }
  else if key = "number of load steps".toList then some { s with loadSteps := atoi value }
  else if key = "output frequency".toList then some { s with frequency := atoi value }
  else if key = "contact".toList then some { s with contact := value }
  else if key = "contact backend".toList then some { s with contactBackend := value }
  else if key = "contact visualization".toList then
    (parseVisualization value).map fun v => { s with visualization := v }
  else if key = "material parameters".toList then
    let (material_key, material_props) := splitAtSpace value
    some { s with materials := fun k => if k = material_key then some material_props else s.materials k }
  else if key = "element block".toList then
    let b := blockProperties value
    some { s with blocks := fun i => if i = b.id then some b else s.blocks i }
  else if key = "boundary condition".toList then some { s with bcs := s.bcs ++ [value] }
  else if key = "output fields".toList then some { s with outputFields := value }
  else if key = "contact dicing".toList then some s
  else if key = "contact splitting".toList then some s
  else none

/-- nimble_parser.h:198-210 `GetModelMaterialParameters`; `none` = `std::out_of_range` of `.at`. -/
def Settings.materialParameters (s : Settings) (block_id : ℤ) : Option Str :=
  match s.blocks block_id with
  | none => some "none".toList
  | some b => s.materials b.materialKey

/-- nimble_parser.h:136-147 `TimeIntegrationScheme`; `none` = `std::invalid_argument`. -/
def Settings.timeIntegrationScheme (s : Settings) : Option Str :=
  if s.scheme ≠ "explicit".toList ∧ s.scheme ≠ "quasistatic".toList then none else some s.scheme

end NimbleSM.Deck
