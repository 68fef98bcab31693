import Verif.Parse.Deck

/-!
# File names: `src/nimble_parser.cc` lines 57-157
-/

namespace NimbleSM.FileName

open NimbleSM.Parse NimbleSM.Deck

/-- Positions at which `c d` occurs. -/
def pairAt (c d : Char) (s : Str) (i : ℕ) : Bool := s[i]? = some c && s[i + 1]? = some d

/-- `s.rfind("cd")` for a two-character string. -/
def rfind2 (c d : Char) (s : Str) : Option ℕ := (List.range s.length).reverse.find? (pairAt c d s)

/-- nimble_parser.cc:68-69 (and 70-71): cut the name at the last occurrence of `cd`, wherever it is. -/
def cutAt (c d : Char) (s : Str) : Str :=
  match rfind2 c d s with
  | some pos => s.take pos
  | none => s

/-- nimble_parser.cc:72-73: label and extension. -/
def withLabel (base label extension : Str) : Str :=
  (if label ≠ [] then base ++ ('.' :: label) else base) ++ ('.' :: extension)

/-- nimble_parser.cc:79-84: ".", the number of ranks, ".", zeros, the rank.  The number of zeros is an
`int`; a loop with a negative bound does nothing, as truncated subtraction does. -/
def rankSuffix (my_rank num_ranks : ℕ) : Str :=
  '.' :: (Fields.decimal num_ranks ++ '.' ::
    (List.replicate ((Fields.decimal num_ranks).length - (Fields.decimal my_rank).length) '0'
      ++ Fields.decimal my_rank))

/-- nimble_parser.cc:57-88 `IOFileName`, for ranks `0 ≤ my_rank` and `num_ranks ≥ 0`.
Line 86, `ss >> file_name`: the first white-space delimited word of the stream (if there is none the
string becomes empty). -/
def ioFileName (serial_name extension label : Str) (my_rank num_ranks : ℕ) : Str :=
  if serial_name = "none".toList then serial_name
  else
    let file_name := withLabel (cutAt '.' 'e' (cutAt '.' 'g' serial_name)) label extension
    if num_ranks > 1 then
      ((file_name ++ rankSuffix my_rank num_ranks).dropWhile isSpace).takeWhile fun c => !isSpace c
    else file_name

/-- nimble_parser.cc:90-157 `IOFileNameThreadSafe`; the caller's buffer is assumed large enough.  The number
of zeros is a `size_t`: for a rank with more digits than the number of ranks it would wrap around (`none`
= the buffer is overrun). -/
def paddedSuffix (my_rank num_ranks : ℕ) : Option Str :=
  if (Fields.decimal my_rank).length ≤ (Fields.decimal num_ranks).length then some (rankSuffix my_rank num_ranks)
  else none

/-- nimble_parser.cc:90-157. -/
def ioFileNameThreadSafe (serial_file_name extension label : Str)
    (my_mpi_rank mpi_num_ranks my_thread_rank num_threads : ℕ) : Option Str :=
  let len := serial_file_name.length
  let file_name := if len > 2 then serial_file_name.take (len - 2) else serial_file_name
  let file_name := if label.length > 0 then file_name ++ ('.' :: label) else file_name
  let file_name := if extension.length > 0 then file_name ++ ('.' :: extension) else file_name
  (if mpi_num_ranks > 1 then (paddedSuffix my_mpi_rank mpi_num_ranks).map (file_name ++ ·)
    else some file_name).bind fun file_name =>
  if num_threads > 1 then (paddedSuffix my_thread_rank num_threads).map (file_name ++ ·) else some file_name

end NimbleSM.FileName
