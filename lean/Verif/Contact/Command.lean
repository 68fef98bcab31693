import Verif.Parse.Deck

/-!
# The contact command: `ParseContactCommand` (`src/nimble_contact_manager.cc:94-150`)
-/

namespace NimbleSM.Contact

open NimbleSM.Parse
open NimbleSM.Deck (Str)

/-- A `std::stringstream`: the unread text and `good()`. -/
structure Stream where
  rest : Str
  good : Bool

/-- `ss >> temp` for a `std::string` that is empty before ([string.io]): on a stream that is not good nothing happens; white
space is skipped; at the end of the text the stream fails and the string stays empty; a word that reaches the end of the text
sets `eofbit`. -/
def extractWord (s : Stream) : Str × Stream :=
  if s.good then
    match s.rest.dropWhile isSpace with
    | [] => ([], ⟨[], false⟩)
    | c :: cs =>
      let r := (c :: cs).dropWhile fun c => !isSpace c
      ((c :: cs).takeWhile fun c => !isSpace c, ⟨r, !r.isEmpty⟩)
  else ([], s)

/-- `ss >> value` for a `double` ([facet.num.get.virtuals]): `none` if `value` is left as it was (stream not good or no text left),
`some 0` if the conversion fails.  Numbers are exact (Tokens.lean). -/
def extractNumber (s : Stream) : Option ℚ :=
  if s.good then
    match s.rest.dropWhile isSpace with
    | [] => none
    | c :: cs => some (match scanDouble (c :: cs) with | none => 0 | some (v, _) => v)
  else none

theorem extractWord_shorter (s : Stream) (h : s.good = true) : (extractWord s).2.good = true → (extractWord s).2.rest.length < s.rest.length := by
  unfold extractWord
  rw [if_pos h]
  have h1 : (s.rest.dropWhile isSpace).length ≤ s.rest.length := (List.dropWhile_sublist _).length_le
  cases hd : s.rest.dropWhile isSpace with
  | nil => simp
  | cons c cs =>
    intro _
    have hc : isSpace c = false := by
      have := List.head_dropWhile_not isSpace (l := s.rest) (by rw [hd]; simp)
      simpa [hd] using this
    rw [hd] at h1
    have h2 : ((c :: cs).dropWhile (fun c => !isSpace c)).length ≤ cs.length := by
      rw [List.dropWhile_cons_of_pos (by simp [hc])]
      exact (List.dropWhile_sublist _).length_le
    simp only [List.length_cons] at h1
    show ((c :: cs).dropWhile (fun c => !isSpace c)).length < _
    omega

/-- `while (ss.good() && !found) { std::string temp; ss >> temp; if (temp is a key) found = true; else names.push_back(temp); }`
(nimble_contact_manager.cc:113-122, 131-140).  Result: `found`, `names` and the stream. -/
def readUntil (keys names : List Str) (s : Stream) : Bool × List Str × Stream :=
  if h : s.good then
    if (extractWord s).1 ∈ keys then (true, names, (extractWord s).2)
    else if h2 : (extractWord s).2.good then readUntil keys (names ++ [(extractWord s).1]) (extractWord s).2
    else (false, names ++ [(extractWord s).1], (extractWord s).2)
  else (false, names, s)
termination_by s.rest.length
decreasing_by exact extractWord_shorter s h h2

/-- Key words (nimble_contact_manager.cc:107, 117, 135). -/
def primaryKeys : List Str := ["primary_blocks".toList, "master_blocks".toList]
def secondaryKeys : List Str := ["secondary_blocks".toList, "slave_blocks".toList]
def penaltyKey : Str := "penalty_parameter".toList

/-- The outputs of `ParseContactCommand`; `penalty = none`: the caller's variable is not written (it is uninitialised in
integrators/explicit_time_integrator.cc:86). -/
structure Command where
  primary : List Str
  secondary : List Str
  penalty : Option ℚ
  deriving DecidableEq

/-- `ParseContactCommand` (nimble_contact_manager.cc:94-150) with empty lists before; `none`: `std::invalid_argument`. -/
def parseContactCommand (command : Str) : Option Command :=
  let (key, s) := extractWord ⟨command, true⟩
  if key ∉ primaryKeys then none
  else
    let (found, primary, s) := readUntil secondaryKeys [] s
    if !found then none
    else
      let (found, secondary, s) := readUntil [penaltyKey] [] s
      if !found then none
      else some ⟨primary, secondary, extractNumber s⟩

end NimbleSM.Contact
