import Verif.Parse.Deck
import Verif.Material.Factory
import Verif.Bc.Kinematic

/-!
# Uncertainty quantification: `src/uq/nimble_uq.cc`, `src/uq/nimble_uq_model_data.cc` (set-up)

Text is a list of characters, numbers are exact decimals (Tokens.lean, Deck.lean).  The tables of
parameters are `std::map`s, modelled by functions from keys; `operator[]` of a missing key gives zero.
-/

namespace NimbleSM.Uq

open NimbleSM.Parse NimbleSM.Constitutive
open NimbleSM.Deck (Str atof atoi)

/-- How a call ends. -/
inductive Outcome (α : Type) where
  | ok (a : α)
  /-- a standard exception (`std::invalid_argument`, `std::out_of_range`, `std::length_error`) -/
  | throws
  /-- `NIMBLE_ASSERT` ends the process -/
  | abort
  /-- `front()` of an empty list, or an element past the end of a vector: undefined behaviour -/
  | undefined

/-- Sequencing. -/
def Outcome.bind {α β : Type} (x : Outcome α) (f : α → Outcome β) : Outcome β :=
  match x with
  | .ok a => f a
  | .throws => .throws
  | .abort => .abort
  | .undefined => .undefined

instance : Monad Outcome where
  pure := .ok
  bind := Outcome.bind

/-! ## Text -/

/-- nimble_uq.cc:63-72 `split`: the words of a line (`iss >> str` until it fails). -/
def split (s : Str) : List Str :=
  match h : s.dropWhile isSpace with
  | [] => []
  | c :: cs => (c :: cs).takeWhile (fun c => !isSpace c) :: split ((c :: cs).dropWhile (fun c => !isSpace c))
termination_by s.length
decreasing_by
  have h1 : (s.dropWhile isSpace).length ≤ s.length := (List.dropWhile_sublist _).length_le
  have hc : isSpace c = false := by
    have := List.head_dropWhile_not isSpace (l := s) (by rw [h]; simp)
    simpa [h] using this
  have h2 : ((c :: cs).dropWhile (fun c => !isSpace c)).length ≤ cs.length := by
    rw [List.dropWhile_cons_of_pos (by simp [hc])]
    exact (List.dropWhile_sublist _).length_le
  rw [h] at h1
  simp only [List.length_cons] at h1
  omega

/-- `std::stod`: an exception if there is no number at the start, else as `atof` (text after the number is
ignored).  `std::out_of_range` for values a `double` cannot hold is not modelled. -/
def stod (s : Str) : Outcome ℚ :=
  let t := (takeSign (s.dropWhile isSpace)).2
  if t.takeWhile isDigit = [] ∧ (takeFraction (t.dropWhile isDigit)).1 = [] then .throws else .ok (atof s)

/-- `std::stoi` (`int` of 32 bits): an exception if there is no whole number at the start or it is too
large. -/
def stoi (s : Str) : Outcome ℤ :=
  let t := (takeSign (s.dropWhile isSpace)).2
  if t.takeWhile isDigit = [] then .throws
  else if -2147483648 ≤ atoi s ∧ atoi s ≤ 2147483647 then .ok (atoi s) else .throws

/-- `front()` and `pop_front()` of a list. -/
def pop (items : List Str) : Outcome (Str × List Str) :=
  match items with
  | [] => .undefined
  | x :: xs => .ok (x, xs)

/-- An input file: unread text and whether the stream is still good. -/
structure In where
  rest : Str
  good : Bool

/-- `std::ifstream f(name)`; `none`: there is no such file. -/
def openFile : Option Str → In
  | some text => ⟨text, true⟩
  | none => ⟨[], false⟩

/-- `getline(f, line)` ([string.io]): on a good stream the string is cleared and the characters up to the
next newline, which is dropped, are stored; the end of the file ends the stream.  On a stream that is not
good the string is left as it was. -/
def getLine (line : Str) (f : In) : Str × In :=
  if f.good then
    let l := f.rest.takeWhile (· ≠ '\n')
    if l.length = f.rest.length then (l, ⟨[], false⟩) else (l, ⟨f.rest.drop (l.length + 1), true⟩)
  else (line, f)

/-! ## The model object -/

/-- nimble_uq.h:145-171: the members filled before the time loop. -/
structure UqModel where
  /-- `parameter_order_` (its length is `nparameters_`) -/
  order : List (ℤ × Str) := []
  /-- `parameter_uncertainties_[block][name]` -/
  range : ℤ → Str → ℚ := fun _ _ => 0
  /-- `nominal_parameters_` -/
  nominal : ℤ → Option DMap := fun _ => none

/-- nimble_uq.cc:125-134: the loop over the words of a line. -/
def parseRanges (block_id : ℤ) : List Str → UqModel → Outcome UqModel
  | [], u => .ok u
  | [_], _ => .undefined
  | pname :: value :: items, u => do
    let range ← stod value
    parseRanges block_id items
      { u with
        range := fun b n => if b = block_id ∧ n = pname then range else u.range b n
        order := u.order ++ [(block_id, pname)] }

/-- `material_factory->parse_material_params_string` (nimble_material_factory_base.cc:100-132). -/
def parseNominal (dmax : ℚ) (text : Str) : Outcome DMap :=
  match parseMaterialParamsStringToMap dmax text with
  | .ok d => .ok d
  | .invalidArgument => .throws
  | .abort => .abort
  | .overread => .undefined

/-- nimble_uq.cc:110-143 `ParseBlockInput`. -/
def parseBlockInput (dmax : ℚ) (u : UqModel) (line : Str) (block_id : ℤ) (nominal : Str) : Outcome UqModel :=
  if line = "none".toList then .throws
  else do
    let u ← parseRanges block_id (split line) u
    let parameters ← parseNominal dmax nominal
    .ok { u with nominal := fun b => if b = block_id then some parameters else u.nominal b }

/-- What `ReadSamples` stores. -/
structure Samples where
  /-- `nexact_samples_` -/
  nexact : ℕ
  /-- `napprox_samples_` -/
  napprox : ℕ
  /-- `parameter_samples_` -/
  xi : List (List ℚ)
  /-- `interpolation_coefficients_` -/
  coeff : List (List ℚ)

/-- nimble_uq.cc:176-180 (and 200-204, 211-215): the loop that converts the first `n` words (there are `n`:
the number was checked just before). -/
def readNumbers : List Str → Outcome (List ℚ)
  | [] => .ok []
  | item :: items => do
    let x ← stod item
    let xs ← readNumbers items
    .ok (x :: xs)

/-- nimble_uq.cc:169-181: one exact sample. -/
def readExact (nparameters : ℕ) (line : Str) : Outcome (List ℚ) :=
  if (split line).length ≠ nparameters then .throws else readNumbers (split line)

/-- nimble_uq.cc:188-216: one approximate sample: its parameters and its coefficients. -/
def readApprox (nparameters ncoeff : ℕ) (line : Str) : Outcome (List ℚ × List ℚ) :=
  if ':' ∉ line then .throws
  else do
    let params := line.takeWhile (· ≠ ':')
    let coeffs := line.drop (params.length + 1)
    if (split params).length ≠ nparameters then .throws
    else do
      let p ← readNumbers (split params)
      if (split coeffs).length ≠ ncoeff then .throws
      else do
        let c ← readNumbers (split coeffs)
        .ok (p, c)

/-- nimble_uq.cc:168-181: the loop over the exact samples; `line` is the contents of the variable `line`. -/
def readExacts (nparameters : ℕ) : ℕ → Str → In → Outcome (List (List ℚ) × Str × In)
  | 0, line, f => .ok ([], line, f)
  | n + 1, line, f => do
    let (line, f) := getLine line f
    let x ← readExact nparameters line
    let (xs, line, f) ← readExacts nparameters n line f
    .ok (x :: xs, line, f)

/-- nimble_uq.cc:187-217: the loop over the approximate samples. -/
def readApproxs (nparameters ncoeff : ℕ) : ℕ → Str → In → Outcome (List (List ℚ × List ℚ))
  | 0, _, _ => .ok []
  | n + 1, line, f => do
    let (line, f) := getLine line f
    let x ← readApprox nparameters ncoeff line
    let xs ← readApproxs nparameters ncoeff n line f
    .ok (x :: xs)

/-- nimble_uq.cc:145-219 `ReadSamples`.  A negative number of samples makes `resize` throw; a negative
number of exact samples that is made up for by approximate ones ends in an exception or in an access
before the start of a vector and is counted as undefined. -/
def readSamples (file : Option Str) (nparameters : ℕ) : Outcome Samples := do
  let (line, f) := getLine [] (openFile file)
  let (first, items) ← pop (split line)
  let nexact ← stoi first
  let (second, _) ← pop items
  let napprox ← stoi second
  if nexact + napprox < 0 ∨ napprox < 0 then .throws
  else if nexact < 0 then .undefined
  else do
    let (exact, line, f) ← readExacts nparameters nexact.toNat line f
    let approx ← readApproxs nparameters (nexact.toNat + 1) napprox.toNat line f
    .ok ⟨nexact.toNat, napprox.toNat, exact ++ approx.map (·.1), approx.map (·.2)⟩

/-- `parameters_`: for every block, for every sample, the parameters. -/
abbrev Table := ℤ → List DMap

/-- nimble_uq.cc:223-230: copies of the nominal parameters. -/
def initialTable (u : UqModel) (nsamples : ℕ) : Table := fun b =>
  match u.nominal b with
  | some d => List.replicate nsamples d
  | none => []

/-- nimble_uq.cc:236-242: one pass over (parameter `i`, sample `s`); `none`: an element past the end of a
vector is accessed. -/
def scaleOne (u : UqModel) (xi : List (List ℚ)) (i : ℕ) (block_id : ℤ) (name : Str) (s : ℕ) (t : Table) : Option Table := do
  let d ← (t block_id)[s]?
  let p0 := (d name).getD 0
  let dpdxi := u.range block_id name
  let row ← xi[s]?
  let dxi ← row[i]?
  let p := p0 + dpdxi * dxi
  some fun b => if b = block_id then (t b).set s (fun n => if n = name then some p else d n) else t b

/-- nimble_uq.cc:233-244: the loop over the parameters from number `i` on. -/
def scaleLoop (u : UqModel) (xi : List (List ℚ)) (nsamples : ℕ) : ℕ → List (ℤ × Str) → Table → Option Table
  | _, [], t => some t
  | i, (block_id, name) :: rest, t => do
    let t ← (List.range nsamples).foldlM (fun t s => scaleOne u xi i block_id name s t) t
    scaleLoop u xi nsamples (i + 1) rest t

/-- nimble_uq.cc:220-245 `ScaleParameters`. -/
def scaleParameters (u : UqModel) (r : Samples) : Option Table :=
  scaleLoop u r.xi (r.napprox + r.nexact) 0 u.order (initialTable u (r.napprox + r.nexact))

/-! ## Initialisation from the input deck -/

/-- `map[key] = value` in a `std::map<std::string, std::string>`: the entries in increasing order of the
keys. -/
def mapSet (key value : Str) : List (Str × Str) → List (Str × Str)
  | [] => [(key, value)]
  | (k, v) :: m =>
    if key = k then (k, value) :: m
    else if key < k then (key, value) :: (k, v) :: m
    else (k, v) :: mapSet key value m

/-- nimble_parser.cc:346-350: the lines `uq parameters:` of the deck in order, each already split into
material and ranges. -/
def uqParamsStrings (lines : List (Str × Str)) : List (Str × Str) :=
  lines.foldl (fun m l => mapSet l.1 l.2 m) []

/-- The blocks of the deck in increasing order of their numbers (`model_blocks_`), each with its material. -/
abbrev Blocks := List (ℤ × Str)

/-- nimble_parser.h:227-243 `GetBlockIdFromMaterial`. -/
def blockIdFromMaterial (blocks : Blocks) (key : Str) : ℤ :=
  match blocks.find? (fun b => b.2 = key) with
  | some b => b.1
  | none => -1

/-- nimble_parser.h:214-225 `GetModelMaterialParameters`: the string of the block's material. -/
def materialParameters (blocks : Blocks) (materials : Str → Option Str) (block_id : ℤ) : Outcome Str :=
  match blocks.find? (fun b => b.1 = block_id) with
  | none => .ok "none".toList
  | some b => match materials b.2 with
    | some s => .ok s
    | none => .throws

/-- nimble_uq_model_data.cc:75-82: the loop over the lines. -/
def parseBlocks (dmax : ℚ) (blocks : Blocks) (materials : Str → Option Str) :
    List (Str × Str) → UqModel → Outcome UqModel
  | [], u => .ok u
  | (key, line) :: lines, u => do
    let block_id := blockIdFromMaterial blocks key
    let nominal ← materialParameters blocks materials block_id
    let u ← parseBlockInput dmax u line block_id nominal
    parseBlocks dmax blocks materials lines u

/-- nimble_uq_model_data.cc:70-84, nimble_uq.cc:270-276: the part of `InitializeBlocks` that determines the
samples: read the lines, read the sample file, scale. -/
def initializeSamples (dmax : ℚ) (blocks : Blocks) (materials : Str → Option Str) (lines : List (Str × Str))
    (file : Option Str) : Outcome (UqModel × Samples × Table) := do
  let u ← parseBlocks dmax blocks materials (uqParamsStrings lines) {}
  let r ← readSamples file u.order.length
  match scaleParameters u r with
  | some t => .ok (u, r, t)
  | none => .undefined

/-- nimble_uq.h:139-143 `Parameters(block_id, sample)`; `none`: an element past the end of a vector is
read. -/
def parameters (t : Table) (block_id : ℤ) (sample : ℕ) : Option DMap := (t block_id)[sample]?

/-! ## Forces -/

open NimbleSM.Bc (setAt)

section Forces

variable {K : Type*} [Field K]

/-- nimble_uq.cc:327-345 `ApplyClosure`: `forces_[sample][i]` before and after; the arrays of different
samples are different fields and do not overlap. -/
def applyClosure (nexact napprox nunknowns : ℕ) (coeff : ℕ → ℕ → K) (nominal_force : ℕ → K)
    (forces : ℕ → ℕ → K) : ℕ → ℕ → K :=
  (List.range napprox).foldl (fun F s =>
    (List.range nunknowns).foldl (fun F i =>
      (List.range nexact).foldl (fun F k =>
        setAt F (s + nexact) i (F (s + nexact) i + F k i * coeff s (k + 1)))
        (setAt F (s + nexact) i (nominal_force i * coeff s 0))) F) forces

end Forces

/-- nimble_uq_model_data.cc:211-214: the reductions of the sample forces, `reduce` being one reduction of
one array; `none`: an element past the end of the vector of arrays is accessed. -/
def reduceSamples {A : Type*} (reduce : A → A) (nexact : ℕ) (forces : List A) : Option (List A) :=
  (List.range (nexact + 1)).foldlM (fun (F : List A) i => F[i]?.map fun f => F.set i (reduce f)) forces

end NimbleSM.Uq
