import Verif.Mesh.ExodusSteps
import Verif.Mesh.TextMesh

/-!
# Results in a text file: `ExodusOutput::WriteStepTextFile` (src/nimble_exodus_output.cc:496-550), builds without Exodus

A file is the list of its lines.  The output stream has the precision as its state: `fmt p v` is the text of `v` written with
precision `p`; the header of the file (`InitializeDatabaseTextFile`) is `Verif.Mesh.TextMesh`.  `none` is an exception.
-/

namespace NimbleSM.ExodusOut

open NimbleSM.Fields (Str intText)

variable {K : Type}

/-- `output_file`: precision and lines. -/
structure TextStream where
  prec : ℕ
  lines : List Str

/-- `output_file << text << std::endl`. -/
def TextStream.emit (s : TextStream) (l : Str) : TextStream := { s with lines := s.lines ++ [l] }

/-- `output_file << std::setprecision(p)`. -/
def TextStream.setPrecision (s : TextStream) (p : ℕ) : TextStream := { s with prec := p }

/-- `output_file << v << std::endl` for a number. -/
def TextStream.emitValue (fmt : ℕ → K → Str) (s : TextStream) (v : K) : TextStream := s.emit (fmt s.prec v)

/-- `output_file << std::setprecision(16) << v << std::endl`. -/
def TextStream.emitPrecise (fmt : ℕ → K → Str) (s : TextStream) (v : K) : TextStream := (s.setPrecision 16).emitValue fmt v

/-- The line before the values of an element variable of a block (nimble_exodus_output.cc:533, 542). -/
def sectionLine (n : Str) (i : ℕ) (block : ℤ) (numElem : ℕ) : Str :=
  n ++ ' ' :: intText i ++ ' ' :: intText block ++ ' ' :: intText numElem

/-- nimble_exodus_output.cc:529-536 (and 538-545): the loop over the names of a block; `at` throws for a name without
number or without array. -/
def textSections (fmt : ℕ → K → Str) (index : Str → Option ℕ) (block : ℤ) :
    List Str → List (List K) → TextStream → Option TextStream
  | [], _, s => some s
  | _ :: _, [], _ => none
  | n :: ns, d :: ds, s =>
    match index n with
    | none => none
    | some i =>
      textSections fmt index block ns ds (d.foldl (TextStream.emitPrecise fmt) (s.emit (sectionLine n i block d.length)))

/-- nimble_exodus_output.cc:526-547: the loop over the blocks of the mesh. -/
def textBlocks (fmt : ℕ → K → Str) (index : Str → Option ℕ) (a : StepArgs K) : List ℤ → TextStream → Option TextStream
  | [], s => some s
  | b :: bs, s =>
    (a.names b).bind fun ns =>
    (arraysAt ns (a.elem b)).bind fun es =>
    (textSections fmt index b ns es s).bind fun s1 =>
    (a.derivedNames b).bind fun dn =>
    (arraysAt dn (a.derived b)).bind fun ds =>
    (textSections fmt index b dn ds s1).bind fun s2 =>
    textBlocks fmt index a bs s2

/-- `WriteStepTextFile` (nimble_exodus_output.cc:496-550): the stream is opened for appending, with precision 6. -/
def writeStepText (fmt : ℕ → K → Str) (index : Str → Option ℕ) (blockIds : List ℤ) (file : List Str) (a : StepArgs K) :
    Option (List Str) :=
  let s : TextStream := ⟨6, file⟩
  let s := (s.emit "time".toList).emitPrecise fmt a.time
  let s := a.globals.foldl (TextStream.emitValue fmt) (s.emit "global_data_values".toList)
  let s := a.node.foldl (fun s d => d.foldl (TextStream.emitPrecise fmt) s) (s.emit "node_data_values".toList)
  (textBlocks fmt index a blockIds (s.emit "element_data_values".toList)).map TextStream.lines

/-- The steps of a run. -/
def writeStepsText (fmt : ℕ → K → Str) (index : Str → Option ℕ) (blockIds : List ℤ) :
    List (StepArgs K) → List Str → Option (List Str)
  | [], file => some file
  | a :: as, file => (writeStepText fmt index blockIds file a).bind (writeStepsText fmt index blockIds as)

end NimbleSM.ExodusOut
