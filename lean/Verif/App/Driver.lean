import Verif.Contact.Entity

/-!
# The application: `src/nimble.cc`, `src/nimble_cli.cc`, `src/nimble_main.cc`, `src/nimble_data_manager.cc`

`main` returns `NimbleApplication().Run(argc, argv)`.  The members of `NimbleApplication` are virtual; this
is the stock application (nimble_main.cc:44-52), without overrides.  The command line library (CLI11 in
`tpl/`) is represented by the rules stated at `cliParse`.  The deck reader, the mesh reader, the set up of
the model data and the integrators are parameters with the outcome of a call (`Res`); each is modelled
elsewhere.  One rank.
-/

namespace NimbleSM.App

/-- What a build contains (CMakeLists.txt; `NIMBLE_HAVE_…`). -/
structure Build where
  trilinos : Bool
  vt : Bool
  uq : Bool
  bvh : Bool
  arborx : Bool
  /-- `ARBORX_ENABLE_MPI` and `NIMBLE_HAVE_MPI` -/
  arborxMpi : Bool

/-- A word of the command line: the three switches, `-h`/`--help`, anything else that starts with a dash, a
plain word.  Switches with an explicit value (`--use_vt=false`) are not modelled. -/
inductive Tok where
  | useTpetra
  | useVT
  | useUQ
  | help
  | option (s : String)
  | word (s : String)
deriving DecidableEq

/-- `CommandLineConfiguration::impl` (nimble_cli.cc:52-62). -/
structure Cli where
  use_tpetra : Bool
  use_vt : Bool
  use_uq : Bool
  input_filename : String

/-- The first plain word; the others are extras, which are allowed (nimble_cli.cc:82). -/
def firstWord : List Tok → Option String
  | [] => none
  | .word s :: _ => some s
  | _ :: ts => firstWord ts

/-- What `cli_app_.parse` does: it returns, throws `CallForHelp` (a `ParseError` with exit code 0), or throws
another `ParseError` with a code. -/
inductive CliResult where
  | ok
  | callForHelp
  | error (code : ℤ)

/-- nimble_cli.cc:80-111 `ConfigureCommandLineArguments` and `cli_app_.parse` (CLI11.hpp:7468-7491): the
callbacks come first (they validate the given options and set the variables), then the help flag, then the
requirement that there is an input file.  Line 101 binds `--use_uq` to `use_vt_`.  Exit codes: validation
105, required 106. -/
def cliParse (b : Build) (exists_ : String → Bool) (args : List Tok) : Cli × CliResult :=
  let c : Cli := { use_tpetra := false, use_vt := false, use_uq := false, input_filename := "" }
  if Tok.useTpetra ∈ args ∧ !b.trilinos then (c, .error 105) else
  let c := if Tok.useTpetra ∈ args then { c with use_tpetra := true } else c
  if Tok.useVT ∈ args ∧ !b.vt then (c, .error 105) else
  let c := if Tok.useVT ∈ args then { c with use_vt := true } else c
  if Tok.useUQ ∈ args ∧ !b.uq then (c, .error 105) else
  let c := if Tok.useUQ ∈ args then { c with use_vt := true } else c
  match firstWord args with
  | some f =>
    if exists_ f then
      let c := { c with input_filename := f }
      (c, if Tok.help ∈ args then .callForHelp else .ok)
    else (c, .error 105)
  | none => (c, if Tok.help ∈ args then .callForHelp else .error 106)

/-- The outcome of a call: a value, a C++ exception, or `abort()`. -/
inductive Res (α : Type*) where
  | ok (a : α)
  | throw
  | abort

/-- Which model data `DataManager` created. -/
inductive Kind where
  | kokkos
  | uq
deriving DecidableEq

/-- The settings of the deck used here: `time integration scheme`, `contact` and `contact backend`
(nimble_parser.cc:289-292; the last is stored in a member that nothing reads). -/
structure Deck where
  scheme : String
  contact : String
  contactBackend : String

/-- What the parts of the program do on given inputs. -/
structure World where
  fileExists : String → Bool
  /-- `Parser::Initialize` (nimble_parser.cc:190-236) -/
  deck : String → Res Deck
  /-- `GenesisMesh::ReadFile` on the file named in the deck (nimble.cc:329-333) -/
  mesh : Deck → Res Unit
  /-- the rest of `DataManager::Initialize`, `InitializeBlocks`, `InitializeOutput` (nimble.cc:341-371) -/
  setup : Deck → Kind → Res Unit
  /-- `ExplicitTimeIntegrator::Integrate` -/
  explicit : Deck → Kind → Res ℤ
  /-- `QuasistaticTimeIntegrator::Integrate` with a model data it accepts, up to the check of line 219
  (quasistatic_time_integrator.cc:163-218) -/
  quasistaticStart : Deck → Res Unit
  numRanks : ℕ

/-- What can be observed. -/
inductive Event where
  /-- the help text is printed -/
  | help
  /-- `InitializeSubsystems` started MPI and Kokkos -/
  | initialized
  /-- an integrator ran to its end -/
  | integrated (scheme : String) (kind : Kind) (status : ℤ)
  /-- `FinalizeSubsystems` -/
  | finalized
deriving DecidableEq

/-- How the process ends: `main` returns a code, an exception escapes from `main`, or `abort()`. -/
inductive Exit where
  | code (n : ℤ)
  | terminate
  | abort
deriving DecidableEq

/-- nimble_cli.cc:113-123 `ParseAndGetErrorCode`, with CLI11.hpp:6527-6552 `exit`: code, variables, events. -/
def parseAndGetErrorCode (b : Build) (w : World) (args : List Tok) : ℤ × Cli × List Event :=
  match cliParse b w.fileExists args with
  | (c, .ok) => (0, c, [])
  | (c, .callForHelp) => (0, c, [.help])
  | (c, .error n) => (n, c, [])

/-- nimble_parser.h:140-151 `TimeIntegrationScheme`. -/
def timeIntegrationScheme (d : Deck) : Res String :=
  if d.scheme ≠ "explicit" ∧ d.scheme ≠ "quasistatic" then .throw else .ok d.scheme

/-- nimble_data_manager.cc:105-114: the model data. -/
def modelKind (b : Build) (useUQ : Bool) : Res Kind :=
  if useUQ then (if b.uq then .ok .uq else .abort) else .ok .kokkos

/-- quasistatic_time_integrator.cc:118-162: more than one rank is rejected; the model data must be a
`nimble::ModelData`, which `nimble_uq::ModelData` is (nimble_uq_model_data.h:64) and
`nimble_kokkos::ModelData` is not (nimble_kokkos_model_data.h:71); line 219 aborts if UQ is enabled, which is
when the model data is a `nimble_uq::ModelData`. -/
def quasistaticIntegrate (w : World) (d : Deck) (k : Kind) : Res ℤ :=
  if w.numRanks > 1 then .throw
  else match k with
    | .kokkos => .throw
    | .uq => match w.quasistaticStart d with
      | .throw => .throw
      | .abort => .abort
      | .ok () => .abort

/-- nimble.cc:285-297 `CreateIntegrator` and the call of `Integrate` (377-379). -/
def integrate (w : World) (d : Deck) (k : Kind) : Res ℤ :=
  match timeIntegrationScheme d with
  | .throw => .throw
  | .abort => .abort
  | .ok s => if s = "explicit" then w.explicit d k else quasistaticIntegrate w d k

/-- nimble.cc:318-380 `MainLoop`. -/
def mainLoop (b : Build) (w : World) (useUQ : Bool) (d : Deck) : Res (Kind × ℤ) :=
  match w.mesh d with
  | .throw => .throw
  | .abort => .abort
  | .ok () => match modelKind b useUQ with
    | .throw => .throw
    | .abort => .abort
    | .ok k => match timeIntegrationScheme d with  -- nimble_data_manager.cc:127
      | .throw => .throw
      | .abort => .abort
      | .ok _ => match w.setup d k with
        | .throw => .throw
        | .abort => .abort
        | .ok () => match integrate w d k with
          | .throw => .throw
          | .abort => .abort
          | .ok n => .ok (k, n)

/-- nimble.cc:105-152 `Run`; `main` returns its value.  The deck is read in `InitializeSubsystems`
(line 229), outside the `try` block. -/
def run (b : Build) (w : World) (args : List Tok) : Exit × List Event :=
  match parseAndGetErrorCode b w args with
  | (err, c, ev) =>
    if err ≠ 0 then (.code err, ev)
    else match w.deck c.input_filename with
      | .throw => (.terminate, ev ++ [.initialized])
      | .abort => (.abort, ev ++ [.initialized])
      | .ok d => match mainLoop b w c.use_uq d with
        | .throw => (.code 1, ev ++ [.initialized])
        | .abort => (.abort, ev ++ [.initialized])
        | .ok (k, status) => (.code status, ev ++ [.initialized, .integrated d.scheme k status, .finalized])

/-! ## Contact -/

/-- The contact managers. -/
inductive ContactKind where
  | bvh
  | arborxParallel
  | arborxSerial
  | base
deriving DecidableEq

/-- nimble_contact_manager.cc:152-173 `GetContactManager`. -/
def contactKind (b : Build) (useVT : Bool) (d : Deck) : Option ContactKind :=
  if d.contact = "" then none
  else if b.bvh ∧ useVT then some .bvh
  else if b.arborx then (if b.arborxMpi then some .arborxParallel else some .arborxSerial)
  else some .base

variable {K : Type*} [Field K] [LinearOrder K]

/-- `ContactInterface` (nimble_contact_interface.h:87-180): the virtual search, which changes the contact force
of the submodel nodes. -/
structure ContactInterface (K : Type*) where
  doSearchAndEnforcement : List (Contact.Entity K) → List (Contact.Entity K) → (ℤ → K) → (ℤ → K)

/-- nimble.cc:279-283 `CreateContactInterface`, nimble_contact_interface.h:133-140: the search of the stock
application prints a warning. -/
def stockInterface : ContactInterface K := { doSearchAndEnforcement := fun _ _ force => force }

/-- nimble_contact_interface.h:119-128 `ComputeContact`: the force is set to zero, then the search runs. -/
def computeContact (i : ContactInterface K) (nodes faces : List (Contact.Entity K)) (_force : ℤ → K) : ℤ → K :=
  let force : ℤ → K := fun _ => 0
  i.doSearchAndEnforcement nodes faces force

/-- nimble_contact_manager.cc:395-424 `ComputeContactForce(step, debug, contact_force)` of the base manager
with nimble_contact_manager.h:337-347: `contact_force_d` is set to zero, the displacements are applied, the
interface is called, the forces are copied to the nodes.  `none`: the penalty parameter is rejected.
The reduction over the ranks is not modelled (one rank). -/
def baseContactForce (i : ContactInterface K) (disp : ℕ → Fin 3 → K) (force_d : ℤ → K) (m : Contact.Manager K) :
    Option (ℕ → Fin 3 → K) :=
  if m.penalty ≤ 0 then none
  else
    let contact_force_d : ℕ → Fin 3 → K := fun _ => 0
    let m := Contact.applyDisplacements disp m
    let force := computeContact i m.nodes m.faces force_d
    some (Contact.getForces m force contact_force_d)

end NimbleSM.App
