import Verif.App.Driver

/-!
# The libraries a run starts and stops: `src/nimble.cc:105-259`

`Run` (the public entry point of `NimbleApplication`, nimble.h:65) may be called again on the same object: "Run is
technically re-entrant" (nimble.cc:139).  A session is a sequence of calls on one object, followed by its
destruction.  Only the calls that NimbleSM makes itself are recorded; what a `Tpetra::ScopeGuard` starts or stops
on its own is inside `tpetra`.  The deck reader and the main loop are parameters with the outcome of the call.
-/

namespace NimbleSM.App

/-- The libraries. -/
inductive Lib where
  | mpi
  | kokkos
  | vt
  /-- `Tpetra::ScopeGuard`: constructor and destructor -/
  | tpetra
deriving DecidableEq, Repr

/-- What happens, in order. -/
inductive Act where
  | start (l : Lib)
  | stop (l : Lib)
  /-- `ExecMain`; the number of the call of `Run` that created the contact interface it sees -/
  | simulate (contact : Option ℕ)
deriving DecidableEq, Repr

/-- `NIMBLE_HAVE_TRILINOS`, `NIMBLE_HAVE_MPI`, `NIMBLE_HAVE_VT`.  Kokkos is used without a guard in
nimble.cc:246 and 274-285; a build without it does not exist. -/
structure LibBuild where
  trilinos : Bool
  mpi : Bool
  vt : Bool

/-- What one call of `Run` meets. -/
structure Call where
  /-- nimble.cc:110-112: the code of the command line; `Run` goes on with 0 -/
  cliCode : ℤ
  useTpetra : Bool
  useVT : Bool
  /-- nimble.cc:230 `parser_->Initialize()`: the deck has a contact command, or it is rejected -/
  deck : Res Bool
  /-- nimble.cc:129-137 `ExecMain()` -/
  main : Res ℤ

/-- How a call ends: `Run` returns, or the process ends in it. -/
inductive RunEnd where
  | returned (status : ℤ)
  | died
deriving DecidableEq

/-- The members of `NimbleApplication::impl` (nimble.cc:74-91) that outlive a call, and the trace. -/
structure AppState where
  /-- `parser_` holds a Tpetra scope (nimble_parser.h:352-355, 456) -/
  scope : Bool
  /-- `contact_interface_` -/
  contact : Option ℕ
  trace : List Act

/-- A new `NimbleApplication` (nimble.cc:93-97). -/
def AppState.new : AppState := { scope := false, contact := none, trace := [] }

/-- The parser goes away: a Tpetra scope in it ends. -/
def dropParser (s : AppState) : AppState :=
  { s with scope := false, trace := s.trace ++ if s.scope then [.stop .tpetra] else [] }

/-- nimble.cc:176-225 `InitializeSubsystems` up to VT.  The `else` of line 187 binds to the MPI block or, in a build
without MPI, to the statement `Kokkos::initialize` of line 199. -/
def startLibraries (b : LibBuild) (c : Call) : List Act :=
  (if b.trilinos ∧ c.useTpetra then
      [.start .tpetra] ++ if b.mpi then [.start .kokkos] else []
    else (if b.mpi then [.start .mpi] else []) ++ [.start .kokkos]) ++
    if b.vt ∧ c.useVT then [.start .vt] else []

/-- nimble.cc:239-259 `FinalizeSubsystems`. -/
def stopLibraries (b : LibBuild) (c : Call) : List Act :=
  (if b.vt ∧ c.useVT then [.stop .vt] else []) ++ [.stop .kokkos] ++
    if b.trilinos then (if ¬ c.useTpetra then (if b.mpi then [.stop .mpi] else []) else [])
    else if b.mpi then [.stop .mpi] else []

/-- nimble.cc:105-150 `Run`, the `n`-th call. -/
def runCall (b : LibBuild) (n : ℕ) (c : Call) (s : AppState) : RunEnd × AppState :=
  if c.cliCode ≠ 0 then (.returned c.cliCode, s)
  else
    -- line 114
    let s := dropParser s
    -- line 125
    let s := { s with trace := s.trace ++ startLibraries b c, scope := b.trilinos && c.useTpetra }
    match c.deck with
    | .throw => (.died, s)
    | .abort => (.died, s)
    | .ok hasContact =>
      -- lines 235-236
      let s := { s with contact := if hasContact then some n else s.contact }
      let s := { s with trace := s.trace ++ [.simulate s.contact] }
      match c.main with
      | .abort => (.died, s)
      | .throw => (.returned 1, s)
      | .ok status =>
        -- lines 143, 147
        (.returned status, { s with contact := none, trace := s.trace ++ stopLibraries b c })

/-- The calls of a session, numbered from `n`, on an object in state `s`; the process ends with the first call that
does not return.  Result: whether all calls returned, and the state. -/
def calls (b : LibBuild) : ℕ → List Call → AppState → Bool × AppState
  | _, [], s => (true, s)
  | n, c :: cs, s => match runCall b n c s with
    | (.died, s) => (false, s)
    | (.returned _, s) => calls b (n + 1) cs s

/-- nimble_main.cc:44-52 for one call: the object is destroyed at the end, if the process is still there.
Result: the trace. -/
def session (b : LibBuild) (cs : List Call) : List Act :=
  match calls b 0 cs .new with
  | (true, s) => (dropParser s).trace
  | (false, s) => s.trace

end NimbleSM.App
