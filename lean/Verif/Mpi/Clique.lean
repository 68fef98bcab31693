import Mathlib.Data.List.Basic
import Mathlib.Logic.Function.Basic
import Mathlib.Data.Int.Notation

/-!
# Model of the clique numbering of the parallel vector reduction

`src/nimble.mpi.reduction.h:192-230` (`fill_clique_lookup`), `src/nimble.quanta.h:120-170`
(`invoke_counter_t`, `remap`), `src/nimble.mpi.reduction.cc:80-96`.
-/

namespace NimbleSM.Mpi

/-- Loop state of `fill_clique_lookup` (`src/nimble.mpi.reduction.h:201-206`): the caller's lookup table (an
`unordered_map<int,int>` whose `operator[]` inserts 0 for a missing key, `src/nimble.mpi.reduction.cc:81-83`; modelled by a total
function with default 0), the per-rank map `remapped_cliques` (modelled by an association list, newest first) and the counter of
`generate_clique_id`. Simplification: `int` is modelled by `Nat`, no overflow. -/
structure CliqueState where
  lookup : Int → Nat
  remap : List (Nat × Nat)
  counter : Nat

/-- Body of the inner loop, one global id (`src/nimble.mpi.reduction.h:212-227`). `rankPlusOne` is the loop variable
`rank_plus_one`; `generate_clique_id()` returns the counter and increments it (`src/nimble.quanta.h:146-150`). -/
def cliqueStep (rankPlusOne : Nat) (s : CliqueState) (id : Int) : CliqueState :=
  if s.lookup id = 0 then
    { s with lookup := Function.update s.lookup id rankPlusOne }
  else
    match s.remap.lookup (s.lookup id) with
    | some c => { s with lookup := Function.update s.lookup id c }
    | none =>
      { lookup := Function.update s.lookup id s.counter
        remap := (s.lookup id, s.counter) :: s.remap
        counter := s.counter + 1 }

/-- One iteration of the outer loop: `remapped_cliques.clear()`, then all ids of the rank
(`src/nimble.mpi.reduction.h:208-228`). -/
def cliqueRank (rankPlusOne : Nat) (s : CliqueState) (ids : List Int) : CliqueState :=
  ids.foldl (cliqueStep rankPlusOne) { s with remap := [] }

/-- The outer loop; the first argument is the value of `rank_plus_one` before its increment
(`src/nimble.mpi.reduction.h:208-228`). -/
def cliqueRanks : Nat → CliqueState → List (List Int) → CliqueState
  | _, s, [] => s
  | r, s, ids :: rest => cliqueRanks (r + 1) (cliqueRank (r + 1) s ids) rest

/-- `fill_clique_lookup` (`src/nimble.mpi.reduction.h:192-230`): start from an empty table with the counter at
`len(ids_by_rank) + 1`. The returned clique count is the final `counter`. -/
def fillCliqueLookup (idsByRank : List (List Int)) : CliqueState :=
  cliqueRanks 0 { lookup := fun _ => 0, remap := [], counter := idsByRank.length + 1 } idsByRank

/-- `quanta::remap(all_global_ids, clique_lookup)` restricted to one rank's section
(`src/nimble.quanta.h:164-169`, `src/nimble.mpi.reduction.cc:84,104`): the clique assignment scattered to that rank. -/
def cliqueAssignment (s : CliqueState) (ids : List Int) : List Nat := ids.map s.lookup

end NimbleSM.Mpi
