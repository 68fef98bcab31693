import Verif.Mpi.Clique
import Mathlib.Algebra.BigOperators.Group.Finset.Basic
import Mathlib.Data.List.FinRange
import Mathlib.Data.Fintype.Basic

/-!
# Model of the parallel vector reduction

`GenerateReductionInfo` (`src/nimble.mpi.reduction.cc:50-123`), `ReductionInfo` (`src/nimble.mpi.reduction.h:69-189`),
`ReductionClique_t` (`src/nimble.mpi.rank_clique_reducer.h:61-283`) and `VectorCommunicator::VectorReduction`
(`src/nimble_vector_communicator.h:144-157`), MPI build without Trilinos.

The ranks are `Fin R`; `ids r` is the list of global node ids that rank `r` passes to `Initialize`.
Out-of-range accesses and aborts are the outcome `none`.
-/

open scoped BigOperators

namespace NimbleSM.Mpi

/-- `std::unique` on a vector: drops every element equal to its predecessor
(used in `src/nimble.mpi.reduction.cc:116-117`). -/
def uniqueAdj : List Nat → List Nat
  | a :: b :: t => if a = b then uniqueAdj (b :: t) else a :: uniqueAdj (b :: t)
  | l => l

/-- `clique_ids`: the sorted, duplicate-free clique numbers of one rank (`src/nimble.mpi.reduction.cc:114-117`). -/
def cliqueIds (s : CliqueState) (ids : List Int) : List Nat :=
  uniqueAdj ((cliqueAssignment s ids).mergeSort (fun a b => decide (a ≤ b)))

/-- `clique_colors` (`src/nimble.mpi.reduction.cc:118-119`): a vector of `num_cliques` entries, `MPI_UNDEFINED` (`false`)
except for the rank's own cliques, which get colour 1 (`true`). A write outside the vector is the outcome `none`. -/
def cliqueColors (numCliques : Nat) (cids : List Nat) : Option (List Bool) :=
  cids.foldlM (fun (v : List Bool) i => if i < v.length then some (v.set i true) else none)
    (List.replicate numCliques false)

/-- The communicators obtained by the loop over `clique_colors` in the `ReductionInfo` constructor
(`src/nimble.mpi.reduction.h:100-106`). All ranks call `MPI_Comm_split` `num_cliques` times in the same order; the `k`-th split
yields a communicator of the ranks whose `k`-th colour is 1 and `MPI_COMM_NULL` on the others. A communicator handle is modelled by
the number `k` of the split that created it. -/
def comms (colors : List Bool) : List Nat :=
  (List.range colors.length).filter (fun k => colors[k]? == some true)

/-- The index list of clique `c` before sorting (`src/nimble.mpi.reduction.h:92-95`): the local positions, in increasing order,
whose clique number is `c`, recorded only for `clique_id > num_ranks`. -/
def indexList (numRanks : Nat) (s : CliqueState) (ids : List Int) (c : Nat) : List (Fin ids.length) :=
  (List.finRange ids.length).filter (fun i => decide (numRanks < c ∧ s.lookup (ids[i]) = c))

/-- `std::sort` of the index list by global id (`src/nimble.mpi.reduction.h:114`). -/
def sortedIndexList (numRanks : Nat) (s : CliqueState) (ids : List Int) (c : Nat) : List (Fin ids.length) :=
  (indexList numRanks s ids c).mergeSort (fun a b => decide (¬ ids[b] < ids[a]))

/-- One `ReductionClique_t` of a rank (`src/nimble.mpi.rank_clique_reducer.h:61-104`): its local indices and its communicator;
`buffersize` is `3 * n_indices` (`src/nimble.mpi.reduction.h:115`). -/
structure Clique where
  indices : List Nat
  comm : Nat
deriving DecidableEq, Repr

/-- The `ReductionInfo` constructor on one rank (`src/nimble.mpi.reduction.h:77-117`), including the abort when the number of
communicators differs from the number of cliques. -/
def reductionInfo (numRanks : Nat) (s : CliqueState) (ids : List Int) : Option (List Clique) := do
  let cids := cliqueIds s ids
  let colors ← cliqueColors s.counter cids
  let cs := comms colors
  if cs.length ≠ cids.length then none
  else some ((cids.zip cs).map fun p =>
    { indices := (sortedIndexList numRanks s ids p.1).map Fin.val, comm := p.2 })

variable {K : Type*}

/-- Addresses visited by `pack`/`unpack` for one clique (`src/nimble.mpi.rank_clique_reducer.h:130-158`):
`index * field_size + j`, index-major. -/
def addresses (fs : Nat) (indices : List Nat) : List Nat :=
  indices.flatMap fun i => (List.range fs).map fun j => i * fs + j

/-- `pack<field_size>` (`src/nimble.mpi.rank_clique_reducer.h:130-143`): read the addressed entries into the send buffer; `none` on
a read outside the data array. -/
def pack (fs : Nat) (indices : List Nat) (data : List K) : Option (List K) :=
  (addresses fs indices).mapM fun a => data[a]?

/-- A run of stores `data[a] = v`; `none` on a store outside the array. -/
def storeAll (writes : List (Nat × K)) (data : List K) : Option (List K) :=
  writes.foldlM (fun (d : List K) w => if w.1 < d.length then some (d.set w.1 w.2) else none) data

/-- `unpack<field_size>` (`src/nimble.mpi.rank_clique_reducer.h:144-158`): store the receive buffer back at the same addresses;
`none` if the receive buffer is not filled to the same length. -/
def unpack (fs : Nat) (indices : List Nat) (recv : List K) (data : List K) : Option (List K) :=
  if recv.length = (addresses fs indices).length then storeAll ((addresses fs indices).zip recv) data else none

/-- `MPI_(I)allreduce` with `MPI_SUM` over the members of a communicator: every member must contribute the same number of entries
(otherwise the program is erroneous: `none`) and every member receives the entrywise sums. -/
def allreduce [AddCommMonoid K] {R : Nat} (members : Finset (Fin R)) (n : Nat) (send : Fin R → Option (List K)) :
    Option (List K) :=
  if ∀ r ∈ members, (send r).map List.length = some n then
    some ((List.range n).map fun k => ∑ r ∈ members, ((send r).bind fun b => b[k]?).getD 0)
  else none

/-- State of one rank inside the `while (!unfinished.empty())` loop of `ReductionInfo::Reduce`
(`src/nimble.mpi.reduction.h:129-149`): the indices of unfinished cliques, the loop variable `i`, and the rank's data. -/
structure ReduceState (K : Type*) where
  unfinished : List Nat
  i : Nat
  data : List K

/-- `unfinished[i] = unfinished.back(); unfinished.pop_back();` (`src/nimble.mpi.reduction.h:143-144`). -/
def swapRemove (l : List Nat) (i : Nat) : List Nat :=
  match l.getLast? with
  | none => l
  | some b => (l.set i b).dropLast

/-- One atomic action of the polling loop (`src/nimble.mpi.reduction.h:135-148`). `MPI_Test` may report completion or not at each
poll: both transitions are available, which covers every completion schedule. `recv q` is what the all-reduce of the rank's `q`-th
clique delivers. -/
inductive ReduceStep (fs : Nat) (cliques : List Clique) (recv : Nat → Option (List K)) :
    ReduceState K → ReduceState K → Prop
  /-- the request polled is not complete: `increment = 1` -/
  | pending (st : ReduceState K) (h : st.i < st.unfinished.length) :
      ReduceStep fs cliques recv st { st with i := st.i + 1 }
  /-- the request polled is complete: unpack, remove it from the list, `increment = 0` -/
  | complete (st : ReduceState K) (h : st.i < st.unfinished.length) (c : Clique) (buf d : List K)
      (hc : cliques[st.unfinished[st.i]]? = some c) (hb : recv st.unfinished[st.i] = some buf)
      (hd : unpack fs c.indices buf st.data = some d) :
      ReduceStep fs cliques recv st { unfinished := swapRemove st.unfinished st.i, i := st.i, data := d }
  /-- the inner loop is exhausted and the `while` condition still holds -/
  | restart (st : ReduceState K) (h : ¬ st.i < st.unfinished.length) (hne : st.unfinished ≠ []) :
      ReduceStep fs cliques recv st { st with i := 0 }

/-- What rank `r` hands to the all-reduce of the communicator with handle `k`: `asyncreduce_initialize`
(`src/nimble.mpi.rank_clique_reducer.h:180-184,197-218`) checks `field_size * n_indices <= buffersize = 3 * n_indices` and packs. All
packs of a rank happen before any unpack (`src/nimble.mpi.reduction.h:131`), so they read the data passed to the call. -/
def sendBuffer (fs : Nat) (cliques : List Clique) (data : List K) (k : Nat) : Option (List K) :=
  (cliques.find? (fun c => c.comm == k)).bind fun c =>
    if 3 * c.indices.length < fs * c.indices.length then none else pack fs c.indices data

/-- The members of the communicator with handle `k`: the ranks that own a clique with that handle. -/
def commMembers {R : Nat} (cl : Fin R → List Clique) (k : Nat) : Finset (Fin R) :=
  Finset.univ.filter fun r => (cl r).any (fun c => c.comm == k)

/-- What the all-reduce of the `q`-th clique of rank `r` delivers. -/
def delivered [AddCommMonoid K] {R : Nat} (fs : Nat) (cl : Fin R → List Clique) (data : Fin R → List K)
    (r : Fin R) (q : Nat) : Option (List K) :=
  ((cl r)[q]?).bind fun c =>
    allreduce (commMembers cl c.comm) (c.indices.length * fs) (fun r' => sendBuffer fs (cl r') (data r') c.comm)

/-- `GenerateReductionInfo` on all ranks (`src/nimble.mpi.reduction.cc:50-123`): the root numbers the cliques of the gathered id
lists, every rank receives its own section and builds its `ReductionInfo`. -/
def generateReductionInfo {R : Nat} (ids : Fin R → List Int) (r : Fin R) : Option (List Clique) :=
  reductionInfo R (fillCliqueLookup (List.ofFn ids)) (ids r)

/-- `PerformReduction` accepts the field sizes 1, 2 and 3 only (`src/nimble.mpi.reduction.h:163-176`). -/
def fieldSizeOk (fs : Nat) : Bool := fs == 1 || fs == 2 || fs == 3

/-- The state in which a rank enters the polling loop: `unfinished = 0,1,...,cliques.size()-1`
(`src/nimble.mpi.reduction.h:133-137`). -/
def ReduceState.start (cliques : List Clique) (data : List K) : ReduceState K :=
  { unfinished := List.range cliques.length, i := 0, data := data }

/-- `GetMPICommWorldRanks()[0]` (`src/nimble.mpi.rank_clique_reducer.h:262-273`): the smallest member of the communicator, the
first entry of the sorted result of the all-gather; `none` for a communicator without members. -/
def minMember {R : Nat} (cl : Fin R → List Clique) (k : Nat) : Option (Fin R) :=
  (List.finRange R).find? fun r => decide (r ∈ commMembers cl k)

/-- `ReductionInfo::GetAllIndices` (`src/nimble.mpi.reduction.h:150-162`), which is what
`VectorCommunicator::GetPartitionBoundaryNodeLocalIds` returns in the MPI build
(`src/nimble_vector_communicator.h:130-138`): pairs of a local index and the smallest rank of its clique. The two parallel output
vectors are modelled as one list of pairs. -/
def getAllIndices {R : Nat} (cl : Fin R → List Clique) (r : Fin R) : Option (List (Nat × Fin R)) :=
  ((cl r).mapM fun c => (minMember cl c.comm).map fun m => c.indices.map fun i => (i, m)).map List.flatten

end NimbleSM.Mpi
