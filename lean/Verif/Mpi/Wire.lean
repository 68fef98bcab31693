import Verif.Mpi.Reduction
import Verif.Mpi.Utils

/-!
# What travels between the ranks when a reduction is set up

`Verif.Mpi.Reduction` lets every rank read the clique numbers of its nodes from the root's table.  Here the data
really goes through the buffers: the counts are all-gathered, the ids gathered into one vector on the root, cut into
array views (`src/nimble.quanta.arrayview.h`), replaced in place by clique numbers and scattered
(`src/nimble.mpi.reduction.cc:50-121`), and each rank builds its `ReductionInfo` from what it received
(`src/nimble.mpi.reduction.h:77-117`).  Also `mpicontext::scatter` and the receiving functions of
`src/nimble.mpi.mpicontext.h`, and `GetMaximumNodeId`.

MPI calls have their standard meaning; a call that MPI declares erroneous, or an access outside an array, is `none`.
Numbers are unbounded.
-/

namespace NimbleSM.Mpi

variable {α : Type*}

/-! ## Array views -/

/-- `arrayview_t<T>` (nimble.quanta.arrayview.h:54-60) into one array: offset of `addr` and `count`. -/
structure ArrayView where
  start : Nat
  count : Nat
  deriving DecidableEq

/-- Constructor `(vector, start, count)` (line 69), or `(addr, start, count)` (line 63). -/
def ArrayView.ofStartCount (start count : Nat) : ArrayView := ⟨start, count⟩

/-- Constructor `(vector)` (line 68). -/
def ArrayView.ofVector (a : List α) : ArrayView := ⟨0, a.length⟩

/-- Constructor `(begin, end)` (line 65) for elements of `elemSize` bytes in an array at address `base`: the count is
`(size_t)end - (size_t)begin`, a difference of addresses.  (A wrap-around, for `end < begin`, is not modelled.) -/
def ArrayView.ofPointers (elemSize base first last : Nat) : ArrayView :=
  ⟨first, (base + elemSize * last) - (base + elemSize * first)⟩

/-- `sub(start, count)` (lines 99-103). -/
def ArrayView.sub (v : ArrayView) (start count : Nat) : ArrayView := ⟨v.start + start, count⟩

/-- The elements met by `for (x : view)` (`begin`, `end`, lines 71-80); `none` if the loop leaves the array. -/
def ArrayView.read (v : ArrayView) (a : List α) : Option (List α) :=
  if v.start + v.count ≤ a.length then some ((a.drop v.start).take v.count) else none

/-- The loop of `partition_into_arrayviews` (nimble.quanta.arrayview.h:173-185) with its variable `displacement`. -/
def partitionLoop : Nat → List Nat → List ArrayView
  | _, [] => []
  | displacement, c :: cs => .ofStartCount displacement c :: partitionLoop (displacement + c) cs

/-- `partition_into_arrayviews(values, counts)`. -/
def partitionIntoArrayviews (counts : List Nat) : List ArrayView := partitionLoop 0 counts

/-- `copy_from(source)` (lines 133-140): element by element, from a position `source` of the same array (`none`: outside). -/
def copyLoop (dst src : Nat) : Nat → List α → Option (List α)
  | 0, a => some a
  | n + 1, a =>
    match a[src]? with
    | none => none
    | some x => if dst < a.length then copyLoop (dst + 1) (src + 1) n (a.set dst x) else none

/-- `view.copy_from(a.begin() + src)`. -/
def ArrayView.copyFrom (v : ArrayView) (src : Nat) (a : List α) : Option (List α) := copyLoop v.start src v.count a

/-! ## Collective operations -/

/-- `MPI_Scatterv`: rank `i` receives `counts[i]` entries from `displs[i]` on; the amount each rank receives
(`recvCounts`) must be the one sent. -/
def scatterv (a : List α) (counts displs recvCounts : List Nat) : Option (List (List α)) :=
  if recvCounts = counts ∧ displs.length = counts.length then
    (displs.zip counts).mapM fun p => ArrayView.read ⟨p.1, p.2⟩ a
  else none

/-- nimble.mpi.reduction.cc:60-69: the loop over `IDCounts`: displacements, `IDCountAccumulator` and `maxIDCount`. -/
def countLoop : List Nat → List Nat × Nat × Nat → List Nat × Nat × Nat
  | [], st => st
  | i :: cs, (displs, acc, mx) => countLoop cs (displs ++ [acc], acc + i, if i > mx then i else mx)

/-- nimble.mpi.reduction.cc:50-110: clique numbers received by the ranks (`clique_assignment`) and the number broadcast
(`num_cliques`); `ids` are the ids of the ranks in rank order. -/
def exchangeCliques (ids : List (List Int)) : Option (List (List Nat) × Nat) :=
  let counts := ids.map List.length
  let st := countLoop counts ([], 0, 0)
  (gatherv (List.replicate st.2.1 0) ids counts st.1).bind fun allGlobalIds =>
  ((partitionIntoArrayviews counts).mapM fun (v : ArrayView) => v.read allGlobalIds).bind fun idsByRank =>
    let s := fillCliqueLookup idsByRank
    (scatterv (allGlobalIds.map s.lookup) counts st.1 (ids.map List.length)).map fun a => (a, s.counter)

/-! ## The constructor of `ReductionInfo`, from what a rank has -/

/-- nimble.mpi.reduction.h:92-95: `clique_index_assignment[clique_id].emplace_back(index)` for the indices from `index` on;
the hash map is a function whose default is the empty list. -/
def assignIndices (numRanks : Nat) : Nat → List Nat → (Nat → List Nat) → (Nat → List Nat)
  | _, [], m => m
  | index, c :: cs, m =>
    assignIndices numRanks (index + 1) cs (if numRanks < c then Function.update m c (m c ++ [index]) else m)

/-- `ReductionInfo` on one rank (nimble.mpi.reduction.cc:112-120, nimble.mpi.reduction.h:77-117) from the clique numbers and
the number of cliques it received and its own ids. -/
def reductionInfoOf (numRanks numCliques : Nat) (assignment : List Nat) (ids : List Int) : Option (List Clique) :=
  let cids := uniqueAdj (assignment.mergeSort fun a b => decide (a ≤ b))
  (cliqueColors numCliques cids).bind fun colors =>
    let cs := comms colors
    if cs.length ≠ cids.length then none
    else
      let m := assignIndices numRanks 0 assignment fun _ => []
      some ((cids.zip cs).map fun p =>
        { indices := (m p.1).mergeSort fun a b => decide (¬ ids.getD b 0 < ids.getD a 0), comm := p.2 })

/-- `GenerateReductionInfo` on all ranks, over the wire. -/
def generateOverWire (ids : List (List Int)) : Option (List (Option (List Clique))) :=
  (exchangeCliques ids).map fun p =>
    (p.1.zip ids).map fun q => reductionInfoOf ids.length p.2 q.1 q.2

/-! ## `mpicontext::scatter` -/

/-- `scatter(root, source)` (nimble.mpi.mpicontext.h:237-270) on all ranks: `MPI_Scatterv` is given `source.data()`, the array
of the vector *objects*, as if it were an array of `int`s.  `objects` are the `int`s these objects consist of (`wordsPer` for
each; they hold the addresses of the elements).  The root returns an empty vector.  `none`: fewer vectors than ranks, or read
beyond the objects. -/
def scatter (objects : List Int) (numRanks root : Nat) (source : List (List Int)) : Option (List (List Int)) :=
  if source.length < numRanks then none
  else
    let sendCounts := (source.take numRanks).map List.length
    (scatterv objects sendCounts (displacements sendCounts) sendCounts).map fun r => r.set root []

/-! ## Receiving -/

/-- `recv(vector, rank, tag)` (nimble.mpi.mpicontext.h:136-142): probe for the length, resize, receive. Returns the count and
the vector. -/
def recvVector (_data message : List Int) : Nat × List Int := (message.length, message)

/-- `recv_avoid_resize` (nimble.mpi.mpicontext.h:155-162): the vector grows but does not shrink; the message overwrites its
beginning. -/
def recvAvoidResize (data message : List Int) : Nat × List Int :=
  let data := if message.length > data.length then data ++ List.replicate (message.length - data.length) 0 else data
  (message.length, message ++ data.drop message.length)

/-- `recv(int* data, rank, tag, max_buffer_size)` (nimble.mpi.mpicontext.h:143-151): an error (truncation) for a longer
message. -/
def recvBuffer (data message : List Int) (maxBufferSize : Nat) : Option (Nat × List Int) :=
  if message.length ≤ maxBufferSize ∧ message.length ≤ data.length then
    some (message.length, message ++ data.drop message.length) else none

/-! ## Ids -/

/-- `*std::max_element(begin, end)`; `none` (dereferencing `end`) for an empty list. -/
def maxElement : List Int → Option Int
  | [] => none
  | x :: xs => some (xs.foldl (fun m y => if m < y then y else m) x)

/-- `GetMaximumNodeId` (nimble.mpi.reduction_utils.cc:97-108) on all ranks: local maxima, then `MPI_Allreduce` with `MPI_MAX`
into a variable that every rank returns. -/
def getMaximumNodeId (ids : List (List Int)) : Option Int :=
  (ids.mapM maxElement).bind maxElement

/-- `GetNumberOfNodesAssignedToEachRank` (nimble.mpi.reduction_utils.cc:110-117): all-gather of the sizes. -/
def getNumberOfNodes (ids : List (List Int)) : List Nat := ids.map List.length

end NimbleSM.Mpi
