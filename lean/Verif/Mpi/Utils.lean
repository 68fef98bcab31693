import Mathlib.Data.List.Basic

/-!
# Model of the MPI helper functions

`PackIDSpace` (`src/nimble.mpi.reduction_utils.cc:51-95`), `GroupConsecutive` (`src/nimble.mpi.reduction_utils.h:78-118`),
`mpicontext::gather`, `catenate_gatherv`, `catenate_gatherv_format` (`src/nimble.mpi.mpicontext.h:186-231,435-520`).
-/

namespace NimbleSM.Mpi

/-! ## PackIDSpace -/

/-- Root state of `PackIDSpace` (`src/nimble.mpi.reduction_utils.cc:55-57`): the `std::map` from raw to new ids (association list, the
newest entry first) and `sane_node_id`. -/
structure PackState where
  table : List (Int × Nat)
  next : Nat

/-- `if (lookup.count(node) == 0) { lookup[node] = sane_node_id; ++sane_node_id; }`
(`src/nimble.mpi.reduction_utils.cc:59-62,72-75`). -/
def packNode (s : PackState) (node : Int) : PackState :=
  match s.table.lookup node with
  | some _ => s
  | none => { table := (node, s.next) :: s.table, next := s.next + 1 }

/-- Handling of the message of one rank > 0 (`src/nimble.mpi.reduction_utils.cc:64-79`): each received id is entered and replaced
by its new id; the result is sent back. A message longer than the receive buffer is an MPI truncation error: `none`. -/
def packMessage (maxNodes : Nat) (s : PackState) (ids : List Int) : Option (PackState × List Nat) :=
  if maxNodes < ids.length then none
  else some (ids.foldl (fun (p : PackState × List Nat) node =>
    let s' := packNode p.1 node
    (s', p.2 ++ [(s'.table.lookup node).getD 0])) (s, []))

/-- The loop over the ranks 1, 2, ... (`src/nimble.mpi.reduction_utils.cc:64-80`). -/
def packOthers (maxNodes : Nat) : PackState → List (List Int) → Option (PackState × List (List Nat))
  | s, [] => some (s, [])
  | s, ids :: rest =>
    (packMessage maxNodes s ids).bind fun p =>
      (packOthers maxNodes p.1 rest).map fun q => (q.1, p.2 :: q.2)

/-- `PackIDSpace` on all ranks (`src/nimble.mpi.reduction_utils.cc:51-95`): `root` is the id list of rank 0, `others` those of the
ranks 1, 2, ...; the result is the list of new ids returned on each rank. The map lookup `lookup[raw]` at the end
(`:82`) would insert 0 for a missing key, modelled by `getD 0`. -/
def packIDSpace (maxNodes : Nat) (root : List Int) (others : List (List Int)) : Option (List (List Nat)) :=
  let s := root.foldl packNode { table := [], next := 0 }
  (packOthers maxNodes s others).map fun p =>
    (root.map fun node => (p.1.table.lookup node).getD 0) :: p.2

/-! ## GroupConsecutive -/

/-- The vector `key_ids` without its last entry (`src/nimble.mpi.reduction_utils.h:85-95`): `groupKey` is `*group_key`, `m` is
`max_key_id`. Returns the ids and the final `max_key_id`. -/
def keyIds {κ ν : Type*} [DecidableEq κ] : κ → Nat → List (κ × ν) → List Nat × Nat
  | _, m, [] => ([], m)
  | groupKey, m, p :: rest =>
    if p.1 ≠ groupKey then
      let r := keyIds p.1 (m + 1) rest
      ((m + 1) :: r.1, r.2)
    else
      let r := keyIds groupKey m rest
      (m :: r.1, r.2)

/-- State of the second loop of `GroupConsecutive` (`src/nimble.mpi.reduction_utils.h:99-101`). -/
structure GroupState (κ ν : Type*) where
  prev : Nat
  size : Nat
  groups : List (κ × List ν)

/-- Body of the second loop (`src/nimble.mpi.reduction_utils.h:102-114`): an access outside `key_ids` or `lst` is the outcome
`none`. -/
def groupStep {κ ν : Type*} (lst : List (κ × ν)) (ids : List Nat) (st : GroupState κ ν) (i : Nat) :
    Option (GroupState κ ν) :=
  (ids[i]?).bind fun id =>
    if id ≠ st.prev then
      (lst[i - 1]?).bind fun last =>
        if st.size ≤ i ∧ i ≤ lst.length then
          some { prev := id, size := 1,
                 groups := st.groups ++ [(last.1, ((lst.drop (i - st.size)).take st.size).map Prod.snd)] }
        else none
    else some { st with size := st.size + 1 }

/-- `GroupConsecutive` (`src/nimble.mpi.reduction_utils.h:78-118`). -/
def groupConsecutive {κ ν : Type*} [DecidableEq κ] (lst : List (κ × ν)) : Option (List (κ × List ν)) :=
  match lst with
  | [] => some []
  | p :: _ =>
    let k := keyIds p.1 0 lst
    let ids := k.1 ++ [k.2 + 1]
    ((List.range' 1 lst.length).foldlM (groupStep lst ids) { prev := 0, size := 1, groups := [] }).map
      GroupState.groups

/-! ## Gathers -/

variable {α : Type*}

/-- Store the entries of `l` at positions `pos, pos+1, ...` of the buffer `dest`; `none` if a store is out of range
(`std::copy`, and the part of `MPI_Gatherv` that fills one section). -/
def writeAt (dest : List α) (pos : Nat) (l : List α) : Option (List α) :=
  if pos + l.length ≤ dest.length then some (dest.take pos ++ l ++ dest.drop (pos + l.length)) else none

/-- `MPI_Gatherv` on the root: section `i` of the receive buffer, given by `displs[i]`, receives the data of rank `i`. As required
by MPI the counts must be the lengths sent and no two sections may overlap (`none` otherwise, also for a section outside the
buffer). -/
def gatherv (dest : List α) (send : List (List α)) (counts displs : List Nat) : Option (List α) :=
  if counts = send.map List.length ∧ displs.length = send.length ∧
      (displs.zip counts).Pairwise (fun a b => a.1 + a.2 ≤ b.1) then
    (displs.zip send).foldlM (fun d p => writeAt d p.1 p.2) dest
  else none

/-- `std::partial_sum` with running value `acc`. -/
def partialSums : Nat → List Nat → List Nat
  | _, [] => []
  | acc, c :: cs => (acc + c) :: partialSums (acc + c) cs

/-- The displacement vector of `gather` and `catenate_gatherv` (`src/nimble.mpi.mpicontext.h:202-203,440-441`): zeros, then
`partial_sum` of all counts but the last stored from position 1 on. -/
def displacements (counts : List Nat) : List Nat := 0 :: partialSums 0 counts.dropLast

/-- `catenate_gatherv` on the root (`src/nimble.mpi.mpicontext.h:435-456`), `strs` being the strings of all ranks in rank order; the
number of ranks is positive. -/
def catenateGatherv (strs : List (List Char)) : Option (List Char) :=
  let counts := strs.map List.length
  let displs := displacements counts
  (displs.getLast?).bind fun d => (counts.getLast?).bind fun c =>
    gatherv (List.replicate (d + c) ' ') strs counts displs

/-- The displacement loop of `catenate_gatherv_format` (`src/nimble.mpi.mpicontext.h:481-488`); returns the displacements and the
final value of the accumulator. -/
def formatDispls (sep : Nat) : Nat → List Nat → List Nat × Nat
  | acc, [] => ([], acc)
  | acc, c :: cs => let r := formatDispls sep (acc + (sep + c)) cs; (acc :: r.1, r.2)

/-- `catenate_gatherv_format` on the root (`src/nimble.mpi.mpicontext.h:472-510`). The `int`/`size_t` subtraction of the separator
size is `Nat` subtraction here (it never truncates, as there is at least one rank). -/
def catenateGathervFormat (strs : List (List Char)) (start separator stop : List Char) : Option (List Char) :=
  let counts := strs.map List.length
  let fd := formatDispls separator.length start.length counts
  (gatherv (List.replicate (fd.2 + stop.length - separator.length) ' ') strs counts fd.1).bind fun d0 =>
  (writeAt d0 0 start).bind fun d1 =>
  ((List.range (counts.length - 1)).foldlM (fun d i =>
    (fd.1[i]?).bind fun di => (counts[i]?).bind fun ci => writeAt d (di + ci) separator) d1).bind fun d2 =>
  (fd.1.getLast?).bind fun dl => (counts.getLast?).bind fun cl => writeAt d2 (dl + cl) stop

/-- Step 3 of `mpicontext::gather` (`src/nimble.mpi.mpicontext.h:215-222`): the loop with `start_iter`, `end_iter` given as offsets
into `destination`; a slice that leaves the buffer is the outcome `none`. -/
def sliceLoop (dest : List α) : Nat → Nat → List Nat → Option (List (List α))
  | _, _, [] => some []
  | start, stop, c :: cs =>
    if start ≤ stop ∧ stop ≤ dest.length then
      (sliceLoop dest stop (stop + c) cs).map fun r => (dest.drop start).take (stop - start) :: r
    else none

/-- `mpicontext::gather` on the root (`src/nimble.mpi.mpicontext.h:186-224`); `src` lists the vectors of all ranks. -/
def gather [Inhabited α] (src : List (List α)) : Option (List (List α)) :=
  let counts := src.map List.length
  (gatherv (List.replicate counts.sum default) src counts (displacements counts)).bind fun dest =>
    (counts[0]?).bind fun c0 => sliceLoop dest 0 c0 counts

end NimbleSM.Mpi
