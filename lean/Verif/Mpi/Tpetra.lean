import Mathlib.Algebra.BigOperators.Group.Finset.Basic
import Mathlib.Algebra.BigOperators.Fin
import Mathlib.Data.List.FinRange
import Mathlib.Data.Fintype.BigOperators

/-!
# Reduction with Tpetra: `src/nimble_tpetra_utils.h`, `src/nimble_tpetra_utils.cc`

`TpetraContainer` on all ranks of a communicator of `R` ranks.  Tpetra itself is third-party code; what is assumed of it is written out:

* a map is the list of global ids of each rank; a vector on a map has one value for each local index;
* `createOneToOne` keeps each global id on the rank that the tie break selects among the ranks that hold it, which it is shown in an
  arbitrary order; the order of the ids kept on a rank is that of the map;
* `doExport(.., ADD)` first copies the entries that source and target hold on the same rank over the target, then adds to each entry of the
  target the entries of other ranks that do not hold the id in the target map;
* `doImport(.., INSERT)` copies entries of the same rank, and fetches the others from the rank that holds them.

Arithmetic is exact.
-/

open scoped BigOperators

namespace NimbleSM.Tpetra

variable {R : ℕ} {K : Type*} [AddCommMonoid K]

/-- `SimpleTieBreak::selectedIndex` (nimble_tpetra_utils.h:133-149); `pids` are the first components of `pid_and_lid`, not empty. -/
def selectedIndex (pids : List (Fin R)) (first : Fin R) : ℕ × Fin R :=
  (List.range pids.length).foldl (fun (s : ℕ × Fin R) i => match pids[i]? with
    | some pid => if pid < s.2 then (i, pid) else s
    | none => s) (0, first)

/-- The owner of an id shown to the tie break with the ranks `pids`. -/
def selectedRank (pids : List (Fin R)) : Option (Fin R) :=
  match pids with
  | [] => none
  | p :: rest => (p :: rest)[(selectedIndex (p :: rest) p).1]?

/-- `Tpetra::createOneToOne` with the tie break (third-party; nimble_tpetra_utils.cc:84, 100). -/
def createOneToOne (holders : ℤ → List (Fin R)) (map : Fin R → List ℤ) : Fin R → List ℤ :=
  fun r => (map r).filter fun g => selectedRank (holders g) = some r

/-- `doExport` with `CombineMode::ADD` (third-party; nimble_tpetra_utils.cc:257, 271). -/
def doExport (src tgt : Fin R → List ℤ) (x y : Fin R → ℕ → K) : Fin R → ℕ → K := fun r j =>
  match (tgt r)[j]? with
  | none => y r j
  | some g => (if g ∈ src r then x r ((src r).idxOf g) else y r j) +
      ∑ s : Fin R, if s ≠ r ∧ g ∈ src s ∧ g ∉ tgt s then x s ((src s).idxOf g) else 0

/-- `doImport` with `CombineMode::INSERT` (third-party; nimble_tpetra_utils.cc:258, 272). -/
def doImport (src tgt : Fin R → List ℤ) (x y : Fin R → ℕ → K) : Fin R → ℕ → K := fun r j =>
  match (tgt r)[j]? with
  | none => y r j
  | some g => if g ∈ src r then x r ((src r).idxOf g) else
      match (List.finRange R).find? (fun s => decide (g ∈ src s)) with
      | some s => x s ((src s).idxOf g)
      | none => y r j

/-- `TpetraContainer` on all ranks (nimble_tpetra_utils.h:186-202): ids of the nodes, maps, vectors. -/
structure Container (R : ℕ) (K : Type*) where
  dim : ℕ
  ids : Fin R → List ℤ
  map1 : Fin R → List ℤ
  one1 : Fin R → List ℤ
  map3 : Fin R → List ℤ
  one3 : Fin R → List ℤ
  vec1 : Fin R → ℕ → K
  vecOne1 : Fin R → ℕ → K
  vec3 : Fin R → ℕ → K
  vecOne3 : Fin R → ℕ → K

/-- The ids of the vector entries of a rank (nimble_tpetra_utils.cc:91-95). -/
def vectorIds (dim : ℕ) (ids : List ℤ) : List ℤ := ids.flatMap fun g => (List.range dim).map fun dof : ℕ => g * dim + dof

/-- `TpetraContainer::Initialize` (nimble_tpetra_utils.cc:60-107); `holders1`, `holders3` are the orders in which the tie break sees the
ranks.  New vectors are zero. -/
def initializeContainer (dim : ℕ) (ids : Fin R → List ℤ) (holders1 holders3 : ℤ → List (Fin R)) : Container R K :=
  let map1 := ids
  let map3 := fun r => vectorIds dim (ids r)
  { dim := dim, ids := ids, map1 := map1, one1 := createOneToOne holders1 map1, map3 := map3, one3 := createOneToOne holders3 map3,
    vec1 := fun _ _ => 0, vecOne1 := fun _ _ => 0, vec3 := fun _ _ => 0, vecOne3 := fun _ _ => 0 }

/-- The loops that copy between the caller's array and a vector (nimble_tpetra_utils.cc:254, 261, 266-268, 275-277). -/
def copyFirst (n : ℕ) (x y : ℕ → K) : ℕ → K := fun j => if j < n then x j else y j

/-- `TpetraContainer::VectorReduction(int, double*)` on all ranks (nimble_tpetra_utils.cc:244-281). -/
def vectorReduction (c : Container R K) (dataDimension : ℕ) (data : Fin R → ℕ → K) : Container R K × (Fin R → ℕ → K) :=
  if dataDimension = c.dim then
    let vec := fun r => copyFirst ((c.ids r).length * c.dim) (data r) (c.vec3 r)
    let one := doExport c.map3 c.one3 vec c.vecOne3
    let vec := doImport c.one3 c.map3 one vec
    ({ c with vec3 := vec, vecOne3 := one }, fun r => copyFirst ((c.ids r).length * c.dim) (vec r) (data r))
  else
    let vec := fun r => copyFirst (c.ids r).length (data r) (c.vec1 r)
    let one := doExport c.map1 c.one1 vec c.vecOne1
    let vec := doImport c.one1 c.map1 one vec
    ({ c with vec1 := vec, vecOne1 := one }, fun r => copyFirst (c.ids r).length (vec r) (data r))

/-- A history of reductions. -/
def runCalls (c : Container R K) (calls : List (ℕ × (Fin R → ℕ → K))) : Container R K :=
  calls.foldl (fun c call => (vectorReduction c call.1 call.2).1) c

end NimbleSM.Tpetra
