import Mathlib.Data.Finset.Sort
import Mathlib.Data.Finset.Prod
import Mathlib.Algebra.BigOperators.Fin
import Mathlib.Algebra.BigOperators.Ring.Finset
import Mathlib.Tactic.Ring
import Mathlib.Tactic.Linarith

/-!
# The Tpetra tangent stiffness matrix: `src/nimble_tpetra_utils.cc:109-228`, `src/nimble_tpetra_utils.h:79-118`

Simplifications: `std::map<row, std::set<column>>`, in which every row has an entry, is a finite set of pairs.  The graph and the matrix are
third-party code; of them is assumed that the matrix of a rank has the entries inserted into its graph, that `getGlobalNumEntries` is the sum
over the ranks of the numbers of entries, and that `sumIntoLocalValues` returns the number of given columns for which the row has an entry,
or the invalid ordinal if the row is not on this rank.
-/

open scoped BigOperators

namespace NimbleSM.Tpetra

/-- What `AllocateTangentStiffnessMatrix` reads of a block: the node lists of its elements. -/
abbrev BlockConn := List (List ℕ)

/-- The two innermost loops (nimble_tpetra_utils.cc:134-141). -/
def insertDofs (dim : ℕ) (gi gj : ℤ) (s : Finset (ℤ × ℤ)) : Finset (ℤ × ℤ) :=
  (List.range dim).foldl (fun s (idof : ℕ) => (List.range dim).foldl (fun s (jdof : ℕ) => insert (gi * dim + idof, gj * dim + jdof) s) s) s

/-- The loops over pairs of nodes of an element (nimble_tpetra_utils.cc:130-143). -/
def insertElement (dim : ℕ) (ids : ℕ → ℤ) (element : List ℕ) (s : Finset (ℤ × ℤ)) : Finset (ℤ × ℤ) :=
  element.foldl (fun s i => element.foldl (fun s j => insertDofs dim (ids i) (ids j) s) s) s

/-- `matrix_nonzeros` of a rank (nimble_tpetra_utils.cc:114-148). -/
def matrixNonzeros (dim : ℕ) (ids : ℕ → ℤ) (blocks : List BlockConn) : Finset (ℤ × ℤ) :=
  blocks.foldl (fun s block => block.foldl (fun s element => insertElement dim ids element s) s) ∅

/-- `my_entries`, sorted (nimble_tpetra_utils.cc:150-159). -/
def myEntries (s : Finset (ℤ × ℤ)) : List ℤ := (s.image Prod.fst).sort (· ≤ ·)

/-- `num_matrix_nonzeros_per_row` (nimble_tpetra_utils.cc:160-164). -/
def nonzerosPerRow (s : Finset (ℤ × ℤ)) : List ℕ := (myEntries s).map fun row => (s.filter fun e => e.1 = row).card

/-- `TangentStiffnessMatrixNumNonzeros` (nimble_tpetra_utils.cc:192-200): summed over the ranks. -/
def numNonzeros {R : ℕ} (s : Fin R → Finset (ℤ × ℤ)) : ℕ := ∑ r, (s r).card

/-- `sumIntoLocalValues` (third-party): `none` is the invalid ordinal. -/
def sumIntoLocalValues (s : Finset (ℤ × ℤ)) (row : ℤ) (cols : List ℤ) : Option ℕ :=
  if row ∈ s.image Prod.fst then some (cols.filter fun c => (row, c) ∈ s).length else none

/-- `TpetraContainer::TangentStiffnessMatrixReplaceValue` (nimble_tpetra_utils.cc:210-228), and, the same,
`TpetraMatrixContainer::SumIntoValue` (nimble_tpetra_utils.h:93-112): `none` if the run is aborted.  The arrays of columns and values stay
empty. -/
def replaceValue (s : Finset (ℤ × ℤ)) (values : ℤ × ℤ → ℝ) (row _col : ℤ) (_value : ℝ) : Option (ℤ × ℤ → ℝ) :=
  let localCols : List ℤ := []
  match sumIntoLocalValues s row localCols with
  | none => none
  | some success => if success ≠ 1 then none else some values

end NimbleSM.Tpetra
