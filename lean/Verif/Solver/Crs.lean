import Mathlib.Algebra.Field.Basic
import Mathlib.Data.List.Basic
import Mathlib.Data.Fin.VecNotation

/-!
# The compressed-row matrix of `src/nimble_linear_solver.{h,cc}`

Model of `CRSMatrixContainer` (and of the small dense `MatrixContainer`).  Vectors are lists; a raw
`double*` argument is a function `ℕ → K` of which only the entries the code touches matter.
Row and column numbers are natural numbers (negative indices are not modelled).
-/

namespace NimbleSM.Solver

variable {K : Type*} [Field K]

/-- nimble_linear_solver.h:194-199: the data members of `CRSMatrixContainer`. -/
structure Crs (K : Type*) where
  /-- `num_rows_` -/
  numRows : ℕ
  /-- `data_` -/
  data : List K
  /-- `i_index_` -/
  iIdx : List ℕ
  /-- `j_index_` -/
  jIdx : List ℕ
  /-- `row_first_index_` -/
  rowFirst : List ℕ

/-- nimble_linear_solver.h:121: a default-constructed container. -/
def Crs.empty : Crs K := ⟨0, [], [], [], []⟩

/-- `std::vector::resize(n, d)`: truncates or pads, keeping what is already there. -/
def resize {A : Type*} (l : List A) (n : ℕ) (d : A) : List A :=
  l.take n ++ List.replicate (n - l.length) d

/-- nimble_linear_solver.cc:62-65: the largest row number (0 for an empty list). -/
def maxRow (is : List ℕ) : ℕ := is.foldl (fun m i => if i > m then i else m) 0

/-- nimble_linear_solver.cc:69-75: one turn of the loop that fills `row_first_index_`; the state is
(`row_first_index_`, `current_row`). -/
def rowFirstStep (st : List ℕ × ℤ) (e : ℕ × ℕ) : List ℕ × ℤ :=
  if (e.1 : ℤ) > st.2 then (st.1.set e.1 e.2, (e.1 : ℤ)) else st

/-- nimble_linear_solver.cc:67-76: `row_first_index_` after the loop, and its last entry. -/
def fillRowFirst (old is : List ℕ) (numRows : ℕ) : List ℕ :=
  ((is.zipIdx.foldl rowFirstStep (resize old (numRows + 1) 0, -1)).1).set numRows is.length

/-- nimble_linear_solver.cc:56-77, `CRSMatrixContainer::AllocateNonzeros`.  The container may have been
used before (`resize` keeps old contents). -/
def Crs.allocateNonzeros (old : Crs K) (is js : List ℕ) : Crs K where
  numRows := maxRow is + 1
  data := resize old.data is.length 0
  iIdx := is
  jIdx := js
  rowFirst := fillRowFirst old.rowFirst is (maxRow is + 1)

/-- nimble_linear_solver.h:128-143, `AllocateDiagonalMatrix`. -/
def Crs.allocateDiagonal (old : Crs K) (n : ℕ) : Crs K :=
  if old.numRows = n then old
  else ⟨n, List.replicate n 0, List.range n, List.range n, List.range n⟩

/-- nimble_linear_solver.h:145-149, `SetAllValues`. -/
def Crs.setAllValues (A : Crs K) (v : K) : Crs K := { A with data := A.data.map fun _ => v }

/-- The outcome of an element access: a storage slot, the `std::invalid_argument` of line 114, or a read
past the end of one of the vectors (undefined behaviour). -/
inductive Lookup where
  | found (slot : ℕ)
  | throws
  | outOfBounds
  deriving DecidableEq, Repr

/-- nimble_linear_solver.cc:96-112: the search loop.  `fuel` is `max_trials - i`; the value
`j_index_[trial]` is read on entry (line 99) and again at the end of each turn (line 111), i.e. always
before the test on the loop counter. -/
def bisect (js : List ℕ) (target : ℕ) : ℕ → ℕ → ℕ → Lookup
  | fuel, min, max =>
    match js[(min + max) / 2]? with
    | none => .outOfBounds
    | some v =>
      match fuel with
      | 0 => .throws
      | n + 1 =>
        if v = target then .found ((min + max) / 2)
        else if v < target then bisect js target n ((min + max) / 2) max
        else bisect js target n min ((min + max) / 2)

/-- nimble_linear_solver.cc:93-115, `FindIndex`.  `max_trials = max - min` is truncated at zero: the loop
runs no turn when it is negative. -/
def Crs.findIndex (A : Crs K) (i j : ℕ) : Lookup :=
  match A.rowFirst[i]?, A.rowFirst[i + 1]? with
  | some min, some max => bisect A.jIdx j (max - min) min max
  | _, _ => .outOfBounds

/-- nimble_linear_solver.h:172-176: reading through `operator()(i,j) const`; `none` when no value is
obtained. -/
def Crs.at? (A : Crs K) (i j : ℕ) : Option K :=
  match A.findIndex i j with
  | .found p => A.data[p]?
  | _ => none

/-- nimble_linear_solver.h:178-182: `A(i,j) = v`; `none` when no slot is obtained. -/
def Crs.setEntry (A : Crs K) (i j : ℕ) (v : K) : Option (Crs K) :=
  match A.findIndex i j with
  | .found p => if p < A.data.length then some { A with data := A.data.set p v } else none
  | _ => none

/-- `A(i,j) += v`, as in the assembly loops. -/
def Crs.addEntry (A : Crs K) (i j : ℕ) (v : K) : Option (Crs K) :=
  match A.findIndex i j with
  | .found p => A.data[p]?.map fun x => { A with data := A.data.set p (x + v) }
  | _ => none

/-- `for (k = a; k < b; k++) data[k] = v` (loop of nimble_linear_solver.cc:82). -/
def fillRange (l : List K) (a b : ℕ) (v : K) : List K :=
  (List.range' a (b - a)).foldl (fun (l : List K) k => l.set k v) l

/-- nimble_linear_solver.cc:79-83, `SetRowValues`; `none` when `row_first_index_` is read out of range. -/
def Crs.setRowValues (A : Crs K) (row : ℕ) (v : K) : Option (Crs K) :=
  match A.rowFirst[row]?, A.rowFirst[row + 1]? with
  | some a, some b => some { A with data := fillRange A.data a b v }
  | _, _ => none

/-- nimble_linear_solver.cc:85-91, `SetColumnValues`. -/
def Crs.setColumnValues (A : Crs K) (col : ℕ) (v : K) : Crs K :=
  let data := (List.range A.jIdx.length).foldl
    (fun (l : List K) k => if A.jIdx[k]? = some col then l.set k v else l) A.data
  { A with data := data }

/-- Assignment `result[i] = x` through a pointer. -/
def upd {A : Type*} (v : ℕ → A) (i : ℕ) (x : A) : ℕ → A := fun a => if a = i then x else v a

/-- nimble_linear_solver.cc:121: one turn of the product loop.  The class keeps `i_index_`, `j_index_`
and `data_` at equal length, so the three reads are taken from the zipped vectors. -/
def matVecStep (vec : ℕ → K) (res : ℕ → K) (e : K × ℕ × ℕ) : ℕ → K :=
  upd res e.2.1 (res e.2.1 + e.1 * vec e.2.2)

/-- nimble_linear_solver.cc:117-122, `MatVec`. -/
def Crs.matVec (A : Crs K) (vec result : ℕ → K) : ℕ → K :=
  (A.data.zip (A.iIdx.zip A.jIdx)).foldl (matVecStep vec)
    ((List.range A.numRows).foldl (fun (r : ℕ → K) i => upd r i 0) result)

/-- nimble_linear_solver.cc:124-135, `DiagonalMatrixMatVec`; `none` = `NIMBLE_ABORT`. -/
def Crs.diagMatVec (A : Crs K) (vec result : ℕ → K) : Option (ℕ → K) :=
  if A.numRows ≠ A.data.length then none
  else some ((A.data.zipIdx).foldl (fun (r : ℕ → K) e => upd r e.2 (e.1 * vec e.2)) result)

/-- nimble_linear_solver.cc:147-150: one turn; state (`M.data_`, `m_index`); `none` = write out of
range. -/
def precondStep (st : Option (List K × ℕ)) (e : K × ℕ × ℕ) : Option (List K × ℕ) :=
  st.bind fun s =>
    if e.2.1 = e.2.2 then
      (if s.2 < s.1.length then some (s.1.set s.2 (1 / e.1), s.2 + 1) else none)
    else some s

/-- nimble_linear_solver.cc:137-151, `PopulateDiagonalPreconditioner`; `none` = throw or out-of-range
write. -/
def populatePreconditioner (A M : Crs K) : Option (Crs K) :=
  if M.numRows ≠ M.data.length then none
  else
    ((A.data.zip (A.iIdx.zip A.jIdx)).foldl precondStep (some (M.data, 0))).map
      fun s => { M with data := s.1 }

/-- nimble_linear_solver.h:214-224, `InnerProduct` (serial build: without the `MPI_Allreduce`). -/
def innerProduct (n : ℕ) (u v : ℕ → K) : K :=
  (List.range n).foldl (fun (r : K) i => r + u i * v i) 0

/-! ## The dense container -/

/-- nimble_linear_solver.h:112-115. -/
structure Dense (K : Type*) where
  /-- `num_rows_` -/
  numRows : ℕ
  /-- `data_` -/
  data : List K

/-- nimble_linear_solver.h:65-74, `MatrixContainer::AllocateNonzeros` (only the row indices are used). -/
def Dense.allocateNonzeros (old : Dense K) (is : List ℕ) : Dense K :=
  ⟨maxRow is + 1, resize old.data ((maxRow is + 1) * (maxRow is + 1)) 0⟩

/-- nimble_linear_solver.h:82-86. -/
def Dense.setRowValues (A : Dense K) (row : ℕ) (v : K) : Dense K :=
  let data := (List.range A.numRows).foldl
    (fun (l : List K) i => l.set (A.numRows * row + i) v) A.data
  { A with data := data }

/-- nimble_linear_solver.h:88-92. -/
def Dense.setColumnValues (A : Dense K) (col : ℕ) (v : K) : Dense K :=
  let data := (List.range A.numRows).foldl
    (fun (l : List K) i => l.set (A.numRows * i + col) v) A.data
  { A with data := data }

/-- nimble_linear_solver.h:100-104; `none` = read past the end. -/
def Dense.at? (A : Dense K) (i j : ℕ) : Option K := A.data[A.numRows * i + j]?

/-- nimble_linear_solver.h:106-110 used as `A(i,j) = v`; `none` = write past the end. -/
def Dense.setEntry (A : Dense K) (i j : ℕ) (v : K) : Option (Dense K) :=
  if A.numRows * i + j < A.data.length then some { A with data := A.data.set (A.numRows * i + j) v }
  else none

end NimbleSM.Solver
