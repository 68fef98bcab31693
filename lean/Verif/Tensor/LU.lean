import Mathlib.Algebra.Order.Field.Basic
import Mathlib.Algebra.Order.Group.Unbundled.Abs
import Mathlib.Data.Nat.Init

/-!
# Dense LU factorisation and solve of `src/nimble_utils.h`

Exact arithmetic over a linearly ordered field.  `mat(i,j)` is `m i j : K` with `m : ℕ → ℕ → K`;
`vec`, `vv` and `index` are functions on `ℕ` too.  Only indices `< n` are ever used.  The class
template `Matrix` is any type with element access; here it is the access function itself.
-/

namespace NimbleSM.LU

variable {K : Type*} [Field K] [LinearOrder K]

/-- Assignment `mat(i,j) = x`. -/
def set2 (m : ℕ → ℕ → K) (i j : ℕ) (x : K) : ℕ → ℕ → K :=
  fun a b => if a = i ∧ b = j then x else m a b

/-- Assignment `vec[i] = x`. -/
def set1 {A : Type*} (v : ℕ → A) (i : ℕ) (x : A) : ℕ → A :=
  fun a => if a = i then x else v a

/-- nimble_utils.h:1285-1288: the largest absolute value in row `i`. -/
def rowMax (n : ℕ) (m : ℕ → ℕ → K) (i : ℕ) : K :=
  (List.range n).foldl (fun big j => if |m i j| > big then |m i j| else big) 0

/-- nimble_utils.h:1284-1294: scaling of every row, `none` = `NIMBLE_ABORT` of line 1291.
Iterates `i = 0 .. n-1`. -/
def rowScaling (n : ℕ) (tiny : K) (m : ℕ → ℕ → K) : Option (ℕ → K) :=
  (List.range n).foldl
    (fun r i => r.bind fun vv =>
      let big := rowMax n m i
      if big < tiny then none else some (set1 vv i (1 / big)))
    (some fun _ => 0)

/-- The inner loop `for (k = 0; k < bound; ++k) sum -= mat(i,k) * mat(k,j)`
(nimble_utils.h:1300 and 1307) started from `sum = mat(i,j)`. -/
def reduceEntry (m : ℕ → ℕ → K) (i j bound : ℕ) : K :=
  (List.range bound).foldl (fun sum k => sum - m i k * m k j) (m i j)

/-- nimble_utils.h:1298-1302: `for (i = 0; i < j; ++i)`, the part above the diagonal. -/
def upperPart (j : ℕ) (m : ℕ → ℕ → K) : ℕ → ℕ → K :=
  (List.range j).foldl (fun m i => set2 m i j (reduceEntry m i j i)) m

/-- nimble_utils.h:1304-1316: `for (i = j; i < n; ++i)`, diagonal and below, with the search for
the pivot.  The state is `(mat, big, imax)`; `imax` enters with the value left over from the
previous column (line 1275 initialises it once, before the loop over columns). -/
def lowerPart (n j : ℕ) (vv : ℕ → K) (m : ℕ → ℕ → K) (imax : ℕ) : (ℕ → ℕ → K) × K × ℕ :=
  (List.range' j (n - j)).foldl
    (fun (m, big, imax) i =>
      let sum := reduceEntry m i j j
      let m := set2 m i j sum
      if vv i * |sum| > big then (m, vv i * |sum|, i) else (m, big, imax))
    (m, 0, imax)

/-- nimble_utils.h:1320-1324: exchange of rows `imax` and `j` (all `n` columns). -/
def swapRows (n imax j : ℕ) (m : ℕ → ℕ → K) : ℕ → ℕ → K :=
  (List.range n).foldl
    (fun m k =>
      let temp := m imax k
      let m := set2 m imax k (m j k)
      set2 m j k temp) m

/-- nimble_utils.h:1335-1338: division of the column below the pivot. -/
def scaleColumn (n j : ℕ) (m : ℕ → ℕ → K) : ℕ → ℕ → K :=
  let temp := 1 / m j j
  (List.range' (j + 1) (n - (j + 1))).foldl (fun m i => set2 m i j (m i j * temp)) m

/-- State of the loop over columns: matrix, scalings, pivot row left over, `index` array. -/
structure State (K : Type*) where
  m : ℕ → ℕ → K
  vv : ℕ → K
  imax : ℕ
  index : ℕ → ℕ

/-- nimble_utils.h:1297-1339: the body of the loop over columns for column `j`;
`none` = `NIMBLE_ABORT` of line 1331. -/
def column (n : ℕ) (tiny : K) (s : State K) (j : ℕ) : Option (State K) :=
  let m := upperPart j s.m
  let (m, _big, imax) := lowerPart n j s.vv m s.imax
  let (m, vv) := if j ≠ imax then (swapRows n imax j m, set1 s.vv imax (s.vv j)) else (m, s.vv)
  let index := set1 s.index j imax
  if |m j j| < tiny then none
  else some ⟨scaleColumn n j m, vv, imax, index⟩

/-- nimble_utils.h:1271-1343 `LU_Decompose`: `none` when it aborts, else the factors stored in
`mat` and the `index` array.  `tiny` is `1e-40` in the code (line 1280). -/
def luDecompose (n : ℕ) (tiny : K) (m : ℕ → ℕ → K) (index : ℕ → ℕ) :
    Option ((ℕ → ℕ → K) × (ℕ → ℕ)) :=
  (rowScaling n tiny m).bind fun vv =>
    ((List.range n).foldl (fun r j => r.bind fun s => column n tiny s j)
      (some ⟨m, vv, 0, index⟩)).map fun s => (s.m, s.index)

/-- nimble_utils.h:1357-1362: forward substitution step `i`. -/
def forwardStep (m : ℕ → ℕ → K) (index : ℕ → ℕ) (vec : ℕ → K) (i : ℕ) : ℕ → K :=
  let sum := vec (index i)
  let vec := set1 vec (index i) (vec i)
  let sum := (List.range i).foldl (fun sum j => sum - m i j * vec j) sum
  set1 vec i sum

/-- nimble_utils.h:1365-1369: back substitution step `i`. -/
def backStep (n : ℕ) (m : ℕ → ℕ → K) (vec : ℕ → K) (i : ℕ) : ℕ → K :=
  let sum := vec i
  let sum := (List.range' (i + 1) (n - (i + 1))).foldl (fun sum j => sum - m i j * vec j) sum
  set1 vec i (sum / m i i)

/-- nimble_utils.h:1345-1372 `LU_Solve`. -/
def luSolve (n : ℕ) (m : ℕ → ℕ → K) (vec : ℕ → K) (index : ℕ → ℕ) : ℕ → K :=
  let vec := (List.range n).foldl (forwardStep m index) vec
  (List.range n).reverse.foldl (backStep n m) vec

/-- nimble_utils.h:1375-1387 `LU_SolveSystem`. -/
def luSolveSystem (n : ℕ) (tiny : K) (m : ℕ → ℕ → K) (vec : ℕ → K) (scratch : ℕ → ℕ) :
    Option (ℕ → K) :=
  (luDecompose n tiny m scratch).map fun (lu, index) => luSolve n lu vec index

end NimbleSM.LU
