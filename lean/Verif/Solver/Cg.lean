import Verif.Solver.Crs
import Mathlib.Algebra.Order.Field.Basic

/-!
# The conjugate gradient solver of `src/nimble_linear_solver.cc`

Exact arithmetic.  A division by zero (which in C++ produces an infinity or a NaN that then spreads
through the vectors) is the separate outcome `nonFinite`.  Loops that update the entries `0 .. n-1` of a
vector independently of each other are written pointwise (`onRows`).
-/

namespace NimbleSM.Solver

variable {K : Type*} [Field K] [LinearOrder K]

/-- `for (i = 0; i < n; i++) target[i] = f(i)`. -/
def onRows (n : ℕ) (f target : ℕ → K) : ℕ → K := fun i => if i < n then f i else target i

/-- nimble_linear_solver.h:241-264: the scratch space; the vectors may hold anything. -/
structure CgScratch (K : Type*) where
  /-- `len_` -/
  len : ℕ
  /-- `d`, `r`, `s`, `q` -/
  d : ℕ → K
  r : ℕ → K
  s : ℕ → K
  q : ℕ → K
  /-- `M` -/
  M : Crs K

/-- nimble_linear_solver.h:243: a default-constructed scratch space. -/
def CgScratch.fresh : CgScratch K := ⟨0, fun _ => 0, fun _ => 0, fun _ => 0, fun _ => 0, Crs.empty⟩

/-- nimble_linear_solver.h:245-256, `Resize`.  The vectors' new entries are not tracked (they are
overwritten before use). -/
def CgScratch.resize (c : CgScratch K) (n : ℕ) : CgScratch K :=
  if n ≠ c.len then { c with len := n, M := c.M.allocateDiagonal n } else c

/-- The variables of the loop: `x`, `r`, `d`, `s`, `q`, `delta_new`. -/
structure CgState (K : Type*) where
  x : ℕ → K
  r : ℕ → K
  d : ℕ → K
  s : ℕ → K
  q : ℕ → K
  deltaNew : K

/-- The outcomes of `CG_SolveSystem`: it returns (success flag, `num_iterations`, `x`); or a division by
zero made values non-finite; or it threw / aborted. -/
inductive CgResult (K : Type*) where
  | returned (success : Bool) (iterations : ℕ) (x : ℕ → K)
  | nonFinite
  | rejected

/-- nimble_linear_solver.cc:194-227: the body of the loop in iteration `it`; outer `none` = abort of
`DiagonalMatrixMatVec`, inner `none` = division by zero (lines 198 and 222). -/
def cgStep (A M : Crs K) (b : ℕ → K) (it : ℕ) (st : CgState K) : Option (Option (CgState K)) :=
  let n := A.numRows
  let q := A.matVec st.d st.q
  let dq := innerProduct n st.d q
  if dq = 0 then some none
  else
    let alpha := st.deltaNew / dq
    let x := onRows n (fun i => st.x i + alpha * st.d i) st.x
    let q2 := if it % 50 = 0 then A.matVec x q else q
    let r := if it % 50 = 0 then onRows n (fun i => b i - q2 i) st.r
      else onRows n (fun i => st.r i - alpha * q i) st.r
    (M.diagMatVec r st.s).map fun s =>
      let deltaNew := innerProduct n r s
      if st.deltaNew = 0 then none
      else
        let beta := deltaNew / st.deltaNew
        some ⟨x, r, onRows n (fun i => s i + beta * st.d i) st.d, s, q2, deltaNew⟩

/-- nimble_linear_solver.cc:193-233: the loop and the return value.  `fuel` is
`max_iterations - iteration`. -/
def cgLoop (A M : Crs K) (b : ℕ → K) (tolerance : K) (maxIterations : ℤ) :
    ℕ → ℕ → CgState K → CgResult K
  | fuel, it, st =>
    if st.deltaNew > tolerance then
      match fuel with
      | 0 => .returned (decide ((it : ℤ) ≠ maxIterations)) it st.x
      | fuel + 1 =>
        match cgStep A M b it st with
        | none => .rejected
        | some none => .nonFinite
        | some (some st') => cgLoop A M b tolerance maxIterations fuel (it + 1) st'
    else .returned (decide ((it : ℤ) ≠ maxIterations)) it st.x

/-- nimble_linear_solver.cc:179-188: the state before the loop. -/
def cgInit (A M : Crs K) (b x : ℕ → K) (c : CgScratch K) : Option (CgState K) :=
  let q := A.matVec x c.q
  let r := onRows A.numRows (fun i => b i - q i) c.r
  (M.diagMatVec r c.d).map fun d => ⟨x, r, d, c.s, q, innerProduct A.numRows r d⟩

/-- nimble_linear_solver.cc:154-234, `CG_SolveSystem`. -/
def cgSolve (A : Crs K) (b : ℕ → K) (scratch : CgScratch K) (x : ℕ → K) (cgTol : K)
    (maxIterations : ℤ) : CgResult K :=
  let c := scratch.resize A.numRows
  match populatePreconditioner A c.M with
  | none => .rejected
  | some M =>
    match cgInit A M b x c with
    | none => .rejected
    | some st => cgLoop A M b (cgTol * st.deltaNew) maxIterations maxIterations.toNat 0 st

end NimbleSM.Solver
