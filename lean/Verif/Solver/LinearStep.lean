import Verif.Solver.Tangent
import Verif.Solver.Cg

/-!
# One linear solve of the quasi-static integrator

`src/integrators/quasistatic_time_integrator.cc` lines 270-311: zero the matrix, assemble, choose the
diagonal entry for constrained degrees of freedom, impose the conditions, solve.
-/

namespace NimbleSM.Solver

open NimbleSM.Bc

variable {K : Type*} [Field K] [LinearOrder K]

/-- quasistatic_time_integrator.cc:289-290: the running sum of `std::abs(tangent_stiffness(i, i))`; `none`
when the access throws. -/
def sumAbsDiagonal (A : Crs K) : ℕ → Option K
  | 0 => some 0
  | n + 1 => (sumAbsDiagonal A n).bind fun s => (A.at? n n).map fun w => s + |w|

/-- quasistatic_time_integrator.cc:289-291: `diagonal_entry`. -/
def diagonalEntry (A : Crs K) (n : ℕ) : Option K := (sumAbsDiagonal A n).map (· / (n : K))

/-- quasistatic_time_integrator.cc:270-304: `S` is the matrix container as the previous iteration left it,
`elems` the elements of all blocks with their tangents, `residual` the residual vector; the initial guess
is zero (line 301).  Anything that throws or leaves an array is `rejected`.  The line search and the
update of the displacement (lines 311-380) are not part of this function. -/
def linearStep (sets : NodeSets) (ids : List ℕ) (bcs : List (BoundaryCondition K))
    (elems : List (List ℕ × (ℕ → ℕ → K))) (S : Crs K) (residual : ℕ → K) (scratch : CgScratch K)
    (cgTol : K) (maxIterations : ℤ) : CgResult K :=
  match assembleTangent ids 3 elems (S.setAllValues 0) with
  | none => .rejected
  | some A =>
    match (diagonalEntry A (ids.length * 3)).bind fun dg => modifyTangent sets ids 3 dg bcs A with
    | none => .rejected
    | some D =>
      match modifyRhs sets ids 3 bcs residual with
      | none => .rejected
      | some rhs => cgSolve D rhs scratch (fun _ => 0) cgTol maxIterations

end NimbleSM.Solver
