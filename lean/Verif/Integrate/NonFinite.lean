import Mathlib.Algebra.Order.Field.Basic
import Mathlib.Algebra.Order.Ring.Rat
import Mathlib.Data.List.Basic

/-!
# The quasistatic solver on numbers that need not be finite

`Verif.Integrate.Quasistatic` stops with the outcome `nonFinite` where the code divides by zero.  Here the
solution procedure of `src/integrators/quasistatic_time_integrator.cc` is run on values that may be infinite
or not a number, with the comparison rules of IEEE 754, to say what the code does then.  Finite values are
exact (no rounding, no overflow); zero has no sign.  The residual as a function of the displacement, the
linear solver and the boundary conditions are arbitrary functions.
-/

namespace NimbleSM.NonFinite

/-- A `double`: a finite value, an infinity or not a number. -/
inductive Fl (K : Type*) where
  | fin (x : K)
  | pinf
  | ninf
  | nan
  deriving DecidableEq

namespace Fl

variable {K : Type*} [Field K] [LinearOrder K]

/-- IEEE 754 negation. -/
def neg : Fl K → Fl K
  | fin x => fin (-x)
  | pinf => ninf
  | ninf => pinf
  | nan => nan

/-- IEEE 754 addition. -/
def add : Fl K → Fl K → Fl K
  | nan, _ => nan
  | _, nan => nan
  | fin x, fin y => fin (x + y)
  | pinf, ninf => nan
  | ninf, pinf => nan
  | pinf, _ => pinf
  | _, pinf => pinf
  | ninf, _ => ninf
  | _, ninf => ninf

def sub (a b : Fl K) : Fl K := add a (neg b)

/-- Infinity with the sign of `x`; not a number if `x` is zero (`0 * inf`, `0 / 0`). -/
def infOf (x : K) : Fl K := if 0 < x then pinf else if x < 0 then ninf else nan

/-- IEEE 754 multiplication. -/
def mul : Fl K → Fl K → Fl K
  | nan, _ => nan
  | _, nan => nan
  | fin x, fin y => fin (x * y)
  | fin x, pinf => infOf x
  | fin x, ninf => infOf (-x)
  | pinf, fin x => infOf x
  | ninf, fin x => infOf (-x)
  | pinf, pinf => pinf
  | pinf, ninf => ninf
  | ninf, pinf => ninf
  | ninf, ninf => pinf

/-- IEEE 754 division (zero divisors taken as positive zero). -/
def div : Fl K → Fl K → Fl K
  | nan, _ => nan
  | _, nan => nan
  | fin x, fin y => if y = 0 then infOf x else fin (x / y)
  | fin _, pinf => fin 0
  | fin _, ninf => fin 0
  | pinf, fin y => if y < 0 then ninf else pinf
  | ninf, fin y => if y < 0 then pinf else ninf
  | _, _ => nan

/-- `a < b`: false if one is not a number. -/
def lt : Fl K → Fl K → Bool
  | nan, _ => false
  | _, nan => false
  | fin x, fin y => decide (x < y)
  | ninf, ninf => false
  | ninf, _ => true
  | _, ninf => false
  | pinf, _ => false
  | fin _, pinf => true

/-- `std::abs`. -/
def abs : Fl K → Fl K
  | fin x => fin |x|
  | nan => nan
  | _ => pinf

/-- `std::sqrt`. -/
def sqrt (s : K → K) : Fl K → Fl K
  | fin x => if x < 0 then nan else fin (s x)
  | pinf => pinf
  | _ => nan

/-- `std::max(a, b)` is `(a < b) ? b : a`. -/
def max (a b : Fl K) : Fl K := if lt a b then b else a

end Fl

variable {K : Type*} [Field K] [LinearOrder K]

/-- A vector of `double`s. -/
abbrev Vec (K : Type*) := ℕ → Fl K

/-- nimble_linear_solver.cc `InnerProduct` of the first `n` entries. -/
def innerProduct (n : ℕ) (a b : Vec K) : Fl K :=
  (List.range n).foldl (fun acc i => acc.add ((a i).mul (b i))) (.fin 0)

/-- quasistatic_time_integrator.cc:97-108: the norm that decides about convergence; both parts run over the
number of *nodes* (see C46).  `s` is `std::sqrt` on finite values. -/
def residualNorm (s : K → K) (numNodes : ℕ) (r : Vec K) : Fl K :=
  let l2_norm := (innerProduct numNodes r r).sqrt s
  let infinity_norm := (List.range numNodes).foldl (fun m i => m.max (r i).abs) (.fin 0)
  l2_norm.add ((Fl.fin 20).mul infinity_norm)

/-- What a run depends on. -/
structure Problem (K : Type*) where
  numNodes : ℕ
  unknowns : ℕ
  sqrt : K → K
  /-- lines 77-96: internal force and constraints, as a function of the displacement -/
  resid : Vec K → Vec K
  /-- lines 271-310: assembly and CG; `none` if it reports failure -/
  solve : (displacement residual : Vec K) → Option (Vec K)
  /-- `ApplyKinematicConditions` at the given step (0: start) -/
  kinematic : ℕ → Vec K → Vec K
  /-- `NonlinearSolverRelativeTolerance` -/
  relTol : K
  /-- `NonlinearSolverMaxIterations` -/
  maxIter : ℤ
  numSteps : ℕ
  isOutputStep : ℕ → Bool

/-- `ComputeQuasistaticResidual`. -/
def Problem.norm (P : Problem K) (u : Vec K) : Fl K := residualNorm P.sqrt P.numNodes (P.resid u)

/-- The variables `displacement`, `residual_vector`, `residual`. -/
structure Iterate (K : Type*) where
  u : Vec K
  r : Vec K
  residual : Fl K

/-- lines 312-388: full step, secant line search, choice of the better one. -/
def lineSearch (P : Problem K) (x : Iterate K) (s : Vec K) : Iterate K :=
  let trial : Vec K := fun i => (x.u i).sub (s i)
  let trial_vector := P.resid trial
  let trial_residual := P.norm trial
  let sr := innerProduct P.unknowns s x.r
  let s_trial_r := innerProduct P.unknowns s trial_vector
  let alpha := ((Fl.fin (-1)).mul sr).div (s_trial_r.sub sr)
  let u : Vec K := fun i => (x.u i).sub (alpha.mul (s i))
  let residual := P.norm u
  if trial_residual.lt residual then ⟨trial, trial_vector, trial_residual⟩ else ⟨u, P.resid u, residual⟩

/-- lines 270-397: the `while` loop; `fuel` is `max_nonlinear_iterations - iteration`; `none`: CG failed. -/
def newtonLoop (P : Problem K) (tol : Fl K) : ℕ → ℕ → Iterate K → Option (Iterate K × ℕ)
  | 0, iteration, x => some (x, iteration)
  | fuel + 1, iteration, x =>
    if tol.lt x.residual then
      match P.solve x.u x.r with
      | none => none
      | some s => newtonLoop P tol fuel (iteration + 1) (lineSearch P x s)
    else some (x, iteration)

/-- lines 233-416: a load step from displacement `u`.  `none`: status 1.  Otherwise the displacement, the
tolerance and the final residual. -/
def loadStep (P : Problem K) (step : ℕ) (u : Vec K) : Option (Vec K × Fl K × Fl K) :=
  let u := P.kinematic (step + 1) u
  let tol := (Fl.fin P.relTol).mul (P.norm u)
  match newtonLoop P tol P.maxIter.toNat 0 ⟨u, P.resid u, P.norm u⟩ with
  | none => none
  | some (x, iteration) => if (iteration : ℤ) = P.maxIter then none else some (x.u, tol, x.residual)

/-- The loop over the load steps with the displacements written (lines 227, 233-416): `none` is status 1. -/
def runSteps (P : Problem K) : List ℕ → Vec K → List (Vec K) → Option (Vec K × List (Vec K))
  | [], u, out => some (u, out)
  | k :: ks, u, out =>
    match loadStep P k u with
    | none => none
    | some (u', _, _) => runSteps P ks u' (if P.isOutputStep k then out ++ [u'] else out)

/-- quasistatic_time_integrator.cc:121-421 `Integrate`: final displacement and displacements written, if the
status is 0. -/
def integrate (P : Problem K) : Option (Vec K × List (Vec K)) :=
  let u := P.kinematic 0 fun _ => .fin 0
  runSteps P (List.range P.numSteps) u [u]

end NimbleSM.NonFinite
