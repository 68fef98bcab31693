import Verif.Integrate.ExplicitProps
import Mathlib.Data.Rat.Floor

/-!
# The progress report of an explicit run: `src/integrators/explicit_time_integrator.cc:162, 177-186`

`rnd` is the rounding of the machine's `double`s.  `int` has 32 bits; `none` is undefined behaviour (overflow of
`10 * (step + 1)`).
-/

namespace NimbleSM.Integrate

variable {K S : Type*} [Field K] [LinearOrder K]

/-- Line 180: `static_cast<int>(100.0 * static_cast<double>(step + 1) / num_load_steps)`. -/
def percentOf (rnd : ℚ → ℚ) (n step : ℕ) : ℤ := ⌊rnd (rnd (100 * ((step + 1 : ℕ) : ℚ)) / n)⌋

/-- Lines 178-186: what rank 0 prints at the beginning of pass `step`. -/
def progressAt (rnd : ℚ → ℚ) (n step : ℕ) : Option (Option ℤ) :=
  if 2147483647 < 10 * (step + 1) then none
  else if 10 * (step + 1) % n = 0 ∧ step ≠ n - 1 then some (some (percentOf rnd n step))
  else if step = n - 1 then some (some 100)
  else some none

/-- A run with what it has printed so far: each percentage with the state of the run when it was printed. -/
structure Console (K S : Type*) where
  sim : Sim K S
  printed : List (ℤ × Sim K S)

/-- Lines 177-278: one pass of the loop on rank `rank`, with the report. -/
def consoleStep (rnd : ℚ → ℚ) (c : Config K) (p : Physics K S) (rank k : ℕ) (s : Console K S) : Option (Console K S) :=
  (if rank = 0 then progressAt rnd c.numSteps k else some none).bind fun line =>
    (step c p k s.sim).map fun s' =>
      { sim := s'
        printed := match line with
          | some x => s.printed ++ [(x, s.sim)]
          | none => s.printed }

/-- Lines 162-278: the report `0% complete` (rank 0) and the first `m` passes. -/
def consoleLoop (rnd : ℚ → ℚ) (c : Config K) (p : Physics K S) (rank m : ℕ) (s : Sim K S) : Option (Console K S) :=
  (List.range m).foldlM (fun s k => consoleStep rnd c p rank k s) ⟨s, if rank = 0 then [(0, s)] else []⟩

end NimbleSM.Integrate
