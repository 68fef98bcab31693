import Mathlib.Data.List.Basic
import Mathlib.Logic.Function.Basic

/-!
# Concurrent kernels: `Kokkos::parallel_for`

Every call `body(i)` of a `parallel_for` is a thread; a thread is the list of the accesses it makes to
shared memory, in program order.  The accesses of different threads interleave in any way.  `step a s` is
the memory after access `a`; one access is one indivisible step (for the `Kokkos::Atomic` views this is what
the memory trait provides; for plain writes it is that of an aligned `double`).
-/

namespace NimbleSM.Kokkos

/-- All executions of a set of threads (`kernels` below are `Kokkos::parallel_for`,
nimble_kokkos_model_data.cc:408, 437, 458, 494, 519, 1127, 1211, 1259, 1627, 1648, 1672, 1692): at every
moment some thread that is not finished makes its next access. -/
inductive Run {α S : Type*} (step : α → S → S) : List (List α) → S → S → Prop where
  | done {ts : List (List α)} {s : S} : (∀ t ∈ ts, t = []) → Run step ts s s
  | next {ts : List (List α)} {s s' : S} (i : ℕ) (a : α) (rest : List α) :
      ts[i]? = some (a :: rest) → Run step (ts.set i rest) (step a s) s' → Run step ts s s'

/-- A write `view(i) = x`. -/
def write {ι K : Type*} [DecidableEq ι] (a : ι × K) (v : ι → K) : ι → K := Function.update v a.1 a.2

/-- An atomic addition `view(i) += x` (`Field<...>::AtomicView`, nimble_kokkos_defs.h). -/
def atomicAdd {ι K : Type*} [DecidableEq ι] [Add K] (a : ι × K) (v : ι → K) : ι → K :=
  Function.update v a.1 (v a.1 + a.2)

/-- `Kokkos::parallel_for(n, body)`. -/
def ParallelFor {α S : Type*} (step : α → S → S) (n : ℕ) (body : ℕ → List α) (s s' : S) : Prop :=
  Run step ((List.range n).map body) s s'

/-- The two accesses of an addition that is *not* atomic, for the comparison with `atomicAdd`: thread `t`
loads entry `i` into its register; then it stores the register plus `x`. -/
inductive Plain (ι K : Type*) where
  | load (t : ℕ) (i : ι)
  | store (t : ℕ) (i : ι) (x : K)

/-- Effect of the accesses of `Plain` on memory and registers. -/
def plainStep {ι K : Type*} [DecidableEq ι] [Add K] (a : Plain ι K) (s : (ι → K) × (ℕ → K)) :
    (ι → K) × (ℕ → K) :=
  match a with
  | .load t i => (s.1, Function.update s.2 t (s.1 i))
  | .store t i x => (Function.update s.1 i (s.2 t + x), s.2)

end NimbleSM.Kokkos
