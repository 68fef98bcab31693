import Mathlib.Algebra.Order.Field.Basic
import Mathlib.Algebra.BigOperators.Group.List.Basic

/-!
# Timers: `src/nimble_timer.h`, `src/nimble_profiling_timer.h`, and the timing report of explicit runs

A reading of `std::chrono::high_resolution_clock::now()` is an argument: the clock is external.  Times and durations
are numbers of an ordered field (exact arithmetic).  A `time_point` that has never been assigned is the epoch, 0.
-/

namespace NimbleSM.Timing

variable {K : Type*} [Field K] [LinearOrder K]

/-! ## `nimble::TimeKeeper` and `nimble::Timer` -/

/-- nimble_timer.h:53-94 `TimeKeeper`: `start_time_` and `total_time_` (`end_time_` is only used inside `Stop`). -/
structure Keeper (K : Type*) where
  start : K
  total : K

/-- nimble_timer.h:56 the constructor. -/
def Keeper.fresh : Keeper K := ⟨0, 0⟩

/-- nimble_timer.h:67-71 `Start`. -/
def Keeper.begin (k : Keeper K) (now : K) : Keeper K := { k with start := now }

/-- nimble_timer.h:73-82 `Stop`. -/
def Keeper.stop (k : Keeper K) (now : K) : Keeper K :=
  let time_increment := if now > k.start then now - k.start else 0
  { k with total := k.total + time_increment }

/-- nimble_timer.h:96-148 `Timer::timers_`: a `std::map`; `operator[]` creates a fresh entry. -/
abbrev Timers (K : Type*) := String → Option (Keeper K)

/-- `timers_[name]` (nimble_timer.h:115, 122, 130): the entry, created if missing. -/
def Timers.entry (t : Timers K) (name : String) : Keeper K := (t name).getD .fresh

/-- The map after an assignment through the reference. -/
def Timers.put (t : Timers K) (name : String) (k : Keeper K) : Timers K :=
  fun n => if n = name then some k else t n

/-- nimble_timer.h:112-117 `Timer::Start`. -/
def Timers.begin (t : Timers K) (name : String) (now : K) : Timers K := t.put name ((t.entry name).begin now)

/-- nimble_timer.h:119-124 `Timer::Stop`. -/
def Timers.stop (t : Timers K) (name : String) (now : K) : Timers K := t.put name ((t.entry name).stop now)

/-- nimble_timer.h:126-135 `Timer::StopReport`: the returned number and the timers after it. -/
def Timers.stopReport (t : Timers K) (name : String) (now : K) : K × Timers K :=
  let k := t.entry name
  let r := 0 - k.total
  let k := k.stop now
  let r := r + k.total
  (r, t.put name k)

/-- nimble_timer.h:137-141 `ElapsedTime`; `none` = `std::out_of_range` of `at`. -/
def Timers.elapsed (t : Timers K) (name : String) : Option K := (t name).map Keeper.total

/-! ## `nimble::ProfilingTimer` -/

/-- Calls made on a `ProfilingTimer`, with the reading of the clock they make. -/
inductive Call (K : Type*) where
  /-- `push_region(name)` -/
  | push (name : String) (now : K)
  /-- `pop_region_and_report_time()` -/
  | pop (now : K)

/-- nimble_profiling_timer.h:59-104, build without Kokkos: `current_region_` (top first) and `n_timer_`. -/
structure Profiler (K : Type*) where
  regions : List String
  timers : Timers K

/-- nimble_profiling_timer.h:62-67 the constructor. -/
def Profiler.fresh : Profiler K := ⟨[], fun _ => none⟩

/-- nimble_profiling_timer.h:71-97, without Kokkos: one call; the reports so far are kept in order.  `none` = `top()` of
an empty stack. -/
def Profiler.call (p : Profiler K × List K) : Call K → Option (Profiler K × List K)
  | .push name now => some (⟨name :: p.1.regions, p.1.timers.begin name now⟩, p.2)
  | .pop now =>
    match p.1.regions with
    | [] => none
    | name :: rest =>
      let (t, timers) := p.1.timers.stopReport name now
      some (⟨rest, timers⟩, p.2 ++ [t])

/-- nimble_profiling_timer.h:59-104, build with Kokkos: `current_region_` and the one `Kokkos::Timer` (its last reset;
construction resets it). -/
structure KProfiler (K : Type*) where
  regions : List String
  reset : K

/-- nimble_profiling_timer.h:71-97, with Kokkos: one call. -/
def KProfiler.call (p : KProfiler K × List K) : Call K → Option (KProfiler K × List K)
  | .push name now => some (⟨name :: p.1.regions, now⟩, p.2)
  | .pop now =>
    let t := now - p.1.reset
    match p.1.regions with
    | [] => none
    | _ :: rest => some (⟨rest, p.1.reset⟩, p.2 ++ [t])

/-- The numbers returned by the `pop` calls of a history, build without Kokkos. -/
def reports (calls : List (Call K)) : Option (List K) :=
  (calls.foldlM Profiler.call (Profiler.fresh, [])).map (·.2)

/-- The same for the build with Kokkos; `t0` is the time of construction. -/
def reportsK (t0 : K) (calls : List (Call K)) : Option (List K) :=
  (calls.foldlM KProfiler.call (⟨[], t0⟩, [])).map (·.2)

/-! ## The timing data of `ExplicitTimeIntegrator::Integrate` -/

/-- explicit_time_integrator.cc:169-171, 279: the accumulated numbers. -/
structure Totals (K : Type*) where
  dynamics : K
  force : K
  contact : K
  exodusWrite : K
  vectorReduction : K
  simulation : K

/-- The readings of the clock at the ends of the regions of one pass of the time loop (explicit_time_integrator.cc:197-275):
each region is the pair of the readings of `push_region` and `pop_region_and_report_time`. -/
structure Pass (K : Type*) where
  dynamics1 : K × K
  bc1 : K × K
  dynamics2 : K × K
  bc2 : K × K
  force : K × K
  /-- lines 234-236, only with contact -/
  contact : Option (K × K)
  dynamics3 : K × K
  /-- lines 267-274, only on output steps -/
  output : Option (K × K)

/-- The calls on `watch_internal` during one pass (explicit_time_integrator.cc:197-275). -/
def Pass.calls (p : Pass K) : List (Call K) :=
  [.push "Time Integration Scheme" p.dynamics1.1, .pop p.dynamics1.2,
   .push "BC enforcement" p.bc1.1, .pop p.bc1.2,
   .push "Time Integration Scheme" p.dynamics2.1, .pop p.dynamics2.2,
   .push "BC enforcement" p.bc2.1, .pop p.bc2.2,
   .push "Force calculation" p.force.1, .pop p.force.2] ++
  (match p.contact with | some c => [.push "Contact" c.1, .pop c.2] | none => []) ++
  [.push "Time Integration Scheme" p.dynamics3.1, .pop p.dynamics3.2] ++
  (match p.output with | some o => [.push "Output" o.1, .pop o.2] | none => [])

/-- explicit_time_integrator.cc:202, 213, 230, 236, 264, 274: what is added to the totals, given the numbers reported during
the pass in order (`r`); the numbers of the "BC enforcement" regions are dropped (206, 217). -/
def Pass.add (p : Pass K) (r : List K) (t : Totals K) : Totals K :=
  let t := { t with dynamics := t.dynamics + r.getD 0 0 }
  let t := { t with dynamics := t.dynamics + r.getD 2 0 }
  let t := { t with force := t.force + r.getD 4 0 }
  let t := if p.contact.isSome then { t with contact := t.contact + r.getD 5 0 } else t
  let i := if p.contact.isSome then 6 else 5
  let t := { t with dynamics := t.dynamics + r.getD i 0 }
  if p.output.isSome then { t with exodusWrite := t.exodusWrite + r.getD (i + 1) 0 } else t

/-- explicit_time_integrator.cc:177-278, the timing part of the time loop, build without Kokkos: `watch_internal` and the
totals after the passes. -/
def timeLoop : List (Pass K) → Profiler K × Totals K → Option (Profiler K × Totals K)
  | [], s => some s
  | p :: ps, s =>
    (p.calls.foldlM Profiler.call (s.1, [])).bind fun (w, r) => timeLoop ps (w, p.add r s.2)

/-- explicit_time_integrator.cc:169-279: the timing data of a run: `begin` and `end` are the readings of `watch_simulation`
for the region "Time stepping loop" (172, 279). -/
def timingData (begin_ end_ : K) (passes : List (Pass K)) : Option (Totals K) :=
  let w : Profiler K := ⟨["Time stepping loop"], Timers.begin (fun _ => none) "Time stepping loop" begin_⟩
  (timeLoop passes (Profiler.fresh, ⟨0, 0, 0, 0, 0, 0⟩)).bind fun (_, t) =>
    (Profiler.call (w, []) (.pop end_)).map fun (_, r) => { t with simulation := r.getD 0 0 }

/-! ## Time stamps: `src/nimble.quanta.stopwatch.h` -/

/-- `'0' + d` for `0 ≤ d < 10`. -/
def digit (d : ℕ) : Char := Char.ofNat ('0'.toNat + d)

/-- nimble.quanta.stopwatch.h:117-137 `get_microsecond_timestamp`: `now` is the reading in nanoseconds since the epoch,
`date s` what `strftime` with "%Y.%m.%d.%H.%M.%S." and `localtime` give for the second `s` (never empty). -/
def microsecondStamp (date : ℕ → List Char) (now : ℕ) : List Char :=
  let duration_in_seconds := now / 1000000000
  let microseconds := (now - duration_in_seconds * 1000000000) / 1000
  date duration_in_seconds ++
    [digit (microseconds / 100000 % 10), digit (microseconds / 10000 % 10), digit (microseconds / 1000 % 10),
     digit (microseconds / 100 % 10), digit (microseconds / 10 % 10), digit (microseconds % 10)]

/-- nimble.quanta.stopwatch.h:138-158 `get_millisecond_timestamp`: the milliseconds come from a second reading `later` of
the clock (line 149); the format is "%Y.%m.%e.%H.%M.%S.". -/
def millisecondStamp (date : ℕ → List Char) (now later : ℕ) : List Char :=
  let duration_in_seconds := now / 1000000000
  let milliseconds := later / 1000000
  date duration_in_seconds ++
    [digit (milliseconds / 100 % 10), digit (milliseconds / 10 % 10), digit (milliseconds % 10)]

/-- nimble.quanta.stopwatch.h:93-116 `get_nanosecond_timestamp`. -/
def nanosecondStamp (date : ℕ → List Char) (now : ℕ) : List Char :=
  let duration_in_seconds := now / 1000000000
  let nanoseconds := now - duration_in_seconds * 1000000000
  date duration_in_seconds ++
    [digit (nanoseconds / 100000000 % 10), digit (nanoseconds / 10000000 % 10), digit (nanoseconds / 1000000 % 10),
     digit (nanoseconds / 100000 % 10), digit (nanoseconds / 10000 % 10), digit (nanoseconds / 1000 % 10),
     digit (nanoseconds / 100 % 10), digit (nanoseconds / 10 % 10), digit (nanoseconds % 10)]

/-- nimble_timing_utils.cc:79-84: the name of the timing file; `ranks` is the decimal text of the number of ranks. -/
def timingFileName (ranks stamp : List Char) : List Char :=
  ("nimble_timing_data_n".toList ++ ranks ++ ['_'] ++ stamp ++ ".log".toList).map fun c => if c = ' ' then '-' else c

end NimbleSM.Timing
