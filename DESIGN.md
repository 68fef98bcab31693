# Formal model of NimbleSM in Lean 4 — design

Everything below is about the sources in `/repo/src` at the pinned commit. The model lives in
`lean/Verif/<Area>/Model.lean` (the code, function by function, each definition citing file and lines),
`lean/Verif/<Area>/Spec.lean` (small independent specifications, where one is needed) and
`lean/Verif/<Area>/Props.lean` (the theorems named in `MANIFEST.json`, with a non-vacuity `example` beside each).
Helper lemmas live in `lean/Verif/<Area>/Lemmas.lean`.

## Trusted base

* Lean 4.33.0's kernel; no axioms beyond `propext`, `Classical.choice`, `Quot.sound`. No compiled-evaluation tactics.
* The faithfulness of the hand-written model to the C++ text. Each definition cites what it models and states its
  simplifications.
* Modelling assumptions used everywhere:
  * `double` arithmetic is modelled by exact arithmetic in a field (ℝ, or any linearly ordered field). Rounding, NaN, Inf and
    overflow are not modelled. Theorems about sums (conservation, assembly, reductions) are therefore exact-arithmetic statements.
  * `int` is modelled by `Int`/`Nat`; overflow is not modelled unless a theorem says so explicitly.
  * Out-of-range reads/writes, unsigned wrap-around used as an index, exceptions and aborts are *distinct outcomes* in the model
    (`Outcome`/`Except`/`Option` results), never silently defaulted.
  * MPI collectives are modelled by their standard: an all-reduce over a communicator delivers, on every member, the entrywise sum
    of the members' buffers; gatherv/scatterv copy to/from the stated displacements; `MPI_Comm_split` groups by colour.
  * `std::` containers are modelled by their abstract contents (lists, finite maps as functions or association lists).

## Not modelled

Kokkos/Trilinos/ArborX/BVH/VT internals, Exodus/NetCDF file formats, timers/profiling, the command line library CLI11 (only its rules used by
`App/Driver.lean`), floating point
rounding, memory allocation failure, C++ template dispatch and compile-time errors.

## Per-property plan

| id | model | proof |
|----|-------|-------|
| C01 | `Mpi/Reduction`: id lists per rank → clique assignment → per-clique index lists sorted by global id → pack / all-reduce / unpack, with an arbitrary completion order | reduces to C02 + alignment of sorted index lists + disjointness of unpacks; induction over the completion order |
| C02 | `fill_clique_lookup` as nested folds over ranks and ids with the remap table and counter | invariant: after r ranks, equal clique ⇔ equal rank set restricted to the first r ranks; inner loop invariant mixes old/new cliques |
| C03 | root loop of `PackIDSpace` as a fold over all ids | invariant: lookup is injective onto 0..k-1 |
| C04 | two-pass scan of `GroupConsecutive` with indices | loop invariant; expand(groups) = prefix |
| C05 | inductive universe of shapes; `size`,`pack`,`unpack` | structural induction |
| C06 | displacement arithmetic + gatherv writes into a buffer of cells | buffer equality by induction on ranks |
| C07 | iterator arithmetic of `gather` | counterexample (false) + equal-lengths theorem `_partial` |
| C08 | count arithmetic of `pack_avoid_resize`/`sendpacked` | counterexample (false) + exact characterisation |
| C09 | `EnforceContact` + scatter into a force function | sum algebra, induction over interactions, permutation invariance |
| C10 | `Projection` over ℝ | field algebra |
| C11 | `SkinBlocks` face map fold | invariant on multiplicities |
| C12 | bit packing as arithmetic | `Nat` shift/or lemmas |
| C13 | abstract word buffer of doubles/ints by byte offset | induction over entities |
| C14 | `SetBoundingBox` | order reasoning |
| C15 | token stream model of the `>>` loops | induction over tokens |
| C16 | Crout loops with scaled partial pivoting over arrays as functions | loop invariant `P·A = L·U`; triangular solves by induction |
| C17 | same | kernel-evaluated counterexample |
| C18 | `AllocateNonzeros`, `FindIndex` with real loop bounds | sortedness invariant of the bisection |
| C19 | row loop | sum re-indexing |
| C20 | `SetRowValues`/`SetColumnValues` + BC loops | pointwise update lemmas |
| C21 | set-of-pairs construction | membership + sortedness |
| C22 | CG loop with fuel = iteration limit | invariant r = b − A x (bilinearity) |
| C23–C29 | hex element formulas over ℝ | algebra with Gauss-point tables; sums over nodes |
| C30,C31 | material formulas over ℝ | matrix algebra |
| C32 | tokens → map | induction |
| C33,C34 | strings as `List Char` | induction on digits |
| C35,C36 | field table state machine | invariant over histories |
| C37 | element data initialisation loop | counterexample + characterisation |
| C38 | getline/trim/substr model with exceptions | case analysis + counterexamples |
| C39 | file-name construction on `List Char` | digit injectivity |
| C40–C44 | BC application and explicit integrator as state transformer with abstract force law | induction over steps |
| C45 | scatter-add folds | sum over elements, permutation invariance |
| C46 | residual norm loop | counterexample + partial |
| C47–C50 | reader, parser, evaluator, optimiser | structural induction on the expression (C47, C48), on the derivation of a text in a grammar of conventional notation (C49), on the text (C50); counterexamples by kernel evaluation |
| C51–C53 | UQ loops | folds, index arithmetic |
| C54,C55 | tensor routines over ℝ vs Mathlib `Matrix (Fin 3) (Fin 3) ℝ`; C55 also with the code's rational approximation | entrywise algebra; Bernstein certificates for the residual of the approximation on [0,1]; backward error: the plane problem sees only the projections on the two pivot rows, so a symmetric perturbation with zero projections makes the approximate eigenvector exact |
| C56 | loop on chars | counterexample + characterisation |
| C57 | stride arithmetic | divmod bijection |
| C58–C60 | mesh maps | list/finite-map lemmas |
| C61 | `PartitionBoundary` of the clique structure | set lemmas |
| C62,C63 | block data offsets and output label selection | list lemmas, histories |
| C64 | tangent assembly into the sparse container | sum over elements, permutation invariance |
| C65 | CG success criterion | counterexamples by kernel evaluation + partial |
| C66 | distribution of elements over ranks with local numbering, composed with the C01 reduction | re-indexing of the sum over elements |
| C67 | minimum folds of `ComputeCriticalTimeStep` | fold-min lemma; counterexamples |
| C68 | explicit loop with the mesh force | moment identity of the element forces + Verlet identity |
| C69 | quasistatic load step with Newton, secant line search, constrained CG | CG invariant at decoupled unknowns; induction over iterations and steps |
| C70,C71,C72 | residual assembly, loop exits, state threading | sum lemmas; counterexample runs by kernel evaluation |
| C73 | `ParseKeyValue` folded over the pairs | generic "last value with the key" lemma, one case split over the 20 keys per member |
| C74 | block and material maps of the parser | map-insertion lemmas; refutation for equal numbers |
| C75 | functor object (tree + text) with assignment, copy, evaluation | induction over assignment histories |
| C76 | stream state and line reading of `ReadSamples` | induction over the sample lines; refutation for truncated files |
| C77 | UQ explicit loop with samples | simulation relation between the sample and a separate run, induction over steps; two refutation runs |
| C78, C79 | maps of the deck lines and nominal parameters | map-insertion lemmas, exact characterisation; refutations by kernel evaluation |
| C80 | UQ explicit loop | projection of the run with samples to the run without |
| C81, C82, C83 | serial ArborX force computation (same model as C09) | virtual-work identity of all touching pairs; derivative of the signed distance (envelope argument); sign of gap |
| C84 | `SkinBlocks`, `RemoveInternalSkinFaces` on all ranks, messages as buffers | counting of occurrences over ranks, marks as a fold |
| C85 | node tables of the skin and the triangle entities | linear map of the reference cube, finite check of the reference triangles inside the proof |
| C86 | ghost list from the clique reduction (C61) and `CreateContactEntities` | composition of C61 and C59; two-rank refutation |
| C87 | `BoundingBox`, `BoundingBoxCenter` over an ordered field | fold invariants |
| C88 | `ReadFile` against an abstract Exodus file | loop specifications; refutation for sets without factors |
| C89 | `InitializeDatabase` writing an abstract Exodus file, composed with `ReadFile` | composition; refutation for node set names |
| C90 | `InitializeDatabaseTextFile` and `ReadTextFile` on characters | every section of text consumed as written; pigeonhole for sixteen digits |
| C91 | views of the Kokkos model data in both layouts (same loop model as C57) | loop invariants; refutation for columns |
| C92 | `BoundaryCondition::Initialize` on characters (streams of C15, expression functor of C75), manager loop | specification of the words delivered by the stream; refutations |
| C93 | explicit integrator (model of C40) with tractions in the manager | projection: the loop over conditions ignores them |
| C94 | `Contact/Parallel.lean` (ArborX parallel manager), `Contact/Bvh.lean` (BVH manager); tree libraries specified | virtual work summed over ranks (`parallel_work`, `bvh_work`), unit velocities; permutation of rank-independent roles for the comparison with the serial manager; C01 for the reduction |
| C95 | `Kokkos/Schedule.lean` (all interleavings of threads), `Kokkos/Kernels.lean` (gather, kinematics, stress, divergence, mass kernels as thread bodies) | commuting accesses: every run equals the sequential one; grid writes; refinement to the serial assembly (C45) and to C66 |
| C96 | `Kokkos/Registry.lean` (allocation, ids, getters, views as shared storage) | refinement to a table from (place, label) to fields, by induction over histories |
| C97 | `Kokkos/Registry.lean` (`initializeBlocks`, `updateStates`) | as a history of registry calls; induction over blocks; negation for materials with state variables |
| C98 | `Kokkos/OutputFields.lean` (`ExodusOutputManager`) over the table of C96 | two-phase invariant: what the specification phase adds, what the computation phase fills; negation for nonexistent points |
| C99 | `Kokkos/Coherence.lean` (host and device copies, explicit loop with the default model data) | simulation by the one-memory integrator of C40, by induction over steps; negation for coordinates in separate memory |
| C100 | `App/Driver.lean` (`run`, `mainLoop`; the deck reader, mesh reader, set up and integrators are arbitrary outcomes) | case analysis over all outcomes; negation for help requests |
| C101 | `App/Driver.lean` (`cliParse`; CLI11 by stated rules) | case analysis over switches; negation for `--use_uq` |
| C102 | `App/Driver.lean` (`modelKind`, `quasistaticIntegrate`) | no outcome of `run` completes; negation |
| C103 | `App/Driver.lean` (`contactKind`, `baseContactForce` over `Contact/Entity.lean`) | case analysis; induction over the nodes |
| C104 | `Tensor/LogRot.lean` | Cayley-Hamilton for rotations, Rodrigues' formula from the exponential series; negations for half turns |
| C105 | `Fields/Derived.lean` (bookkeeping and element loop over `Assembly.gather`, `Hex.computeVolumeAverage`) | invariants of the two loops, induction over elements |
| C106 | `Mesh/ExodusSteps.lean` (variable part of the output database; Exodus as named arrays) | frame and recording invariant of `WriteStep`, induction over histories; negation for long names |
| C107 | `Contact/Closest.lean` (`ClosestPointProjection` and the simple variant, exact arithmetic) | foot of the perpendicular, one-dimensional minimum on each edge, and: a path from a point of the triangle to the foot crosses the boundary |
| C108 | `Contact/Visualization.lean` (mesh and steps of the visualization; ids in wrapped 32-bit arithmetic; the file is the one of C106) | fold invariants over faces and nodes; reading back through C106; refutation for large ids by evaluation |
| C109 | same file (`reportRun`: host and device flags, `contactInfo`) | invariant over the steps: host flags are those of the last visualization step; refutations from it |
| C110 | `Integrate/Explicit.lean` (existing); `Integrate/StabilityProps.lean` | discrete energy invariant by induction over steps (bilinear forms over a finite set of degrees of freedom); above the limit: amplitude recursion, growth by induction |
| C111 | existing element, material, assembly, time step and integrator models; `Integrate/CubeProps.lean` | false: run of one cube computed in closed form (Jacobian, force, mass), amplitude recursion of C110; reported step computed from the model |
| C112 | existing element, law and assembly models; `Element/FaceProps.lean`, `Assembly/PatchProps.lean` | Gauss sum of shape gradients = sum of face shares (integer table checked by the kernel for all 512 node triples, then algebra); shares cancel by the involution that exchanges the two sides of a face; for the literal of the code: the Gauss sums as polynomials in val², Lipschitz bound (`Element/QuadratureProps.lean`, `Assembly/PatchBoundProps.lean`) |
| C113 | same | volume is affine in each coordinate of a node with slope = area vector of the node; induction over the moved nodes |
| C114-C117 | existing element, law, mass, force, boundary condition and integrator models; `Assembly/TransformProps.lean`, `Assembly/TransformLawProps.lean`, `Integrate/SimilarityProps.lean`, `Integrate/InvarianceProps.lean` | two runs related by one similarity (units, axes, origin, drift, numbering); element forces and masses of the transformed mesh, then induction over the steps of both runs |
| C118 | same; `Integrate/CoastProps.lean` | translated mesh has F = 1 at all points, stress-free; induction over steps |
| C119 | same; `Assembly/ObjectiveProps.lean`, `Integrate/ObjectiveDemo.lean` | neo-Hookean: special case of the transformed mesh; elastic: false, the virtual work of the forces on the current positions is positive, since the trace of a rotation other than 1 is below 3 |
| C120 | same; `Assembly/EnergyProps.lean`, `Integrate/EnergyCubeProps.lean` | derivative of the energy of every element along a path (Mathlib calculus), summed over the mesh; elastic: false, the work along two paths between the same shapes of a cube differs |
| C121 | same; `Assembly/CornerProps.lean`, `Integrate/CornerRunProps.lean` | the 48 symmetries of the cube permute the shape functions and integration points of the element; element forces, masses, tangents and averages are re-indexed sums; lifted to the mesh and by induction to the run |
| C122 | same; `Assembly/MeshMapProps.lean`, `Integrate/SymmetryProps.lean`, `Integrate/SymmetryDemo.lean` | an isometry maps elements to elements, up to a symmetry of the reference cube (reflections reverse the listing); forces and masses of the image mesh; induction over the steps of both runs; with the identity of runs, symmetry of the solution |
| C123 | same; `Integrate/WorkProps.lean`, `Integrate/WorkDemo.lean` | per degree of freedom, one step of velocity Verlet changes `m v²/2 - dt²/8 m a²` by the trapezoidal work; summed over any set of degrees of freedom and telescoped by induction over the steps |
| C124 | `Contact/Interface.lean` (each call of `EnforceNodeFaceInteraction` as the list of its accesses to the shared entities and to the force vector; threads interleaved access by access); `Contact/InterfaceProps.lean`, `InterfaceRace.lean`, `InterfaceDemo.lean` | invariant over schedules: fields of calls in progress hold what the call stored, the force vector is the sum of the additions made; the race by an explicit schedule; area coordinates for the point of action |
| C125 | `Mpi/Tpetra.lean` (container on all ranks; import, export, one-to-one map with third-party semantics written out); `Mpi/TpetraProps.lean` | export replaces the owner's local entry before adding the remote ones, so the result does not depend on the previous contents; the maps are an invariant of any history; tie break by loop invariant |
| C126 | `Mpi/TpetraMatrix.lean`, `Mpi/TpetraMatrixProps.lean` | membership in nested insertion loops by induction; the count by cardinality of unions; the abort by case analysis |
| C127 | `Contact/GlobalBox.lean`, `Contact/GlobalBoxProps.lean` | each entry of the box is a fold of min or max over the values offered to it, which are the same for every permutation of the operations |
| C128 | `Integrate/HalfProps.lean`, `Integrate/HalfDemo.lean` | induction over steps; forces and masses of the full model are sums over the half and its image: off the plane one term vanishes, on the plane tangential terms double and normal ones cancel |
| C129 | `Element/RigidLemmas.lean`, `Element/RigidProps.lean` | a strain that vanishes at the eight Gauss points gives a rotation at each; columns of the Jacobian shared by neighbouring points make neighbouring rotations differ by a multiple of the column, and the loop conditions of trilinear fields with right-handed frames force these multiples to zero; then the displacement minus one rotation has zero gradient at all points, hence is constant |
| C130 | `Solver/LinearStep.lean`, `Solver/SupportedProps.lean` | energy of the assembled matrix = sum of element energies (C64); zero energy gives one rigid motion per element (C129), equal across shared faces; supports exclude it; imposing the conditions (C20) splits the quadratic form; then C22 |
| C131 | `Newton/NewtonLemmas`, `Newton/NewtonProps` | closed forms of elastic element forces and of the tangent product (adjugate of the Jacobian, Hooke's law); along a straight path the elastic stress is linear, so the force is `t` times a continuous function; assembly through `assembleTangent` and the numbering of the linear system; refutation by virtual work of the stretched cube turned by `t W x` |
| C132 | `Integrate/ConvergenceLemmas`, `ConvergenceProps`, `ConvergenceDemo` | Taylor with a bounded fourth derivative gives the local error; discrete Gronwall for the kick-drift-kick recursion of `Explicit.lean`, with the forces Lipschitz in a tube about the motion; the tube and the Lipschitz constant come from compactness of the time interval and continuity of the closed form of elastic element forces (as in C131); demo: guided cube and its harmonic motion |
| C133 | `Timing/Timing`, `TimingProps` | timers as a map of (start, total), regions as a stack; specification `expected` by a stack of entry times; induction over the calls; refutations for all times |
| C134 | `Timing/Timing`, `TimingProps` | the calls of one pass of the time loop and the accumulation of the totals; induction over the passes |
| C135 | `Timing/Timing`, `StampProps` | stamps as text; digits by induction on their number; the dates of `strftime` are a parameter with a satisfiable specification |
| C136 | `Kokkos/WorkArrays.lean`: handles and allocations of the gathered work arrays, both behaviours of `Kokkos::resize`, the three block loops on a heap | induction over the block loop: distinct handles refine the C95 model; iff for distinctness; refutation on two one-element blocks |
| C137 | `Integrate/NonFinite.lean`: the quasistatic loop, line search and residual norm on values that may be infinite or not a number (IEEE 754 comparisons and operations, finite part exact, unsigned zero); residual, linear solver and conditions arbitrary functions | induction over the Newton loop and the load steps; refutation by a one-node dead load |
| C138 | `Mpi/Wire.lean`: the set-up of the reduction on buffers - counts, displacements, `MPI_Gatherv`, partition into views, in-place remap, `MPI_Scatterv`, `ReductionInfo` from the received numbers; receiving functions; `GetMaximumNodeId` | induction over the ranks; refinement of the C01 model |
| C139 | `Mpi/Wire.lean`: `scatter` on the words of the vector objects | exact result for every object representation; refutation for every shape by changing the contents |
| C140 | `Mpi/Wire.lean`: `arrayview_t` as offset and count into an array, all constructors, partition, `sub`, `copy_from` | inductions; count of the pointer constructor by arithmetic on addresses |
| C141 | `Mesh/TextSteps.lean`: `WriteStepTextFile` over a stream with precision and lines; specification: a reader of the format | the lines written are computed in closed form (induction over values, names, blocks), and the reader is shown to recover them by induction over sections and steps; success from the lookups |
| C142 | `Solver/Crs.lean` (dense container), `Solver/DenseProps.lean`: all members of `MatrixContainer` | slot arithmetic (row-major places are distinct), inductions over the row and column loops |
| C143 | `Integrate/Progress.lean`: the report at the beginning of each pass of the time loop, with 32-bit `int` and rounded `double`s, around the step of `Integrate/Explicit.lean` | induction over the passes with the list printed so far (increasing, sound, complete); comparison with the ten tenths by sortedness |
| C144 | the models of C40-C44 and C46 (`Integrate/Explicit.lean`, `Integrate/Quasistatic.lean`), two runs side by side | bisimulation: equal but for velocities that the conditions overwrite; every degree of freedom is either left alone by the conditions or set independently of its old velocity (induction over the conditions) |
| C145 | the models of C22, C20, C46, C69 (`Integrate/Quasistatic.lean`, `Solver/Cg.lean`, `Solver/Tangent.lean`), for a force that is affine in the displacement | the trial residual is the linear solver's residual (held unknowns decouple); the constrained matrix is positive definite; norm comparison |
| C146 | as C145; two runs of the same problem | uniqueness from positive definiteness; every accepted step ends in equilibrium (C145 f) if the convergence test sees all unknowns; counterexample in three dimensions |
| C147 | `Integrate/Explicit`, `Bc/Kinematic`: the explicit run with its initial and kinematic conditions, three runs side by side | `SuperpositionProps`: the combination is an invariant of `setAt`, each condition, the list of conditions, the start and each step; induction over steps, outputs compared one by one; scaling and rest are the cases `(α, 0)` and `(0, 0)` |
| C148 | `App/Lifecycle`: `Run`, `InitializeSubsystems`, `FinalizeSubsystems`, destruction, over sequences of calls; deck reader and main loop are outcomes | `LifecycleProps`: a replay of the trace with a stack of running libraries; invariants `Good` and `Bad` over the calls; an exact characterisation and a refutation |
| C149 | as C148 with the contact interface | the list of interfaces seen equals the list due, by induction over the calls; count of MPI starts; counterexamples |
| C150 | `Contact/SinglePrecision`: the serial search with box corners rounded by a monotone function | monotonicity and the error bound on each face of the boxes; virtual work as in C09 over the rounded list of pairs; equality of the lists when no deep pair exists; counterexample with multiples of 2^-24 |
| C151 | three runs of `Integrate/Quasistatic` (model of C30) with combined prescribed displacements | one triple of conditions governs each held degree of freedom in all runs; an affine force that vanishes at rest is linear; the combination of equilibria is an equilibrium, and it is unique (C146); refutation in three dimensions, where one of the load cases is not seen by the convergence test |
| C152 | load steps of `Integrate/Quasistatic` for linear forces (as C146) | sums over nodes are sums over unknowns; the work of the internal forces is a symmetric bilinear form; completing the square at an equilibrium; reactions are the forces in equilibrium; refutations with the two-node case of C146 |
| C153 | load steps of `Integrate/Quasistatic` for linear forces, any linear solver outcome | the loop is left with a residual within the tolerance; coercivity and Cauchy-Schwarz bound the distance of near equilibria; refutation with the two-node case of C146 |
| C154 | load steps of `Integrate/Quasistatic` with any forces and element state | satisfied conditions rewrite the displacement with itself, the residual norm is 0, which is not above the tolerance, so the loop is left at once; induction on the steps |
| C155 | pairs of runs of `Integrate/Explicit` and of `Integrate/Quasistatic` | every function of a step depends on a condition only through its kind, node set, coordinate and value at the time of the step; induction on the steps |
| C156 | permutations of the conditions of `Bc/Kinematic`, runs of `Integrate/Explicit` | a degree of freedom gets what its only condition gives it; equality of one application, lifted to the run |
| C157 | pairs of runs of `Integrate/Explicit` and of `Integrate/Quasistatic` shifted in time | one step commutes with the shift, induction on the steps; refutation for the start of explicit runs |
