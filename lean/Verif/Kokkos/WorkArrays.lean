import Verif.Kokkos.Kernels

/-!
# The work arrays of the blocks as handles on device allocations

`Verif.Kokkos.Kernels` gives each block its own work arrays.  Here the arrays `gathered_*_d` are what they
are in the code: `std::vector`s of `Kokkos::View` handles, whose copies share one allocation.
-/

namespace NimbleSM.Kokkos

variable {K : Type*} [Field K] [LinearOrder K]

/-- What `Kokkos::resize(view, n)` does when `view` already has the extent `n`.  This is a
library function outside the repository, which names no release of Kokkos; both behaviours are therefore
modelled.  Older releases compare all extents, those fixed by the type included, with the arguments given, so
that for the views used here (one run-time extent, two fixed ones) they always make a new allocation; recent
ones compare the run-time extents only and leave the handle as it is. -/
inductive ResizeRule
  | always
  | whenDifferent
  deriving DecidableEq

/-- Kokkos::resize of a handle `old` with extent `extent` to `n`; `next` is the next unused allocation. -/
def resizeView (rule : ResizeRule) (old extent n next : ℕ) : ℕ × ℕ :=
  if rule = .whenDifferent ∧ n = extent then (old, next) else (next, next + 1)

/-- nimble_kokkos_model_data.cc:1055-1065: the loop over the blocks, with the numbers of elements; every
entry of the vector is still the handle `shared`, of extent 1. -/
def resizeLoop (rule : ResizeRule) (shared : ℕ) : ℕ → List ℕ → List ℕ
  | _, [] => []
  | next, n :: ns =>
    let r := resizeView rule shared 1 n next
    r.1 :: resizeLoop rule shared r.2 ns

/-- nimble_kokkos_model_data.cc:1043-1066 `InitializeGatheredVectors`, for one of the four vectors:
`resize(num_blocks, View("...", 1))` makes allocation 0 and copies its handle into every entry (1048-1053);
then each entry is resized.  The result is the allocation of each block.  The other three vectors have
allocations of their own, in the same pattern.  `numElems` is in the order of `blocks_`, whose length is
`GetNumBlocks` (EmplaceBlocks, lines 931-983). -/
def initializeGatheredVector (rule : ResizeRule) (numElems : List ℕ) : List ℕ := resizeLoop rule 0 1 numElems

/-- Device memory of the three vectors of work arrays that the internal force uses: contents by
allocation. -/
structure Heap (K : Type*) where
  gX : ℕ → ElemView K
  gU : ℕ → ElemView K
  gF : ℕ → ElemView K

/-- The fields `deformation_gradient` and `stress` of a block; these are allocated block by block. -/
structure BlockFields (K : Type*) where
  F : ElemView K
  stress : ElemView K

/-- What a block sees through its handles (`gathered_..._d.at(block_index)`, lines 1191-1193, 1249-1253). -/
def Heap.work (H : Heap K) (h : ℕ) (fs : BlockFields K) : Work K := ⟨H.gX h, H.gU h, H.gF h, fs.F, fs.stress⟩

/-- Device memory after the kernels of a block have left `w` in its arrays. -/
def Heap.store (H : Heap K) (h : ℕ) (w : Work K) : Heap K :=
  ⟨Function.update H.gX h w.gX, Function.update H.gU h w.gU, Function.update H.gF h w.gF⟩

/-- One of the loops over the blocks (lines 1180-1227, 1229-1233, 1238-1280): each block has its handle. -/
inductive BlockLoop (step : KBlk K → Work K → Work K → NodeView K → NodeView K → Prop) :
    List (KBlk K) → List ℕ → List (BlockFields K) → Heap K → NodeView K →
    List (BlockFields K) → Heap K → NodeView K → Prop
  | nil {H f} : BlockLoop step [] [] [] H f [] H f
  | cons {b bs h hs fs fss fss' H H'' f f' f'' w'} :
      step b (H.work h fs) w' f f' → BlockLoop step bs hs fss (H.store h w') f' fss' H'' f'' →
      BlockLoop step (b :: bs) (h :: hs) (fs :: fss) H f (⟨w'.F, w'.stress⟩ :: fss') H'' f''

/-- nimble_kokkos_model_data.cc:1155-1286 `ComputeInternalForce` up to the parallel reduction, on the handles
`hs`: kinematics of all blocks, stresses of all blocks, then nodal forces of all blocks. -/
def SharedInternalForce (val : K) (X u : NodeView K) (bs : List (KBlk K)) (hs : List ℕ)
    (fs : List (BlockFields K)) (H : Heap K) (force' : NodeView K) : Prop :=
  ∃ fs1 fs2 fs3 H1 H2 H3,
    BlockLoop (fun b w w' f f' => Kinematics val X u b w w' ∧ f' = f) bs hs fs H (fun _ => 0) fs1 H1 (fun _ => 0) ∧
    BlockLoop (fun b w w' f f' => Stress b w w' ∧ f' = f) bs hs fs1 H1 (fun _ => 0) fs2 H2 (fun _ => 0) ∧
    BlockLoop (fun b w w' f f' => Divergence val b w w' f f') bs hs fs2 H2 (fun _ => 0) fs3 H3 force'

end NimbleSM.Kokkos
