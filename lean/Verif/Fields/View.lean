import Mathlib.Algebra.Field.Basic
import Mathlib.Data.Int.Basic

/-!
# Views of nodal data: `Viewify<2>`, `Viewify<1>` and `AXPYResult` (src/nimble_view.h)

Memory is a function from addresses to numbers; a view is a pointer into it with lengths and strides, so views may overlap.  Numbers are
elements of a field.
-/

namespace NimbleSM.Views

/-- Memory. -/
abbrev Mem (K : Type) := ℤ → K

/-- `*p = v`. -/
def Mem.write {K : Type} (m : Mem K) (p : ℤ) (v : K) : Mem K := fun q => if q = p then v else m q

/-- `Viewify<2>`: `data_`, `len_`, `stride_` (nimble_view.h:148-151). -/
structure View2 where
  data : ℤ
  len0 : ℤ
  len1 : ℤ
  stride0 : ℤ
  stride1 : ℤ

/-- `Viewify<1>`. -/
structure View1 where
  data : ℤ
  len0 : ℤ
  stride0 : ℤ

/-- `operator()(i, j)` (nimble_view.h:98-110): the address. -/
def View2.addr (v : View2) (i j : ℤ) : ℤ := v.data + (i * v.stride0 + j * v.stride1)

/-- `operator()(i)` (nimble_view.h:84-96): the stride is not used. -/
def View1.addr (v : View1) (i : ℤ) : ℤ := v.data + i

section
variable {K : Type} [Field K]

/-- `for (ii = 0; ii < n; ++ii) data[ii] = f(data[ii], rhs[ii])`: the loops of nimble_view.h, turn by turn, on memory. -/
def loop (f : K → K → K) (data rhs : ℤ) : ℕ → Mem K → Mem K
  | 0, m => m
  | n + 1, m =>
    let m := loop f data rhs n m
    m.write (data + n) (f (m (data + n)) (m (rhs + n)))

/-- The number of turns: `stride_[0] * len_[0]` (nimble_view.h:115, 122, 189). -/
def View2.turns (v : View2) : ℕ := (v.stride0 * v.len0).toNat

/-- The same for `Viewify<1>`. -/
def View1.turns (v : View1) : ℕ := (v.stride0 * v.len0).toNat

/-- `zero()` (nimble_view.h:112-117). -/
def View2.zero (v : View2) (m : Mem K) : Mem K := loop (fun _ _ => 0) v.data v.data v.turns m

/-- `zero()` for `Viewify<1>`. -/
def View1.zero (v : View1) (m : Mem K) : Mem K := loop (fun _ _ => 0) v.data v.data v.turns m

/-- `copy(ref)` (nimble_view.h:119-124). -/
def View2.copy (v ref : View2) (m : Mem K) : Mem K := loop (fun _ r => r) v.data ref.data v.turns m

/-- `AXPYResult(A, alpha).assignTo(destCoef, rhsCoef, dest)` (nimble_view.h:180-204). -/
def View2.assignTo [DecidableEq K] (A : View2) (alpha destCoef rhsCoef : K) (dest : View2) (m : Mem K) : Mem K :=
  let prod := alpha * rhsCoef
  if destCoef = 1 then loop (fun d r => d + prod * r) dest.data A.data dest.turns m
  else if destCoef = 0 then loop (fun _ r => prod * r) dest.data A.data dest.turns m
  else loop (fun d r => destCoef * d + prod * r) dest.data A.data dest.turns m

/-- `dest += alpha * A` (nimble_view.h:210-224). -/
def View2.axpy [DecidableEq K] (dest : View2) (alpha : K) (A : View2) (m : Mem K) : Mem K := A.assignTo alpha 1 1 dest m

end

/-- `ModelData::GetVectorNodeData` (nimble_model_data.cc:540-546) for a field vector of `size` numbers at `p`. -/
def getVectorNodeData (p : ℤ) (size : ℕ) : View2 := ⟨p, Int.tdiv size 3, 3, 3, 1⟩

/-- `ModelData::GetScalarNodeData` (nimble_model_data.cc:532-538). -/
def getScalarNodeData (p : ℤ) (size : ℕ) : View1 := ⟨p, size, 1⟩

/-- How Kokkos stores an array with `n` rows of three numbers: by rows (`LayoutRight`, host builds) or by columns (`LayoutLeft`, the
layout of CUDA devices, which `kokkos_layout`, nimble_kokkos_defs.h:87, gives to host views too). -/
inductive Layout where
  | right
  | left

/-- `GetVectorNodeData` of the Kokkos model data (nimble_kokkos_model_data.cc:1032-1041), without padding. -/
def kokkosVectorNodeData (l : Layout) (p : ℤ) (n : ℕ) : View2 :=
  match l with
  | .right => ⟨p, n, 3, 3, 1⟩
  | .left => ⟨p, n, 3, 1, n⟩

end NimbleSM.Views
