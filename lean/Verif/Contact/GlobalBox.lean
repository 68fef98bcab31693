import Mathlib.Data.Real.Basic
import Mathlib.Algebra.BigOperators.Fin
import Mathlib.Data.Fintype.BigOperators
import Mathlib.Data.Fin.VecNotation

/-!
# The box around all contact nodes: `src/nimble_contact_manager.cc:1206-1264`

The kernel makes six atomic operations for each contact node; a schedule executes the operations of all nodes in some order.  `big` is the
largest floating-point number; arithmetic is exact.
-/

open scoped BigOperators

namespace NimbleSM.Contact

/-- An atomic operation of the kernel: entry of the box, and the coordinate.  Even entries take the minimum, odd ones the maximum
(nimble_contact_manager.cc:1234-1239). -/
abbrev BoxOp := Fin 6 × ℝ

/-- The operations of node `i` (nimble_contact_manager.cc:1229-1240). -/
def nodeBoxOps (coord : ℕ → ℝ) (i : ℕ) : List BoxOp :=
  let x := coord (3 * i)
  let y := coord (3 * i + 1)
  let z := coord (3 * i + 2)
  [(0, x), (1, x), (2, y), (3, y), (4, z), (5, z)]

/-- All operations of the kernel (nimble_contact_manager.cc:1226-1240); `size` is the extent of the coordinate array. -/
def allBoxOps (coord : ℕ → ℝ) (size : ℕ) : List BoxOp := (List.range (size / 3)).flatMap (nodeBoxOps coord)

/-- `atomic_min_fetch` or `atomic_max_fetch` on an entry. -/
noncomputable def BoxOp.run (box : Fin 6 → ℝ) (op : BoxOp) : Fin 6 → ℝ :=
  Function.update box op.1 (if op.1 = 0 ∨ op.1 = 2 ∨ op.1 = 4 then min (box op.1) op.2 else max (box op.1) op.2)

/-- The box before the kernel (nimble_contact_manager.cc:1213-1219). -/
def startBox (big : ℝ) : Fin 6 → ℝ := ![big, -1 * big, big, -1 * big, big, -1 * big]

/-- `ContactManager::BoundingBox` (nimble_contact_manager.cc:1206-1248) when the operations are executed in the order `ops`:
`x_min, x_max, y_min, y_max, z_min, z_max`. -/
noncomputable def boundingBoxOf (big : ℝ) (ops : List BoxOp) : Fin 6 → ℝ := ops.foldl BoxOp.run (startBox big)

/-- The longest edge (nimble_contact_manager.cc:1253-1257). -/
noncomputable def longestEdge (box : Fin 6 → ℝ) : ℝ :=
  let longest := box 1 - box 0
  let longest := if box 3 - box 2 > longest then box 3 - box 2 else longest
  if box 5 - box 4 > longest then box 5 - box 4 else longest

/-- `BoundingBoxAverageCharacteristicLengthOverAllRanks` (nimble_contact_manager.cc:1250-1264), with the boxes of all ranks. -/
noncomputable def averageLength {R : ℕ} (boxes : Fin R → Fin 6 → ℝ) : ℝ := (∑ r, longestEdge (boxes r)) / R

end NimbleSM.Contact
