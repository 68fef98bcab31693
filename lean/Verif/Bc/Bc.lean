import Mathlib.Algebra.Field.Basic
import Mathlib.Data.List.Basic

/-!
# Boundary conditions: the data of `src/nimble_boundary_condition.h`

The data members that the time integrators use.  A magnitude given by an expression is an arbitrary
function of `(x, y, z, t)` here (what the expression language computes is the subject of the expression
parser's own model).
-/

namespace NimbleSM.Bc

/-- nimble_boundary_condition.h:62-69, `Boundary_Condition_Type`. -/
inductive BcType where
  | undefined
  | initialVelocity
  | prescribedVelocity
  | prescribedDisplacement
  | prescribedTraction
  deriving DecidableEq, Repr

/-- nimble_boundary_condition.h:95-105, the members of `BoundaryCondition` used after `Initialize`.
`magnitude = .inl c` is `has_expression_ == false`, `.inr f` is an expression of `(x,y,z,t)`. -/
structure BoundaryCondition (K : Type*) where
  /-- `bc_type_` -/
  type : BcType
  /-- `node_set_id_`, -1 when the condition is not on a node set -/
  nodeSetId : ℤ
  /-- `coordinate_` -/
  coordinate : ℕ
  /-- `magnitude_` or `expression_` -/
  magnitude : K ⊕ (K → K → K → K → K)

/-- nimble_boundary_condition_manager.cc:93-94: the conditions that constrain a degree of freedom. -/
def BoundaryCondition.isKinematic {K : Type*} (bc : BoundaryCondition K) : Bool :=
  bc.type = .prescribedDisplacement ∨ bc.type = .prescribedVelocity

/-- `std::map<int, std::vector<int>> node_sets_`: a finite map from set ids to node lists. -/
abbrev NodeSets := ℤ → Option (List ℕ)

end NimbleSM.Bc
