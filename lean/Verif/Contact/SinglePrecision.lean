import Verif.Contact.BoxProps

/-!
# The contact search in single precision: `src/contact/arborx_utils.h:68-118`

The corners of the boxes are handed to `ArborX::Point`, whose coordinates are of type `float`: they are rounded from
`double` to `float` by `r`.  The rest is as in `Verif/Contact/Entity.lean`.
-/

namespace NimbleSM.Contact

/-- contact/arborx_utils.h:82-92, 108-118: the boxes of ArborX, with their corners rounded, have a common point. -/
def roundedBoxesIntersect (r : ℝ → ℝ) (a b : Entity ℝ) : Prop :=
  ∀ d, r (a.boxMin d) ≤ r (b.boxMax d) ∧ r (b.boxMin d) ≤ r (a.boxMax d)

open Classical in
/-- The (node, face) pairs for which `bvh.query` invokes the callback (arborx_serial_contact_manager.cc:183-188). -/
noncomputable def queryPairsRounded (r : ℝ → ℝ) (m : Manager ℝ) : List (Entity ℝ × Entity ℝ) :=
  (m.nodes.flatMap fun n => m.faces.map fun f => (n, f)).filter fun p => decide (roundedBoxesIntersect r p.1 p.2)

/-- The additions of all callbacks, callback by callback. -/
noncomputable def allOpsRounded (r : ℝ → ℝ) (m : Manager ℝ) : Option (List (ℤ × ℝ)) :=
  ((queryPairsRounded r m).mapM fun p => callbackOps m.penalty p.1 p.2).map List.flatten

/-- `ArborXSerialContactManager::ComputeSerialContactForce` (arborx_serial_contact_manager.cc:149-195), as
`ContactForce`, with the rounded search. -/
def ContactForceRounded (r : ℝ → ℝ) (m : Manager ℝ) (disp : ℕ → Fin 3 → ℝ) (F : ℕ → Fin 3 → ℝ) : Prop :=
  0 < m.penalty ∧
  let m := applyDisplacements disp m
  ∃ ops all, allOpsRounded r m = some all ∧ ops.Perm all ∧ F = getForces m (runOps (fun _ => 0) ops) (fun _ => 0)

end NimbleSM.Contact
