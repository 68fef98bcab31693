import Verif.Bc.LineProps
import Verif.Integrate.Explicit
import Verif.Expr.OptimizeProps

/-!
# C93: prescribed tractions, and examples for C92
-/

namespace NimbleSM.Bc

open NimbleSM.Integrate
open NimbleSM.Parse
open NimbleSM.Fields (Str)

variable {K S : Type*} [Field K] [LinearOrder K]

/-- The same manager without its prescribed tractions. -/
def Manager.withoutTractions (m : Manager K) : Manager K := { m with bcs := m.bcs.filter fun bc => bc.type ≠ .prescribedTraction }

/-- The same run without prescribed tractions. -/
def withoutTractions (c : Config K) : Config K := { c with manager := c.manager.withoutTractions }

omit [Field K] [LinearOrder K] in
theorem foldl_filter_id {B T : Type*} (f : T → B → T) (p : B → Bool) (l : List B) (h : ∀ b ∈ l, p b = false → ∀ s, f s b = s) (s : T) :
    (l.filter p).foldl f s = l.foldl f s := by
  induction l generalizing s with
  | nil => rfl
  | cons b l ih =>
    have ih := fun s => ih (fun b hb => h b (List.mem_cons_of_mem _ hb)) s
    cases hp : p b with
    | true => rw [List.filter_cons_of_pos (by simpa using hp), List.foldl_cons, List.foldl_cons, ih]
    | false => rw [List.filter_cons_of_neg (by simp [hp]), List.foldl_cons, h b (by simp) hp, ih]

theorem kinematic_without (m : Manager K) (tc tp : K) (X : Nodal K) (s : Kin K) :
    applyKinematicBC m.withoutTractions tc tp X s = applyKinematicBC m tc tp X s := by
  unfold applyKinematicBC
  refine foldl_filter_id (kinematicBc m X tc (tc - tp)) _ m.bcs (fun b _ hb s => ?_) s
  have hb : b.type = .prescribedTraction := by simpa using hb
  unfold kinematicBc
  rw [if_neg (by rw [hb]; decide), if_neg (by rw [hb]; simp)]

omit [LinearOrder K] in
theorem initial_without (m : Manager K) (X v : Nodal K) (o : List (Nodal K)) :
    applyInitialConditions m.withoutTractions X v o = applyInitialConditions m X v o := by
  unfold applyInitialConditions
  refine foldl_filter_id (fun (st : Nodal K × List (Nodal K)) (bc : BoundaryCondition K) =>
    if bc.type = .initialVelocity then
      (m.nodeSet bc).foldl (fun (st : Nodal K × List (Nodal K)) n =>
        (setAt st.1 n bc.coordinate (m.value bc X n 0),
          st.2.map fun o => setAt o n bc.coordinate (m.value bc X n 0))) st
    else st) _ m.bcs (fun b _ hb s => ?_) _
  have hb : b.type = .prescribedTraction := by simpa using hb
  simp [hb]

/-- **C93, refutation.**  Prescribed tractions have no effect: every explicit run is exactly the run without them, whatever their magnitudes.  (No
integrator calls the function that would apply them, and its loops are empty: nimble_boundary_condition_manager.h:230-247.) -/
theorem traction_has_no_effect (c : Config K) (p : Physics K S) (s : S) (rank : ℕ) : integrate (withoutTractions c) p s rank = integrate c p s rank := by
  have hk : ∀ tc tp u v, kinematic (withoutTractions c) tc tp u v = kinematic c tc tp u v := by
    intro tc tp u v
    unfold kinematic
    show (let r := applyKinematicBC c.manager.withoutTractions tc tp c.X _; (r.displacement, r.velocity)) = _
    rw [kinematic_without]
  have hstep : ∀ k x, step (withoutTractions c) p k x = step c p k x := by
    intro k x
    unfold step
    simp only [hk]
    rfl
  have hstart : (start (withoutTractions c) s : Sim K S) = start c s := by
    have hi : ∀ v o, applyInitialConditions (withoutTractions c).manager (withoutTractions c).X v o = applyInitialConditions c.manager c.X v o :=
      fun v o => initial_without c.manager c.X v o
    unfold start
    simp only [hk, hi]
    rfl
  have hloop : ∀ n x, loop (withoutTractions c) p n x = loop c p n x := by
    intro n x
    unfold loop
    congr 1
    funext s k
    exact hstep k s
  unfold integrate
  rw [hloop, hstart]
  rfl

/-- Some run has prescribed tractions. -/
example : ((⟨fun _ => none, [⟨.prescribedTraction, -1, 0, .inl 5⟩], 3, .explicit⟩ : Manager ℚ).withoutTractions).bcs = [] := by decide

/-! ## Examples for C92 -/

section
open NimbleSM.Genesis (IMap)
open NimbleSM.Uq (Words words_split split)

def demoNames : IMap Str := [(1, "nodelist_1".toList), (2, "left".toList), (7, "left".toList)]

/-- What a result shows (functors have no decidable equality): members, number, text of the expression, `is_valid`. -/
structure Shown where
  type : BcType
  node : ℤ
  side : ℤ
  coordinate : ℕ
  number : Option ℚ
  text : Str
  valid : Bool
  deriving DecidableEq

def shows (r : Except LineErr (Line ℚ × Bool)) : Option Shown :=
  match r with
  | .error _ => none
  | .ok (l, v) => some ⟨l.type, l.nodeSetId, l.sideSetId, l.coordinate, l.magnitude.getLeft?, (l.magnitude.getRight?.map (·.equation)).getD [], v⟩

example : shows (initLine NimbleSM.Expr.demo "prescribed_displacement left  Y\t-2.5e-1 # moves".toList demoNames []) =
    some ⟨.prescribedDisplacement, 2, -1, 1, some (-1 / 4), [], true⟩ := by decide +kernel
example : shows (initLine NimbleSM.Expr.demo "prescribed_velocity nodelist_1 x \"2*t\"".toList demoNames []) =
    some ⟨.prescribedVelocity, 1, -1, 0, none, "2*t".toList, true⟩ := by decide +kernel
example : shows (initLine NimbleSM.Expr.demo "prescribed_velocity nodelist_3 x 1".toList demoNames []) =
    some ⟨.prescribedVelocity, -1, -1, 0, some (1), [], false⟩ := by decide +kernel
example : shows (initLine NimbleSM.Expr.demo "prescribed_velocity left z".toList demoNames []) =
    some ⟨.prescribedVelocity, 2, -1, 2, some (0), [], true⟩ := by decide +kernel
example : shows (initLine NimbleSM.Expr.demo "prescribed_velocity left z fast".toList demoNames []) =
    some ⟨.prescribedVelocity, 2, -1, 2, some (0), [], true⟩ := by decide +kernel
example : shows (initLine NimbleSM.Expr.demo "Prescribed_velocity left z 1".toList demoNames []) = none := by decide +kernel
example : shows (initLine NimbleSM.Expr.demo "prescribed_velocity left w 1".toList demoNames []) = none := by decide +kernel
example : shows (initLine NimbleSM.Expr.demo "prescribed_velocity left x \"1".toList demoNames []) = none := by decide +kernel
example : shows (initLine NimbleSM.Expr.demo "prescribed_velocity left x \"\"".toList demoNames []) = none := by decide +kernel

/-- The hypotheses of `bc_line_number` are met by the first line. -/
example : demoNames.Pairwise (fun a b => a.1 < b.1) ∧
    Words ["prescribed_displacement".toList, "left".toList, "Y".toList, (Lit.text ⟨some true, [2], some [5], some (false, some true, [1])⟩), "#".toList, "moves".toList]
      "prescribed_displacement left  Y\t-2.5e-1 # moves".toList := by
  refine ⟨by decide, ?_⟩
  have h := words_split "prescribed_displacement left  Y\t-2.5e-1 # moves".toList
  have hs : split "prescribed_displacement left  Y\t-2.5e-1 # moves".toList =
      ["prescribed_displacement".toList, "left".toList, "Y".toList, (Lit.text ⟨some true, [2], some [5], some (false, some true, [1])⟩), "#".toList, "moves".toList] := by
    decide +kernel
  rw [hs] at h
  exact h

end

end NimbleSM.Bc
