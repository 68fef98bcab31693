import Verif.Expr.Expr
import Mathlib.Tactic.NormNum
import Mathlib.Algebra.Order.Ring.Rat
import Mathlib.Algebra.Order.Ring.Abs

/-!
# C48: optimising an expression does not change its value

For every expression tree, every assignment to the variables and every arithmetic (so in particular for
the doubles of the code, with all their rounding): no identity of exact arithmetic is used.
-/

namespace NimbleSM.Expr

variable {K : Type} (A : Arith K) (env : Var → K)

theorem optFn_eval (f : Fn) (a : Node K) : (optFn A f a).eval A env = A.fn f (a.eval A env) := by
  cases a <;> simp [optFn, Node.eval]

theorem optBin_eval (o : Op) (a b : Node K) :
    (optBin A o a b).eval A env = A.op o (a.eval A env) (b.eval A env) := by
  cases a <;> cases b <;> simp [optBin, Node.eval]

theorem optPowi_eval (n : ℤ) (a : Node K) :
    (optPowi A n a).eval A env = A.op .pow (a.eval A env) (A.ofInt n) := by
  cases a <;> simp [optPowi, Node.eval]

theorem optCmp_eval (o : Cmp) (a b : Node K) :
    (optCmp A o a b).eval A env = A.cmp o (a.eval A env) (b.eval A env) := by
  cases a <;> cases b <;> simp [optCmp, Node.eval, BNode.eval]

theorem optNot_eval (a : BNode K) : (optNot a).eval A env = !(a.eval A env) := by
  cases a <;> simp [optNot, BNode.eval]

theorem optBop_eval (o : BOp) (a b : BNode K) :
    (optBop o a b).eval A env = o.eval (a.eval A env) (b.eval A env) := by
  cases a <;> cases b <;> simp [optBop, BNode.eval]

theorem optCond_eval (c : BNode K) (a b : Node K) :
    (optCond c a b).eval A env = if c.eval A env then a.eval A env else b.eval A env := by
  cases c <;> simp only [optCond, Node.eval, BNode.eval]
  split <;> simp_all

mutual
/-- **C48.**  The optimised expression has the value of the expression. -/
theorem optimize_eval : ∀ n : Node K, (n.optimize A).eval A env = n.eval A env
  | .const _ => by simp [Node.optimize]
  | .ref _ => by simp [Node.optimize]
  | .fn f a => by simp [Node.optimize, optFn_eval, optimize_eval a, Node.eval]
  | .fnRef _ _ => by simp [Node.optimize]
  | .bin o a b => by simp [Node.optimize, optBin_eval, optimize_eval a, optimize_eval b, Node.eval]
  | .binRR _ _ _ => by simp [Node.optimize]
  | .binRE _ _ _ => by simp [Node.optimize]
  | .binER _ _ _ => by simp [Node.optimize]
  | .binCR _ _ _ => by simp [Node.optimize]
  | .binCE _ _ _ => by simp [Node.optimize]
  | .binRC _ _ _ => by simp [Node.optimize]
  | .binEC _ _ _ => by simp [Node.optimize]
  | .powi a n => by simp [Node.optimize, optPowi_eval, optimize_eval a, Node.eval]
  | .powiR _ _ => by simp [Node.optimize]
  | .powiE _ _ => by simp [Node.optimize]
  | .cond c a b => by
    simp [Node.optimize, optCond_eval, optimize_eval a, optimize_eval b, optimizeB_eval c, Node.eval]
/-- **C48**, for truth values. -/
theorem optimizeB_eval : ∀ n : BNode K, (n.optimize A).eval A env = n.eval A env
  | .const _ => by simp [BNode.optimize]
  | .not a => by simp [BNode.optimize, optNot_eval, optimizeB_eval a, BNode.eval]
  | .cmp o a b => by simp [BNode.optimize, optCmp_eval, optimize_eval a, optimize_eval b, BNode.eval]
  | .cmpRR _ _ _ => by simp [BNode.optimize]
  | .cmpRE _ _ _ => by simp [BNode.optimize]
  | .cmpER _ _ _ => by simp [BNode.optimize]
  | .cmpCR _ _ _ => by simp [BNode.optimize]
  | .cmpCE _ _ _ => by simp [BNode.optimize]
  | .cmpRC _ _ _ => by simp [BNode.optimize]
  | .cmpEC _ _ _ => by simp [BNode.optimize]
  | .bop o a b => by simp [BNode.optimize, optBop_eval, optimizeB_eval a, optimizeB_eval b, BNode.eval]
  | .bopC1 _ _ _ => by simp [BNode.optimize]
  | .bopC2 _ _ _ => by simp [BNode.optimize]
end

/-- **C48**, as the user sees it: a functor made from a text evaluates to the value of the expression the
text was parsed to. -/
theorem functor_eval (s : Str) (f : Functor K) (h : Functor.ofText A s = .ok f) (hs : s ≠ []) :
    ∃ n, parse A s = .ok n ∧ ∀ x y z t, f.eval A x y z t = some (n.eval A (values x y z t)) := by
  unfold Functor.ofText at h
  rw [if_neg hs] at h
  cases hp : parse A s with
  | error e => rw [hp] at h; cases h
  | ok n =>
    rw [hp] at h
    simp only [Except.bind, Except.ok.injEq] at h
    subst h
    exact ⟨n, rfl, fun x y z t => by
      simp only [Functor.eval, Option.map_some, optimize_eval]⟩

/-- Exact rational arithmetic with uninterpreted functions set to zero, for the examples. -/
def demo : Arith ℚ where
  ofRat := id
  e := 3
  pi := 3
  tau := 6
  ofInt := fun n => n
  fn := fun f v => match f with
    | .neg => -v
    | .abs => |v|
    | _ => 0
  op := fun o a b => match o with
    | .add => a + b
    | .sub => a - b
    | .mul => a * b
    | .div => a / b
    | .pow => a ^ b.num
    | .mod => 0
  cmp := fun c a b => match c with
    | .gt => decide (a > b)
    | .ge => decide (a ≥ b)
    | .lt => decide (a < b)
    | .le => decide (a ≤ b)
    | .eq => decide (a = b)

/-- An expression on which the optimiser folds, specialises and removes a branch. -/
def demoNode : Node ℚ :=
  .cond (.cmp .lt (.const 1) (.const 2)) (.bin .mul (.bin .add (.const 2) (.const 3)) (.ref .x)) (.ref .y)

example : demoNode.optimize demo = .binCR .mul 5 .x := by
  simp [demoNode, Node.optimize, BNode.optimize, optCmp, optBin, optCond, demo]
  norm_num

example : demoNode.eval demo (fun _ => 7) = 35 := by
  simp [demoNode, Node.eval, BNode.eval, demo]; norm_num

example : (parse demo "2 + 3 * x".toList).toOption.isSome = true := by decide +kernel

end NimbleSM.Expr
