import Verif.Expr.OptimizeProps

/-!
# C75: boundary-condition functors can be assigned, copied and reassigned

For every history of constructions, assignments, copies and copy assignments (failed ones included) a
functor holds the last text that could be parsed and evaluates as a functor newly made from that text.
-/

namespace NimbleSM.Expr

variable {K : Type} (A : Arith K)

/-- The functors that can exist. -/
inductive Reachable : Functor K → Prop
  | default : Reachable ⟨none, []⟩
  | ofText (s : Str) (f : Functor K) : Functor.ofText A s = .ok f → Reachable f
  | copy (g f : Functor K) : Reachable g → g.copy A = .ok f → Reachable f
  | assign (f : Functor K) (s : Str) : Reachable f → Reachable (f.assign A s).1
  | copyAssign (f g : Functor K) : Reachable f → Reachable g → Reachable (f.copyAssign A g).1

/-- The empty text cannot be parsed. -/
theorem parse_nil : parse A [] = .error .invalid := by
  simp [parse, parseEquation, equationBody, toLower, format, Except.bind]

/-- A functor made from a text holds the text. -/
theorem ofText_equation (s : Str) (f : Functor K) (h : Functor.ofText A s = .ok f) : f.equation = s := by
  unfold Functor.ofText at h
  split at h
  · next hs => simp only [Except.ok.injEq] at h; subst h; exact hs.symm
  · cases hp : parse A s with
    | error e => rw [hp] at h; cases h
    | ok n => rw [hp] at h; simp only [Except.bind, Except.ok.injEq] at h; subst h; rfl

/-- A successful assignment makes the functor that construction from the text makes. -/
theorem assign_ok (f : Functor K) (s : Str) (h : (f.assign A s).2 = none) :
    Functor.ofText A s = .ok (f.assign A s).1 := by
  unfold Functor.assign at h ⊢
  cases hp : parse A s with
  | error e => rw [hp] at h; cases h
  | ok n =>
    have hs : s ≠ [] := by
      rintro rfl
      rw [parse_nil] at hp
      cases hp
    simp [Functor.ofText, hs, hp, Except.bind]

/-- **C75.**  An assignment that throws leaves the functor as it was. -/
theorem assign_throw_unchanged (f : Functor K) (s : Str) (e : Err) (h : (f.assign A s).2 = some e) :
    (f.assign A s).1 = f := by
  unfold Functor.assign at h ⊢
  cases hp : parse A s with
  | error e => rfl
  | ok n => rw [hp] at h; cases h

/-- Every functor is what construction from its text gives. -/
theorem reachable_ofText (f : Functor K) (h : Reachable A f) : Functor.ofText A f.equation = .ok f := by
  have key : ∀ (f : Functor K) (s : Str), Functor.ofText A f.equation = .ok f →
      Functor.ofText A (f.assign A s).1.equation = .ok (f.assign A s).1 := by
    intro f s hf
    cases he : (f.assign A s).2 with
    | none =>
      have := assign_ok A f s he
      rw [ofText_equation A s _ this]
      exact this
    | some e => rw [assign_throw_unchanged A f s e he]; exact hf
  induction h with
  | default => simp [Functor.ofText]
  | ofText s f h => rw [ofText_equation A s f h]; exact h
  | copy g f _ hc ih => rw [Functor.copy, ih] at hc; cases hc; exact ih
  | assign f s _ ih => exact key f s ih
  | copyAssign f g _ _ ih _ => exact key f _ ih

/-- **C75.**  Copying a functor never throws, and the copy evaluates as the original everywhere. -/
theorem copy_eval (f : Functor K) (h : Reachable A f) :
    ∃ g, f.copy A = .ok g ∧ g.equation = f.equation ∧ ∀ x y z t, g.eval A x y z t = f.eval A x y z t :=
  ⟨f, reachable_ofText A f h, rfl, fun _ _ _ _ => rfl⟩

/-- **C75.**  Copy assignment from a functor that has an expression never throws and makes the target
evaluate as the source everywhere. -/
theorem copyAssign_eval (f g : Functor K) (hg : Reachable A g) (hne : g.equation ≠ []) :
    (f.copyAssign A g).2 = none ∧ ∀ x y z t, (f.copyAssign A g).1.eval A x y z t = g.eval A x y z t := by
  have h := reachable_ofText A g hg
  unfold Functor.ofText at h
  rw [if_neg hne] at h
  unfold Functor.copyAssign Functor.assign
  cases hp : parse A g.equation with
  | error e => rw [hp] at h; cases h
  | ok n =>
    rw [hp] at h
    simp only [Except.bind, Except.ok.injEq] at h
    refine ⟨rfl, fun x y z t => ?_⟩
    rw [← h]

/-- **C75** (violated for empty functors): copy assignment from a default-constructed functor throws and
the target keeps its expression, although copy construction from it succeeds. -/
theorem copyAssign_default_throws (f : Functor K) :
    (f.copyAssign A ⟨none, []⟩).2 = some .invalid ∧ (f.copyAssign A ⟨none, []⟩).1 = f ∧
      Functor.copy A (⟨none, []⟩ : Functor K) = .ok ⟨none, []⟩ := by
  simp [Functor.copyAssign, Functor.assign, parse_nil, Functor.copy, Functor.ofText]

/-- The texts given to a functor one after the other (exceptions caught by the caller). -/
def assignAll (f : Functor K) (texts : List Str) : Functor K := texts.foldl (fun f s => (f.assign A s).1) f

/-- **C75.**  After any sequence of assignments the functor evaluates as one newly made from the last text
that can be parsed. -/
theorem assignAll_last (f : Functor K) (before after : List Str) (s : Str) (n : Node K)
    (hs : parse A s = .ok n) (hafter : ∀ s' ∈ after, ∃ e, parse A s' = .error e) (x y z t : K) :
    (assignAll A f (before ++ s :: after)).eval A x y z t = some (n.eval A (values x y z t)) := by
  have hskip : ∀ (l : List Str) (g : Functor K), (∀ s' ∈ l, ∃ e, parse A s' = .error e) → assignAll A g l = g := by
    intro l
    induction l with
    | nil => intro g _; rfl
    | cons a l ih =>
      intro g hl
      obtain ⟨e, he⟩ := hl a (by simp)
      have : (g.assign A a).1 = g := by simp [Functor.assign, he]
      simp only [assignAll, List.foldl_cons, this]
      exact ih g fun s' h' => hl s' (by simp [h'])
  rw [assignAll, List.foldl_append, List.foldl_cons]
  have := hskip after (((before.foldl (fun f s => (f.assign A s).1) f).assign A s).1) hafter
  rw [assignAll] at this
  rw [this]
  simp only [Functor.assign, hs, Functor.eval, Option.map_some, optimize_eval]

/-- **C75.**  Letter case does not matter. -/
theorem parse_case (s s' : Str) (h : s.map Char.toLower = s'.map Char.toLower) : parse A s = parse A s' := by
  have hl : s.length = s'.length := by simpa using congrArg List.length h
  unfold parse toLower
  rw [h, hl]

/-- Evaluating an empty functor is reported. -/
theorem default_eval_throws (x y z t : K) : (⟨none, []⟩ : Functor K).eval A x y z t = none := rfl

-- a history with a failed assignment
example : (assignAll demo ⟨none, []⟩ ["x+y".toList, "2*X".toList, "2*+".toList, "(x".toList]).eval demo 5 6 7 8 = some 10 := by
  decide +kernel

example : (Functor.assign demo ⟨none, []⟩ "2*+".toList).2 = some .invalid := by decide +kernel

end NimbleSM.Expr
