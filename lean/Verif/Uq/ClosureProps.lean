import Verif.Uq.Uq
import Mathlib.Algebra.BigOperators.Group.Finset.Basic
import Mathlib.Algebra.BigOperators.Ring.Finset

/-!
# C51, C53: the closure and the reduction of the sample forces
-/

namespace NimbleSM.Uq

open NimbleSM.Bc (setAt)

variable {K : Type*} [Field K]

/-! ## C51 -/

/-- What an approximate sample's force is meant to be at one unknown: the coefficients times the nominal and
the exact forces there. -/
def interpolation (nexact : ℕ) (c : ℕ → K) (nominal : K) (exact : ℕ → K) : K :=
  c 0 * nominal + ∑ k ∈ Finset.range nexact, c (k + 1) * exact k

theorem closure_inner (c : ℕ → K) (t i : ℕ) (F : ℕ → ℕ → K) : ∀ n, n ≤ t → ∀ a j,
    (List.range n).foldl (fun F k => setAt F t i (F t i + F k i * c (k + 1))) F a j =
      if a = t ∧ j = i then F t i + ∑ k ∈ Finset.range n, F k i * c (k + 1) else F a j := by
  intro n
  induction n with
  | zero => intro _ a j; simp; rintro rfl rfl; rfl
  | succ n ih =>
    intro hn a j
    rw [List.range_succ, List.foldl_append]
    simp only [List.foldl_cons, List.foldl_nil, setAt]
    have ih := ih (by omega)
    by_cases h : a = t ∧ j = i
    · rw [if_pos h, if_pos h, ih t i, if_pos ⟨rfl, rfl⟩, ih n i, if_neg (by omega), Finset.sum_range_succ]
      ring
    · rw [if_neg h, ih a j, if_neg h, if_neg h]

theorem closure_unknowns (nexact : ℕ) (c : ℕ → K) (f0 : ℕ → K) (t : ℕ) (ht : nexact ≤ t) (F : ℕ → ℕ → K) : ∀ n a j,
    (List.range n).foldl (fun F i => (List.range nexact).foldl (fun F k =>
        setAt F t i (F t i + F k i * c (k + 1))) (setAt F t i (f0 i * c 0))) F a j =
      if a = t ∧ j < n then interpolation nexact c (f0 j) (fun k => F k j) else F a j := by
  intro n
  induction n with
  | zero => intro a j; simp
  | succ n ih =>
    intro a j
    rw [List.range_succ, List.foldl_append]
    simp only [List.foldl_cons, List.foldl_nil]
    rw [closure_inner c t n _ nexact ht a j]
    by_cases h : a = t ∧ j = n
    · obtain ⟨rfl, rfl⟩ := h
      rw [if_pos ⟨rfl, rfl⟩, if_pos (by omega)]
      unfold interpolation
      simp only [setAt, and_self, if_true]
      congr 1
      · ring
      · apply Finset.sum_congr rfl
        intro k hk
        have := Finset.mem_range.1 hk
        rw [if_neg (by omega), ih k j, if_neg (by omega)]
        ring
    · rw [if_neg h]
      simp only [setAt]
      rw [if_neg h, ih a j]
      by_cases h' : a = t ∧ j < n
      · rw [if_pos h', if_pos (by omega)]
      · rw [if_neg h', if_neg (by omega)]

/-- **C51.**  After `ApplyClosure` the force of every approximate sample is, at every unknown, its coefficients
times the nominal force and the forces of the exact samples; everything else is as before. -/
theorem closure_spec (nexact napprox nunknowns : ℕ) (coeff : ℕ → ℕ → K) (f0 : ℕ → K) (F : ℕ → ℕ → K) (t j : ℕ) :
    applyClosure nexact napprox nunknowns coeff f0 F t j =
      if nexact ≤ t ∧ t < nexact + napprox ∧ j < nunknowns then
        interpolation nexact (coeff (t - nexact)) (f0 j) (fun k => F k j)
      else F t j := by
  unfold applyClosure
  induction napprox generalizing t j with
  | zero => rw [if_neg (by omega)]; simp
  | succ n ih =>
    rw [List.range_succ, List.foldl_append]
    simp only [List.foldl_cons, List.foldl_nil]
    rw [closure_unknowns nexact (coeff n) f0 (n + nexact) (by omega)]
    by_cases h : t = n + nexact ∧ j < nunknowns
    · obtain ⟨rfl, hj⟩ := h
      rw [if_pos ⟨rfl, hj⟩, if_pos (by omega), show n + nexact - nexact = n by omega]
      unfold interpolation
      congr 1
      apply Finset.sum_congr rfl
      intro k hk
      have := Finset.mem_range.1 hk
      beta_reduce
      rw [ih k j, if_neg (by omega)]
    · rw [if_neg h, ih t j]
      by_cases h' : nexact ≤ t ∧ t < nexact + n ∧ j < nunknowns
      · rw [if_pos h', if_pos (by omega)]
      · rw [if_neg h', if_neg (by omega)]

/-- **C51.**  The exact samples are unchanged (the nominal force is an input that is never written). -/
theorem closure_exact_unchanged (nexact napprox nunknowns : ℕ) (coeff : ℕ → ℕ → K) (f0 : ℕ → K) (F : ℕ → ℕ → K)
    (k : ℕ) (hk : k < nexact) : applyClosure nexact napprox nunknowns coeff f0 F k = F k := by
  funext j
  rw [closure_spec, if_neg (by omega)]

/-- **C51.**  What the approximate forces were before does not matter. -/
theorem closure_forgets (nexact napprox nunknowns : ℕ) (coeff : ℕ → ℕ → K) (f0 : ℕ → K) (F G : ℕ → ℕ → K)
    (h : ∀ k < nexact, ∀ j < nunknowns, F k j = G k j) (t j : ℕ) (ht : t < nexact + napprox) (hj : j < nunknowns) :
    applyClosure nexact napprox nunknowns coeff f0 F t j = applyClosure nexact napprox nunknowns coeff f0 G t j := by
  rw [closure_spec, closure_spec]
  by_cases hn : nexact ≤ t
  · rw [if_pos ⟨hn, ht, hj⟩, if_pos ⟨hn, ht, hj⟩]
    unfold interpolation
    congr 1
    apply Finset.sum_congr rfl
    intro k hk
    beta_reduce
    rw [h k (Finset.mem_range.1 hk) j hj]
  · rw [if_neg (by omega), if_neg (by omega), h t (by omega) j hj]

/-- **C51.**  Coefficients that sum to one reproduce a force that all exact samples share with the nominal one. -/
theorem closure_reproduces (nexact napprox nunknowns : ℕ) (coeff : ℕ → ℕ → K) (f0 : ℕ → K) (F : ℕ → ℕ → K)
    (s j : ℕ) (hs : s < napprox) (hj : j < nunknowns) (hc : ∑ k ∈ Finset.range (nexact + 1), coeff s k = 1)
    (h : ∀ k < nexact, F k j = f0 j) :
    applyClosure nexact napprox nunknowns coeff f0 F (nexact + s) j = f0 j := by
  rw [closure_spec, if_pos (by omega), show nexact + s - nexact = s by omega]
  unfold interpolation
  rw [Finset.sum_congr rfl (fun k hk => by beta_reduce; rw [h k (Finset.mem_range.1 hk)]), ← Finset.sum_mul, ← add_mul]
  rw [Finset.sum_range_succ'] at hc
  rw [add_comm, hc, one_mul]

/-- **C51.**  Coefficients that are one for one exact sample and zero otherwise give that sample's force. -/
theorem closure_selects (nexact napprox nunknowns : ℕ) (coeff : ℕ → ℕ → K) (f0 : ℕ → K) (F : ℕ → ℕ → K)
    (s j k : ℕ) (hs : s < napprox) (hj : j < nunknowns) (hk : k < nexact)
    (hc : ∀ a ≤ nexact, coeff s a = if a = k + 1 then 1 else 0) :
    applyClosure nexact napprox nunknowns coeff f0 F (nexact + s) j = F k j := by
  rw [closure_spec, if_pos (by omega), show nexact + s - nexact = s by omega]
  unfold interpolation
  rw [hc 0 (by omega), if_neg (by omega), zero_mul, zero_add, Finset.sum_eq_single k]
  · rw [hc (k + 1) (by omega), if_pos rfl, one_mul]
  · intro b hb hbk
    have := Finset.mem_range.1 hb
    rw [hc (b + 1) (by omega), if_neg (by omega), zero_mul]
  · intro h; exact absurd (Finset.mem_range.2 hk) h

/-- One exact sample (force 10, 20), one approximate one with coefficients 1/4 and 3/4, nominal force 2, 4. -/
example : applyClosure 1 1 2 (fun _ k => if k = 0 then (1/4 : ℚ) else 3/4) (fun i => 2 * (i + 1))
    (fun t i => if t = 0 then 10 * (i + 1) else 99) 1 1 = 16 := by decide +kernel

/-! ## C53 -/

theorem reduce_steps {A : Type*} (reduce : A → A) (forces : List A) : ∀ n,
    (List.range n).foldlM (fun (F : List A) i => F[i]?.map fun f => F.set i (reduce f)) forces =
      if n ≤ forces.length then some ((forces.take n).map reduce ++ forces.drop n) else none := by
  intro n
  induction n with
  | zero => simp
  | succ n ih =>
    rw [List.range_succ, List.foldlM_append, ih]
    by_cases h : n ≤ forces.length
    · rw [if_pos h]
      by_cases h' : n < forces.length
      · rw [if_pos (by omega)]
        have hlen : ((forces.take n).map reduce).length = n := by simp [h]
        have hd : forces.drop n = forces[n] :: forces.drop (n + 1) := List.drop_eq_getElem_cons h'
        simp only [List.foldlM_cons, List.foldlM_nil, Option.bind_eq_bind, Option.bind_some]
        rw [hd, List.getElem?_append_right (by omega), hlen]
        simp only [Nat.sub_self, List.getElem?_cons_zero, Option.map_some, Option.bind_some]
        rw [List.set_append_right _ _ (by omega), hlen]
        simp only [Nat.sub_self, List.set_cons_zero]
        have ht : (forces.take (n + 1)).map reduce = (forces.take n).map reduce ++ [reduce forces[n]] := by
          rw [List.take_add_one, List.getElem?_eq_getElem h', Option.toList_some, List.map_append, List.map_cons, List.map_nil]
        rw [ht, List.append_assoc]
        rfl
      · have hn : n = forces.length := by omega
        rw [if_neg (by omega)]
        subst hn
        simp
    · rw [if_neg h, if_neg (by omega)]; rfl

/-- **C53.**  The reduction of the sample forces stays in range exactly when there is an approximate sample. -/
theorem reduction_in_range_iff {A : Type*} (reduce : A → A) (nexact napprox : ℕ) (forces : List A)
    (hlen : forces.length = nexact + napprox) : (reduceSamples reduce nexact forces).isSome ↔ 0 < napprox := by
  unfold reduceSamples
  rw [reduce_steps]
  split <;> simp <;> omega

/-- **C53** is violated: with exact samples only, the loop goes one past the end. -/
theorem reduction_out_of_range {A : Type*} (reduce : A → A) (nexact : ℕ) (forces : List A)
    (hlen : forces.length = nexact) : reduceSamples reduce nexact forces = none := by
  unfold reduceSamples
  rw [reduce_steps, if_neg (by omega)]

/-- **C53**, as far as it holds: with an approximate sample every exact sample's force is reduced exactly once
and no force but that of the first approximate sample is touched besides. -/
theorem reduction_partial {A : Type*} (reduce : A → A) (nexact napprox : ℕ) (forces : List A)
    (hlen : forces.length = nexact + napprox) (hn : 0 < napprox) :
    ∃ out, reduceSamples reduce nexact forces = some out ∧ out.length = forces.length ∧
      (∀ k < nexact, out[k]? = (forces[k]?).map reduce) ∧
      ∀ k, nexact < k → out[k]? = forces[k]? := by
  refine ⟨_, by unfold reduceSamples; rw [reduce_steps, if_pos (by omega)], ?_, ?_, ?_⟩
  · simp; omega
  · intro k hk
    rw [List.getElem?_append_left (by simp; omega)]
    rw [List.getElem?_map, List.getElem?_take, if_pos (by omega)]
  · intro k hk
    rw [List.getElem?_append_right (by simp; omega)]
    simp only [List.length_map, List.length_take, List.getElem?_drop]
    congr 1
    omega

/-- Two exact samples and one approximate sample; doubling stands for the reduction. -/
example : reduceSamples (fun x : ℕ => 2 * x) 2 [1, 2, 3] = some [2, 4, 6] := by decide

example : reduceSamples (fun x : ℕ => 2 * x) 2 [1, 2] = none := by decide

end NimbleSM.Uq
