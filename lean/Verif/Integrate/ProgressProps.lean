import Verif.Integrate.Progress

/-!
# C143: the progress report of an explicit run
-/

namespace NimbleSM.Integrate

variable {K S : Type*} [Field K] [LinearOrder K] [IsStrictOrderedRing K]

/-- The doubles hold whole numbers up to 2^53. -/
def ExactIntegers (rnd : ℚ → ℚ) : Prop := ∀ m : ℕ, m ≤ 2 ^ 53 → rnd m = m

/-- Specification: of 10, 20, …, 100 percent those that are a whole number of steps. -/
def tenths (n : ℕ) : List ℤ := ((List.range' 1 10).filter fun (j : ℕ) => 10 ∣ j * n).map fun (j : ℕ) => 10 * (j : ℤ)

theorem progressAt_spec {rnd : ℚ → ℚ} (hr : ExactIntegers rnd) {n : ℕ} (hn : n ≤ 214748364) {k : ℕ} (hk : k < n) :
    ∃ line, progressAt rnd n k = some line ∧
      ((∃ j, 10 * (k + 1) = j * n ∧ line = some (10 * (j : ℤ))) ∨ ((∀ j, 10 * (k + 1) ≠ j * n) ∧ line = none)) := by
  unfold progressAt
  rw [if_neg (by omega)]
  by_cases h1 : 10 * (k + 1) % n = 0 ∧ k ≠ n - 1
  · rw [if_pos h1]
    refine ⟨_, rfl, .inl ?_⟩
    obtain ⟨j, hj⟩ := Nat.dvd_of_mod_eq_zero h1.1
    refine ⟨j, by rw [hj, Nat.mul_comm], ?_⟩
    congr 1
    unfold percentOf
    have e1 : (100 * ((k + 1 : ℕ) : ℚ)) = ((100 * (k + 1) : ℕ) : ℚ) := by push_cast; ring
    rw [e1, hr _ (by norm_num; omega)]
    have hn0 : (n : ℚ) ≠ 0 := by
      have : n ≠ 0 := by omega
      exact_mod_cast this
    have e2 : ((100 * (k + 1) : ℕ) : ℚ) / n = ((10 * j : ℕ) : ℚ) := by
      rw [div_eq_iff hn0]
      have : 100 * (k + 1) = 10 * j * n := by
        rw [show 100 * (k + 1) = 10 * (10 * (k + 1)) by ring, hj]; ring
      rw [this]; push_cast; ring
    rw [e2, hr _ (by
      have : j * 1 ≤ 10 * (k + 1) := by rw [hj, Nat.mul_comm n j]; exact Nat.mul_le_mul_left j (by omega)
      norm_num; omega)]
    rw [show ((10 * j : ℕ) : ℚ) = (((10 * j : ℕ) : ℤ) : ℚ) by push_cast; ring, Int.floor_intCast]
    push_cast; ring
  · rw [if_neg h1]
    by_cases h2 : k = n - 1
    · rw [if_pos h2]
      refine ⟨_, rfl, .inl ⟨10, ?_, rfl⟩⟩
      omega
    · rw [if_neg h2]
      refine ⟨_, rfl, .inr ⟨?_, rfl⟩⟩
      intro j hj
      exact h1 ⟨by rw [hj]; exact Nat.mul_mod_left j n, h2⟩

theorem consoleLoop_succ (rnd : ℚ → ℚ) (c : Config K) (p : Physics K S) (rank m : ℕ) (s : Sim K S) :
    consoleLoop rnd c p rank (m + 1) s = (consoleLoop rnd c p rank m s).bind (consoleStep rnd c p rank m) := by
  unfold consoleLoop
  rw [List.range_succ, List.foldlM_append]
  simp [Option.bind_eq_bind]

/-- **C143, the run.**  Printing does not change the run. -/
theorem console_same_run (rnd : ℚ → ℚ) (c : Config K) (p : Physics K S) (rank m : ℕ) (s : Sim K S) (r : Console K S)
    (h : consoleLoop rnd c p rank m s = some r) : loop c p m s = some r.sim := by
  induction m generalizing r with
  | zero =>
    unfold consoleLoop at h
    simp only [List.range_zero, List.foldlM_nil, Option.pure_def, Option.some.injEq] at h
    subst h
    rfl
  | succ m ih =>
    rw [consoleLoop_succ, Option.bind_eq_some_iff] at h
    obtain ⟨r1, h1, h2⟩ := h
    rw [loop_succ, ih r1 h1, Option.bind_some]
    unfold consoleStep at h2
    rw [Option.bind_eq_some_iff] at h2
    obtain ⟨line, _, h3⟩ := h2
    rw [Option.map_eq_some_iff] at h3
    obtain ⟨s', h4, rfl⟩ := h3
    exact h4

/-- **C143, other ranks.**  Only rank 0 prints. -/
theorem console_other_ranks (rnd : ℚ → ℚ) (c : Config K) (p : Physics K S) {rank : ℕ} (hrank : rank ≠ 0) (m : ℕ) (s : Sim K S)
    (r : Console K S) (h : consoleLoop rnd c p rank m s = some r) : r.printed = [] := by
  induction m generalizing r with
  | zero =>
    unfold consoleLoop at h
    rw [if_neg hrank] at h
    simp only [List.range_zero, List.foldlM_nil, Option.pure_def, Option.some.injEq] at h
    subst h
    rfl
  | succ m ih =>
    rw [consoleLoop_succ, Option.bind_eq_some_iff] at h
    obtain ⟨r1, h1, h2⟩ := h
    unfold consoleStep at h2
    rw [if_neg hrank, Option.bind_some, Option.map_eq_some_iff] at h2
    obtain ⟨s', _, rfl⟩ := h2
    exact ih r1 h1

/-- What is printed in the first `m` passes of `n`: `x` percent in the pass whose end is that share of the run. -/
theorem console_printed {rnd : ℚ → ℚ} (hr : ExactIntegers rnd) (c : Config K) (p : Physics K S) (hn : c.numSteps ≤ 214748364)
    (m : ℕ) (hm : m ≤ c.numSteps) (s : Sim K S) (r : Console K S) (h : consoleLoop rnd c p 0 m s = some r) :
    ∃ later, r.printed = (0, s) :: later ∧
      later.Pairwise (fun a b => a.1 < b.1) ∧
      (∀ x ∈ later, ∃ j k : ℕ, 1 ≤ j ∧ x.1 = 10 * (j : ℤ) ∧ k < m ∧ 10 * (k + 1) = j * c.numSteps ∧ loop c p k s = some x.2) ∧
      ∀ j k : ℕ, k < m → 10 * (k + 1) = j * c.numSteps → ∃ x ∈ later, x.1 = 10 * (j : ℤ) := by
  induction m generalizing r with
  | zero =>
    unfold consoleLoop at h
    rw [if_pos rfl] at h
    simp only [List.range_zero, List.foldlM_nil, Option.pure_def, Option.some.injEq] at h
    subst h
    exact ⟨[], rfl, List.Pairwise.nil, by simp, by intro j k hk; omega⟩
  | succ m ih =>
    rw [consoleLoop_succ, Option.bind_eq_some_iff] at h
    obtain ⟨r1, h1, h2⟩ := h
    obtain ⟨later, e1, e2, e3, e4⟩ := ih (by omega) r1 h1
    have hrun := console_same_run rnd c p 0 m s r1 h1
    obtain ⟨line, hl, hcase⟩ := progressAt_spec hr hn (show m < c.numSteps by omega)
    unfold consoleStep at h2
    rw [if_pos rfl, hl, Option.bind_some, Option.map_eq_some_iff] at h2
    obtain ⟨s', _, rfl⟩ := h2
    rcases hcase with ⟨j, hj, rfl⟩ | ⟨hj, rfl⟩
    · refine ⟨later ++ [(10 * (j : ℤ), r1.sim)], by simp [e1], ?_, ?_, ?_⟩
      · rw [List.pairwise_append]
        refine ⟨e2, List.pairwise_singleton _ _, ?_⟩
        intro a ha b hb
        rw [List.mem_singleton] at hb
        subst hb
        obtain ⟨j', k', _, e5, hk', e6, _⟩ := e3 a ha
        rw [e5]
        have : j' < j := by
          by_contra hc
          have : j * c.numSteps ≤ j' * c.numSteps := Nat.mul_le_mul_right _ (by omega)
          omega
        show 10 * (j' : ℤ) < 10 * (j : ℤ)
        omega
      · intro x hx
        rcases List.mem_append.mp hx with hx | hx
        · obtain ⟨j', k', e5, e6, e7, e8, e9⟩ := e3 x hx
          exact ⟨j', k', e5, e6, by omega, e8, e9⟩
        · rw [List.mem_singleton] at hx
          subst hx
          refine ⟨j, m, ?_, rfl, by omega, hj, hrun⟩
          rcases Nat.eq_zero_or_pos j with h0 | h0
          · subst h0; omega
          · exact h0
      · intro j' k' hk' hj'
        rcases Nat.lt_succ_iff_lt_or_eq.mp hk' with hlt | rfl
        · obtain ⟨x, hx, e⟩ := e4 j' k' hlt hj'
          exact ⟨x, List.mem_append_left _ hx, e⟩
        · refine ⟨_, List.mem_append_right _ (List.mem_singleton.mpr rfl), ?_⟩
          have : j = j' := by
            have hpos : 0 < c.numSteps := by omega
            exact Nat.eq_of_mul_eq_mul_right hpos (by rw [← hj, hj'])
          simp [this]
    · refine ⟨later, by simp [e1], e2, ?_, ?_⟩
      · intro x hx
        obtain ⟨j', k', e5, e6, e7, e8, e9⟩ := e3 x hx
        exact ⟨j', k', e5, e6, by omega, e8, e9⟩
      · intro j' k' hk' hj'
        rcases Nat.lt_succ_iff_lt_or_eq.mp hk' with hlt | rfl
        · exact e4 j' k' hlt hj'
        · exact absurd hj' (hj j')

/-- **C143, the lines.**  A run of at least one and at most 214748364 steps prints `0%` and then, in this order, those of
10, 20, …, 100 percent that are a whole number of steps, each once; the last is 100 percent. -/
theorem progress_lines {rnd : ℚ → ℚ} (hr : ExactIntegers rnd) (c : Config K) (p : Physics K S) (hn : c.numSteps ≤ 214748364)
    (h0 : 0 < c.numSteps) (s : Sim K S) (r : Console K S) (h : consoleLoop rnd c p 0 c.numSteps s = some r) :
    r.printed.map Prod.fst = 0 :: tenths c.numSteps ∧ (r.printed.map Prod.fst).getLast? = some 100 := by
  obtain ⟨later, e1, e2, e3, e4⟩ := console_printed hr c p hn c.numSteps le_rfl s r h
  have key : later.map Prod.fst = tenths c.numSteps := by
    have hs1 : (later.map Prod.fst).Pairwise (· < ·) := by rw [List.pairwise_map]; exact e2
    have hs2 : (tenths c.numSteps).Pairwise (· < ·) := by
      unfold tenths
      rw [List.pairwise_map]
      have : (List.range' 1 10).Pairwise (· < ·) := List.pairwise_lt_range'
      refine (this.sublist List.filter_sublist).imp ?_
      intro a b hab
      omega
    refine List.Perm.eq_of_pairwise' hs1 hs2 ?_
    rw [List.perm_ext_iff_of_nodup (hs1.imp fun h => ne_of_lt h) (hs2.imp fun h => ne_of_lt h)]
    intro x
    unfold tenths
    simp only [List.mem_map, List.mem_filter, List.mem_range'_1, decide_eq_true_eq]
    constructor
    · rintro ⟨y, hy, rfl⟩
      obtain ⟨j, k, h1, h2, h3, h4, _⟩ := e3 y hy
      refine ⟨j, ⟨⟨h1, ?_⟩, ⟨k + 1, by rw [← h4]⟩⟩, h2.symm⟩
      by_contra hc
      have : 11 * c.numSteps ≤ j * c.numSteps := Nat.mul_le_mul_right _ (by omega)
      omega
    · rintro ⟨j, ⟨⟨h1, h2⟩, ⟨q, hq⟩⟩, rfl⟩
      have hq0 : 0 < q := by
        have : 0 < j * c.numSteps := Nat.mul_pos (by omega) h0
        omega
      have hq1 : q ≤ c.numSteps := by
        have : j * c.numSteps ≤ 10 * c.numSteps := Nat.mul_le_mul_right _ (by omega)
        omega
      obtain ⟨x, hx, e⟩ := e4 j (q - 1) (by omega) (by rw [hq]; omega)
      exact ⟨x, hx, e⟩
  have hk : r.printed.map Prod.fst = 0 :: tenths c.numSteps := by rw [e1, List.map_cons, key]
  refine ⟨hk, ?_⟩
  rw [hk]
  unfold tenths
  rw [show List.range' 1 10 = List.range' 1 9 ++ [10] by rfl, List.filter_append, List.map_append]
  have : [10].filter (fun j => decide (10 ∣ j * c.numSteps)) = [10] := by
    rw [List.filter_cons_of_pos (by simp), List.filter_nil]
  rw [this, ← List.cons_append, List.map_singleton, List.getLast?_concat]
  rfl

/-- **C143, refuted.**  A line is printed before the pass it counts: when `x` percent are reported, one step of them is missing;
in particular `100% complete` is printed when the last step has not been made. -/
theorem progress_too_early {rnd : ℚ → ℚ} (hr : ExactIntegers rnd) (c : Config K) (hmg : c.manager.scheme ≠ .quasistatic)
    (p : Physics K S) (hn : c.numSteps ≤ 214748364) (s : Sim K S) (r : Console K S)
    (h : consoleLoop rnd c p 0 c.numSteps s = some r) :
    ∀ x ∈ r.printed.tail, ∃ k : ℕ, k < c.numSteps ∧ loop c p k s = some x.2 ∧ x.2.time = s.time + k * c.dt ∧
      x.1 * (c.numSteps : ℤ) = 100 * ((k : ℤ) + 1) := by
  obtain ⟨later, e1, _, e3, _⟩ := console_printed hr c p hn c.numSteps le_rfl s r h
  intro x hx
  rw [e1, List.tail_cons] at hx
  obtain ⟨j, k, _, h2, h3, h4, h5⟩ := e3 x hx
  refine ⟨k, h3, h5, loop_time c hmg p k s x.2 h5, ?_⟩
  rw [h2]
  have : (10 * ((k : ℤ) + 1)) = (j : ℤ) * c.numSteps := by exact_mod_cast h4
  linear_combination (-10 : ℤ) * this

/-- **C143, overflow.**  With more steps the product in the report leaves the range of `int`: no such run has defined behaviour
on rank 0. -/
theorem progress_overflow (rnd : ℚ → ℚ) (c : Config K) (p : Physics K S) (hn : 214748364 < c.numSteps) (s : Sim K S) :
    consoleLoop rnd c p 0 c.numSteps s = none := by
  have key : ∀ m, 214748365 ≤ m → consoleLoop rnd c p 0 m s = none := by
    intro m hm
    induction m, hm using Nat.le_induction with
    | base =>
      rw [show (214748365 : ℕ) = 214748364 + 1 by rfl, consoleLoop_succ]
      cases consoleLoop rnd c p 0 214748364 s with
      | none => rfl
      | some r =>
        rw [Option.bind_some]
        unfold consoleStep progressAt
        rw [if_pos rfl, if_pos (by norm_num), Option.bind_none]
    | succ m _ ih => rw [consoleLoop_succ, ih, Option.bind_none]
  exact key _ (by omega)

/-- Otherwise the report is no obstacle: a run that finishes, finishes with its report. -/
theorem console_finishes {rnd : ℚ → ℚ} (hr : ExactIntegers rnd) (c : Config K) (p : Physics K S) (hn : c.numSteps ≤ 214748364)
    (rank m : ℕ) (hm : m ≤ c.numSteps) (s s' : Sim K S) (h : loop c p m s = some s') :
    ∃ r, consoleLoop rnd c p rank m s = some r ∧ r.sim = s' := by
  induction m generalizing s' with
  | zero =>
    rw [loop_zero, Option.some.injEq] at h
    subst h
    exact ⟨_, rfl, rfl⟩
  | succ m ih =>
    rw [loop_succ, Option.bind_eq_some_iff] at h
    obtain ⟨s1, h1, h2⟩ := h
    obtain ⟨r1, h3, rfl⟩ := ih (by omega) s1 h1
    rw [consoleLoop_succ, h3, Option.bind_some]
    unfold consoleStep
    obtain ⟨line, hl, _⟩ := progressAt_spec hr hn (show m < c.numSteps by omega)
    by_cases hrank : rank = 0
    · rw [if_pos hrank, hl, Option.bind_some, h2]
      exact ⟨_, rfl, rfl⟩
    · rw [if_neg hrank, Option.bind_some, h2]
      exact ⟨_, rfl, rfl⟩

/-- Non-vacuity: rounding that keeps everything; the lines for 5, 4 and 20 steps. -/
example : ExactIntegers id ∧ tenths 5 = [20, 40, 60, 80, 100] ∧ tenths 4 = [50, 100] ∧
    tenths 20 = [10, 20, 30, 40, 50, 60, 70, 80, 90, 100] ∧ tenths 7 = [100] :=
  ⟨fun _ _ => rfl, by decide, by decide, by decide, by decide⟩

end NimbleSM.Integrate
