import Verif.Integrate.QuasistaticDemo
import Verif.Integrate.MomentumProps

/-!
# C144: how often results are written does not change the results

The explicit integrator applies the kinematic conditions once more on an output step
(explicit_time_integrator.cc:269) and passes the output flag to the force evaluations (lines 223-229); the
quasistatic integrator passes the flag to the force evaluation (quasistatic_time_integrator.cc:258, 343,
380).  The model is that of `Verif.Integrate.Explicit`, `Verif.Integrate.Quasistatic`.
-/

namespace NimbleSM.Integrate

open NimbleSM.Bc

variable {K S : Type*} [Field K] [LinearOrder K] [IsStrictOrderedRing K]

/-- The same input with another `output_frequency`. -/
def Config.every (c : Config K) (f : ℤ) : Config K := { c with frequency := f }

/-- Specification: the force evaluations do not depend on whether the step is written. -/
def IgnoresFlag (p : Physics K S) : Prop :=
  ∀ s tp tc, p.external s tp tc true = p.external s tp tc false ∧
    ∀ u, p.internal s tp tc true u = p.internal s tp tc false u

/-! ## What the kinematic conditions do to the velocity -/

/-- The conditions leave the velocity of this degree of freedom alone. -/
def Kept (c : Config K) (n i : ℕ) : Prop :=
  ∀ tc tp (u v : Nodal K), tc - tp = c.dt → (kinematic c tc tp u v).2 n i = v n i

omit [IsStrictOrderedRing K] in
theorem fold_displacement (m : Manager K) (hm : m.scheme ≠ .quasistatic) (X : Nodal K) (tc dt : K)
    (l : List (BoundaryCondition K)) (s : Kin K) :
    (l.foldl (kinematicBc m X tc dt) s).displacement = s.displacement := by
  have := applyKinematicBC_displacement { m with bcs := l } hm tc (tc - dt) X s
  unfold applyKinematicBC at this
  simp only [sub_sub_cancel] at this
  exact this

omit [IsStrictOrderedRing K] in
theorem bc_dichotomy (m : Manager K) (hm : m.scheme ≠ .quasistatic) (X : Nodal K) (dt : K)
    (b : BoundaryCondition K) (n i : ℕ) :
    (∀ tc (s : Kin K), (kinematicBc m X tc dt s b).velocity n i = s.velocity n i) ∨
    (∀ tc (s s' : Kin K), s.displacement = s'.displacement →
      (kinematicBc m X tc dt s b).velocity n i = (kinematicBc m X tc dt s' b).velocity n i) := by
  by_cases ha : Acts m b n i
  · have hgov : Governs { m with bcs := [b] } b n i := ⟨[], [], rfl, ha, by simp⟩
    have key : ∀ tc (s : Kin K), (applyKinematicBC { m with bcs := [b] } tc (tc - dt) X s)
        = kinematicBc m X tc dt s b := by
      intro tc s
      unfold applyKinematicBC
      simp only [sub_sub_cancel, List.foldl_cons, List.foldl_nil]
      rfl
    by_cases hv : b.type = .prescribedVelocity
    · right
      intro tc s s' _
      rw [← key, ← key, ((governs_velocity { m with bcs := [b] } hm tc (tc - dt) X s b n i hgov).1 hv).1,
        ((governs_velocity { m with bcs := [b] } hm tc (tc - dt) X s' b n i hgov).1 hv).1]
    · by_cases hd : b.type = .prescribedDisplacement ∧ dt > 0
      · right
        intro tc s s' hs
        have hpos : 0 < tc - (tc - dt) := by rw [sub_sub_cancel]; exact hd.2
        rw [← key, ← key, (governs_velocity { m with bcs := [b] } hm tc (tc - dt) X s b n i hgov).2 hd.1 hpos,
          (governs_velocity { m with bcs := [b] } hm tc (tc - dt) X s' b n i hgov).2 hd.1 hpos, hs]
      · left
        intro tc s
        unfold kinematicBc
        rw [if_neg hv, if_neg hd]
  · left
    intro tc s
    have := kinematicBc_not_acts m X tc dt s b n i ha
    simp only [Kin.dof, Prod.mk.injEq] at this
    exact this.2.1

omit [IsStrictOrderedRing K] in
theorem fold_dichotomy (m : Manager K) (hm : m.scheme ≠ .quasistatic) (X : Nodal K) (dt : K)
    (l : List (BoundaryCondition K)) (n i : ℕ) :
    (∀ tc (s : Kin K), (l.foldl (kinematicBc m X tc dt) s).velocity n i = s.velocity n i) ∨
    (∀ tc (s s' : Kin K), s.displacement = s'.displacement →
      (l.foldl (kinematicBc m X tc dt) s).velocity n i = (l.foldl (kinematicBc m X tc dt) s').velocity n i) := by
  induction l with
  | nil => left; intro tc s; rfl
  | cons b l ih =>
    rcases ih with ih | ih
    · rcases bc_dichotomy m hm X dt b n i with h | h
      · left; intro tc s; rw [List.foldl_cons, ih, h]
      · right; intro tc s s' hs; rw [List.foldl_cons, List.foldl_cons, ih, ih, h tc s s' hs]
    · right
      intro tc s s' hs
      rw [List.foldl_cons, List.foldl_cons]
      refine ih tc _ _ ?_
      have h1 := fold_displacement m hm X tc dt [b] s
      have h2 := fold_displacement m hm X tc dt [b] s'
      simp only [List.foldl_cons, List.foldl_nil] at h1 h2
      rw [h1, h2, hs]

omit [IsStrictOrderedRing K] in
theorem kinematic_congr (c : Config K) (hm : c.manager.scheme ≠ .quasistatic) (tc tp : K)
    (hd : tc - tp = c.dt) (u v v' : Nodal K) (h : ∀ n i, Kept c n i → v n i = v' n i) :
    (kinematic c tc tp u v).2 = (kinematic c tc tp u v').2 := by
  funext n i
  rcases fold_dichotomy c.manager hm c.X c.dt c.manager.bcs n i with hk | hs
  · have hkept : Kept c n i := by
      intro tc tp u v hd
      unfold kinematic applyKinematicBC
      simp only [hd]
      exact hk tc _
    rw [hkept tc tp u v hd, hkept tc tp u v' hd, h n i hkept]
  · unfold kinematic applyKinematicBC
    simp only [hd]
    exact hs tc _ _ rfl

/-! ## Runs with different frequencies -/

/-- Two runs at the same point: all equal but the velocities that the conditions are about to set. -/
structure Same (c : Config K) (s t : Sim K S) : Prop where
  time : s.time = t.time
  displacement : s.displacement = t.displacement
  acceleration : s.acceleration = t.acceleration
  state : s.state = t.state
  velocity : ∀ n i, Kept c n i → s.velocity n i = t.velocity n i

omit [IsStrictOrderedRing K] [LinearOrder K] [Field K] in
theorem external_flag {p : Physics K S} (hp : IgnoresFlag p) (s : S) (tp tc : K) (a b : Bool) :
    p.external s tp tc a = p.external s tp tc b := by
  have := (hp s tp tc).1
  cases a <;> cases b <;> simp [this]

omit [IsStrictOrderedRing K] [LinearOrder K] [Field K] in
theorem internal_flag {p : Physics K S} (hp : IgnoresFlag p) (s : S) (tp tc : K) (a b : Bool) (u : Nodal K) :
    p.internal s tp tc a u = p.internal s tp tc b u := by
  have := (hp s tp tc).2 u
  cases a <;> cases b <;> simp [this]

/-- One step with frequency `f` and with frequency `g`, from matching states. -/
theorem step_same (c : Config K) (hm : c.manager.scheme ≠ .quasistatic) (p : Physics K S)
    (hp : IgnoresFlag p) (f g : ℤ) (k : ℕ) (s t s' : Sim K S) (hst : Same c s t)
    (h : step (c.every f) p k s = some s') :
    ∃ t', step (c.every g) p k t = some t' ∧ Same c s' t' ∧
      ((c.every f).isOutputStep k = true →
        s'.velocity = (kinematic c t'.time t.time t'.displacement t'.velocity).2) := by
  have hex : ∃ t', step (c.every g) p k t = some t' := by
    obtain ⟨vh, F, E, C, st, st', vm, hvh, hu, hvm, hE, hF, hC, ha, hv, ht, hs, -⟩ :=
      step_spec (c.every f) hm p k s s' h
    have hvh' : vh = (kinematic c (t.time + c.dt) t.time t.displacement
        (axpy t.velocity (c.dt / 2) t.acceleration)).2 := by
      rw [hvh, ← hst.time, ← hst.displacement]
      apply kinematic_congr c hm _ _ (add_sub_cancel_left _ _)
      intro n i hk
      change s.velocity n i + c.dt / 2 * s.acceleration n i = t.velocity n i + c.dt / 2 * t.acceleration n i
      rw [hst.velocity n i hk, hst.acceleration]
    have hu' : s'.displacement = axpy t.displacement c.dt vh := by rw [hu, hst.displacement]; rfl
    rw [hst.state, hst.time, internal_flag hp _ _ _ _ ((c.every g).isOutputStep k), hu', hvh'] at hF
    rw [hu', hvh'] at hC
    unfold step
    have hk1 : ∀ tc tp (u v : Nodal K), (kinematic (c.every g) tc tp u v).1 = u := fun tc tp u v =>
      applyKinematicBC_displacement c.manager hm tc tp c.X _
    have hhalf : (0.5 : K) * (c.every g).dt = c.dt / 2 := by
      rw [half_eq]; change 1 / 2 * c.dt = _; ring
    simp only [add_sub_cancel_left, Option.bind_eq_bind, hk1, hhalf]
    change ∃ t', ((p.internal t.state t.time (t.time + c.dt) ((c.every g).isOutputStep k) _).bind _) = some t'
    erw [hF]
    simp only [Option.bind_some]
    erw [hC]
    exact ⟨_, rfl⟩
  obtain ⟨t', h'⟩ := hex
  refine ⟨t', h', ?_⟩
  obtain ⟨vh, F, E, C, st, st', vm, hvh, hu, hvm, hE, hF, hC, ha, hv, ht, hs, -⟩ :=
    step_spec (c.every f) hm p k s s' h
  obtain ⟨vh2, F2, E2, C2, st2, st2', vm2, hvh2, hu2, hvm2, hE2, hF2, hC2, ha2, hv2, ht2, hs2, -⟩ :=
    step_spec (c.every g) hm p k t t' h'
  have hvv : vh = vh2 := by
    rw [hvh, hvh2, ← hst.time, ← hst.displacement]
    apply kinematic_congr c hm _ _ (add_sub_cancel_left _ _)
    intro n i hk
    change s.velocity n i + c.dt / 2 * s.acceleration n i = t.velocity n i + c.dt / 2 * t.acceleration n i
    rw [hst.velocity n i hk, hst.acceleration]
  subst hvv
  have huu : s'.displacement = t'.displacement := by rw [hu, hu2, hst.displacement]; rfl
  rw [hst.state, hst.time, internal_flag hp _ _ _ _ ((c.every g).isOutputStep k), huu] at hF
  change _ = some _ at hF2
  have hFF := hF.symm.trans hF2
  simp only [Option.some.injEq, Prod.mk.injEq] at hFF
  obtain ⟨rfl, rfl⟩ := hFF
  rw [huu] at hC
  have hCC := hC.symm.trans hC2
  simp only [Option.some.injEq, Prod.mk.injEq] at hCC
  obtain ⟨rfl, rfl⟩ := hCC
  have hEE : E = E2 := by
    rw [hE, hE2, hst.state, hst.time]; exact external_flag hp _ _ _ _ _
  have haa : s'.acceleration = t'.acceleration := by rw [ha, ha2, hEE]; rfl
  have htt : s'.time = t'.time := by rw [ht, ht2, hst.time]; rfl
  have hvmm : vm = vm2 := by
    rw [hvm, hvm2, ← hst.time, huu]; rfl
  subst hvmm
  have hdiff : t'.time - t.time = c.dt := by rw [ht2]; exact add_sub_cancel_left _ _
  -- the velocity before the extra conditions
  have hraw : ∀ n i, Kept c n i → s'.velocity n i = axpy vm (c.dt / 2) s'.acceleration n i := by
    intro n i hk
    rw [hv]
    split_ifs
    · exact hk _ _ _ _ (add_sub_cancel_left _ _)
    · rfl
  have hraw2 : ∀ n i, Kept c n i → t'.velocity n i = axpy vm (c.dt / 2) t'.acceleration n i := by
    intro n i hk
    rw [hv2]
    split_ifs
    · exact hk _ _ _ _ (add_sub_cancel_left _ _)
    · rfl
  refine ⟨⟨htt, huu, haa, by rw [hs, hs2], fun n i hk => by rw [hraw n i hk, hraw2 n i hk, haa]⟩, ?_⟩
  intro hout
  rw [if_pos hout] at hv
  rw [hv, huu, hst.time]
  have e1 : t.time + (c.every f).dt = t'.time := ht2.symm
  rw [e1]
  apply kinematic_congr c hm _ _ hdiff
  intro n i hk
  rw [hraw2 n i hk, haa]
  rfl

theorem loop_same (c : Config K) (hm : c.manager.scheme ≠ .quasistatic) (p : Physics K S)
    (hp : IgnoresFlag p) (f g : ℤ) (s0 : S) (n : ℕ) (s : Sim K S)
    (h : loop (c.every f) p n (start c s0) = some s) :
    ∃ t, loop (c.every g) p n (start c s0) = some t ∧ Same c s t := by
  induction n generalizing s with
  | zero => rw [loop_zero] at h; cases h; exact ⟨_, rfl, ⟨rfl, rfl, rfl, rfl, fun _ _ _ => rfl⟩⟩
  | succ n ih =>
    rw [loop_succ, Option.bind_eq_some_iff] at h
    obtain ⟨s1, h1, h2⟩ := h
    obtain ⟨t1, ht1, hsame⟩ := ih s1 h1
    obtain ⟨t2, ht2, hsame2, -⟩ := step_same c hm p hp f g n s1 t1 s hsame h2
    exact ⟨t2, by rw [loop_succ, ht1]; exact ht2, hsame2⟩

/-- What is written for step `k` when it is written, read off the run that writes nothing. -/
def record (c : Config K) (p : Physics K S) (s0 : S) (k : ℕ) : Output K :=
  match loop (c.every 0) p (k + 1) (start c s0) with
  | some t => ⟨t.time, t.displacement, (kinematic c t.time (t.time - c.dt) t.displacement t.velocity).2,
      t.acceleration⟩
  | none => ⟨0, fun _ _ => 0, fun _ _ => 0, fun _ _ => 0⟩

open Classical in
theorem loop_records (c : Config K) (hm : c.manager.scheme ≠ .quasistatic) (p : Physics K S)
    (hp : IgnoresFlag p) (f : ℤ) (s0 : S) (n : ℕ) (s : Sim K S)
    (h : loop (c.every f) p n (start c s0) = some s) :
    s.outputs = (start c s0).outputs ++
      ((List.range n).filter fun k => decide (Written (c.every f) k)).map (record c p s0) := by
  induction n generalizing s with
  | zero => rw [loop_zero] at h; cases h; simp
  | succ n ih =>
    rw [loop_succ, Option.bind_eq_some_iff] at h
    obtain ⟨s1, h1, h2⟩ := h
    obtain ⟨t1, ht1, hsame⟩ := loop_same c hm p hp f 0 s0 n s1 h1
    obtain ⟨t2, ht2, hsame2, hvel⟩ := step_same c hm p hp f 0 n s1 t1 s hsame h2
    obtain ⟨_, _, _, _, _, _, _, _, _, _, _, _, _, _, _, htime, _, ho⟩ := step_spec (c.every f) hm p n s1 s h2
    obtain ⟨_, _, _, _, _, _, _, _, _, _, _, _, _, _, _, htime2, _, -⟩ := step_spec (c.every 0) hm p n t1 t2 ht2
    rw [ho, List.range_succ, List.filter_append, List.map_append, ← List.append_assoc, ← ih s1 h1]
    by_cases hw : Written (c.every f) n
    · rw [if_pos ((isOutputStep_iff _ n).mpr hw)]
      simp only [List.map_cons, List.map_nil, hw, decide_true, List.filter_cons_of_pos, List.filter_nil]
      congr 2
      have hl : loop (c.every 0) p (n + 1) (start c s0) = some t2 := by rw [loop_succ, ht1]; exact ht2
      unfold record
      rw [hl]
      have e : t2.time - c.dt = t1.time := by rw [htime2]; exact add_sub_cancel_right _ _
      simp only [e, ← hvel ((isOutputStep_iff _ n).mpr hw), hsame2.time, hsame2.displacement,
        hsame2.acceleration]
    · rw [if_neg (fun h => hw ((isOutputStep_iff _ n).mp h))]
      simp [hw]

/-- **C144, explicit.**  Two runs that differ only in the output frequency: either both are rejected, both
abort, or both finish, and then with the same time, displacements, accelerations and element state, and the
same velocities except possibly at degrees of freedom under a kinematic condition. -/
theorem explicit_results_independent_of_frequency (c : Config K) (hm : c.manager.scheme ≠ .quasistatic)
    (p : Physics K S) (hp : IgnoresFlag p) (s0 : S) (rank : ℕ) (f g : ℤ) :
    (integrate (c.every f) p s0 rank = .invalidArgument ↔ integrate (c.every g) p s0 rank = .invalidArgument) ∧
    (integrate (c.every f) p s0 rank = .abort ↔ integrate (c.every g) p s0 rank = .abort) ∧
    ∀ s, integrate (c.every f) p s0 rank = .finished s →
      ∃ t, integrate (c.every g) p s0 rank = .finished t ∧
        t.time = s.time ∧ t.displacement = s.displacement ∧ t.acceleration = s.acceleration ∧
        t.state = s.state ∧ ∀ n i, Free c.manager n i → t.velocity n i = s.velocity n i := by
  have hfin : ∀ f g s, integrate (c.every f) p s0 rank = .finished s →
      ∃ t, integrate (c.every g) p s0 rank = .finished t ∧
        t.time = s.time ∧ t.displacement = s.displacement ∧ t.acceleration = s.acceleration ∧
        t.state = s.state ∧ ∀ n i, Free c.manager n i → t.velocity n i = s.velocity n i := by
    intro f g s h
    unfold integrate at h
    split_ifs at h with hr
    cases hl : loop (c.every f) p (c.every f).numSteps (start (c.every f) s0) with
    | none => rw [hl] at h; simp at h
    | some s1 =>
      rw [hl] at h
      simp only [Result.finished.injEq] at h
      subst h
      obtain ⟨t, ht, hs⟩ := loop_same c hm p hp f g s0 c.numSteps s1 hl
      refine ⟨t, ?_, hs.time.symm, hs.displacement.symm, hs.acceleration.symm, hs.state.symm, ?_⟩
      · have ht' : loop (c.every g) p (c.every g).numSteps (start (c.every g) s0) = some t := ht
        have hr' : ¬ (rank = 0 ∧ (c.every g).finalTime < (c.every g).initialTime) := hr
        unfold integrate
        rw [if_neg hr', ht']
      · intro n i hf
        refine (hs.velocity n i ?_).symm
        intro tc tp u v _
        exact (free_dof_untouched c.manager tc tp c.X _ n i hf).2.1
  have hinv : ∀ f, integrate (c.every f) p s0 rank = .invalidArgument ↔
      (rank = 0 ∧ c.finalTime < c.initialTime) := by
    intro f
    unfold integrate
    change (if rank = 0 ∧ c.finalTime < c.initialTime then _ else _) = _ ↔ _
    by_cases hr : rank = 0 ∧ c.finalTime < c.initialTime
    · rw [if_pos hr]; simp [hr]
    · rw [if_neg hr]
      constructor
      · intro h
        cases hl : loop (c.every f) p (c.every f).numSteps (start (c.every f) s0) <;> rw [hl] at h <;> simp at h
      · intro h; exact absurd h hr
  refine ⟨by rw [hinv, hinv], ?_, hfin f g⟩
  have hab : ∀ f g, integrate (c.every f) p s0 rank = .abort → integrate (c.every g) p s0 rank = .abort := by
    intro f g h
    cases hg : integrate (c.every g) p s0 rank with
    | abort => rfl
    | invalidArgument =>
      rw [hinv, ← hinv f] at hg
      rw [h] at hg; simp at hg
    | finished t =>
      obtain ⟨s, hs, -⟩ := hfin g f t hg
      rw [h] at hs; simp at hs
  exact ⟨hab f g, hab g f⟩

open Classical in
/-- **C144, explicit, the output file.**  For every input there are an initial record and one record per
step such that, whatever the output frequency, the file of a finished run holds exactly the initial record
followed by those of the selected steps. -/
theorem explicit_outputs_independent_of_frequency (c : Config K) (hm : c.manager.scheme ≠ .quasistatic)
    (p : Physics K S) (hp : IgnoresFlag p) (s0 : S) (rank : ℕ) :
    ∃ (first : Output K) (each : ℕ → Output K), ∀ f s, integrate (c.every f) p s0 rank = .finished s →
      s.outputs = first :: ((List.range c.numSteps).filter fun (k : ℕ) =>
        decide (f ≠ 0 ∧ (f ∣ (k : ℤ) ∨ k + 1 = c.numSteps))).map each := by
  refine ⟨⟨c.initialTime, (start c s0).displacement, (start c s0).velocity, (start c s0).acceleration⟩,
    record c p s0, ?_⟩
  intro f s h
  unfold integrate at h
  split_ifs at h with hr
  cases hl : loop (c.every f) p (c.every f).numSteps (start (c.every f) s0) with
  | none => rw [hl] at h; simp at h
  | some s1 =>
    rw [hl] at h
    simp only [Result.finished.injEq] at h
    subst h
    refine (loop_records c hm p hp f s0 c.numSteps s1 hl).trans ?_
    refine congrArg (List.cons _) (congrArg (List.map _) (List.filter_congr fun k _ => ?_))
    rw [decide_eq_decide]
    rfl

/-- The final velocities too are equal when both runs write output. -/
theorem explicit_final_velocity (c : Config K) (hm : c.manager.scheme ≠ .quasistatic)
    (p : Physics K S) (hp : IgnoresFlag p) (s0 : S) (rank : ℕ) (f g : ℤ) (hf : f ≠ 0) (hg : g ≠ 0)
    (s t : Sim K S) (h : integrate (c.every f) p s0 rank = .finished s)
    (h' : integrate (c.every g) p s0 rank = .finished t) : s.velocity = t.velocity := by
  have red : ∀ f s, integrate (c.every f) p s0 rank = .finished s →
      loop (c.every f) p c.numSteps (start c s0) = some s := by
    intro f s h
    unfold integrate at h
    split_ifs at h with hr
    cases hl : loop (c.every f) p (c.every f).numSteps (start (c.every f) s0) with
    | none => rw [hl] at h; simp at h
    | some s1 =>
      rw [hl] at h
      simp only [Result.finished.injEq] at h
      subst h
      exact hl
  have hs := red f s h
  have ht := red g t h'
  have wr : ∀ f : ℤ, f ≠ 0 → ∀ n, n + 1 = c.numSteps → (c.every f).isOutputStep n = true :=
    fun f hf n hn => (isOutputStep_iff _ n).mpr ⟨hf, Or.inr hn⟩
  cases hn : c.numSteps with
  | zero =>
    rw [hn, loop_zero] at hs ht
    cases hs; cases ht; rfl
  | succ n =>
    rw [hn, loop_succ, Option.bind_eq_some_iff] at hs ht
    obtain ⟨s1, hs1, hs2⟩ := hs
    obtain ⟨t1, ht1, ht2⟩ := ht
    obtain ⟨r1, hr1, hsame⟩ := loop_same c hm p hp f 0 s0 n s1 hs1
    obtain ⟨q1, hq1, hsame'⟩ := loop_same c hm p hp g 0 s0 n t1 ht1
    rw [hr1] at hq1
    cases hq1
    obtain ⟨r2, hr2, -, hv⟩ := step_same c hm p hp f 0 n s1 r1 s hsame hs2
    obtain ⟨q2, hq2, -, hv'⟩ := step_same c hm p hp g 0 n t1 r1 t hsame' ht2
    rw [hr2] at hq2
    cases hq2
    rw [hv (wr f hf n hn.symm), hv' (wr g hg n hn.symm)]

omit [IsStrictOrderedRing K] in
/-- The forces of the code, for a mesh of hexahedral blocks, do not depend on the flag. -/
theorem meshPhysics_ignoresFlag (val : K) (X : Nodal K) (blocks : List (Assembly.Blk K × List ℕ)) :
    IgnoresFlag (meshPhysics val X blocks) := fun _ _ _ => ⟨rfl, fun _ => rfl⟩

/-! ## Quasistatic runs -/

/-- Specification: the force evaluation does not depend on whether the step is written. -/
def QIgnoresFlag (p : QPhysics K S) : Prop :=
  ∀ s tp tc u, p.internal s tp tc true u = p.internal s tp tc false u

/-- The same input with another `output_frequency`. -/
def QConfig.every (c : QConfig K) (f : ℤ) : QConfig K := { c with frequency := f }

omit [IsStrictOrderedRing K] in
theorem residual_flag (c : QConfig K) {p : QPhysics K S} (hp : QIgnoresFlag p) (f g : ℤ) (s : S) (tp tc : K)
    (a b : Bool) (u : Nodal K) :
    computeResidual (c.every f) p s tp tc a u = computeResidual (c.every g) p s tp tc b u := by
  have : p.internal s tp tc a u = p.internal s tp tc b u := by
    have := hp s tp tc u
    cases a <;> cases b <;> simp [this]
  unfold computeResidual
  rw [this]
  rfl

omit [IsStrictOrderedRing K] in
theorem newtonStep_flag (c : QConfig K) {p : QPhysics K S} (hp : QIgnoresFlag p) (f g : ℤ) (k i : ℕ)
    (tp tc : K) (a b : Bool) (x : Newton K S) :
    newtonStep (c.every f) p k i tp tc a x = newtonStep (c.every g) p k i tp tc b x := by
  unfold newtonStep
  have h : ∀ s u, computeResidual (c.every f) p s tp tc a u = computeResidual (c.every g) p s tp tc b u :=
    fun s u => residual_flag c hp f g s tp tc a b u
  simp only [h]
  rfl

omit [IsStrictOrderedRing K] in
theorem newtonLoop_flag (c : QConfig K) {p : QPhysics K S} (hp : QIgnoresFlag p) (f g : ℤ) (k : ℕ)
    (tp tc : K) (a b : Bool) (tol : K) (fuel i : ℕ) (x : Newton K S) :
    newtonLoop (c.every f) p k tp tc a tol fuel i x = newtonLoop (c.every g) p k tp tc b tol fuel i x := by
  induction fuel generalizing i x with
  | zero => rfl
  | succ n ih =>
    unfold newtonLoop
    rw [newtonStep_flag c hp f g k i tp tc a b x]
    split_ifs
    · cases newtonStep (c.every g) p k i tp tc b x with
      | error e => rfl
      | ok x => exact ih (i + 1) x
    · rfl

/-- One load step without the output: the converged variables and the velocity. -/
def qAdvance (c : QConfig K) (p : QPhysics K S) (k : ℕ) (s : QSim K S) : Except Stop (Newton K S × Nodal K) :=
  let uv := kinematic c.toConfig (s.time + c.dt) s.time s.displacement s.velocity
  match computeResidual (c.every 0) p s.state s.time (s.time + c.dt) false uv.1 with
  | none => .error .abort
  | some (r, residual, st) =>
    match newtonLoop (c.every 0) p k s.time (s.time + c.dt) false (c.relTol * residual) c.maxIter.toNat 0
        ⟨uv.1, s.trial, r, residual, st⟩ with
    | .error e => .error e
    | .ok (x, iteration) => if (iteration : ℤ) = c.maxIter then .error .failed else .ok (x, uv.2)

omit [IsStrictOrderedRing K] in
theorem loadStep_advance (c : QConfig K) {p : QPhysics K S} (hp : QIgnoresFlag p) (f : ℤ) (k : ℕ)
    (s : QSim K S) :
    loadStep (c.every f) p k s = (qAdvance c p k s).map fun xv =>
      { time := s.time + c.dt, displacement := xv.1.displacement, velocity := xv.2, trial := xv.1.trial,
        state := p.updateStates xv.1.state,
        outputs := if (c.every f).isOutputStep k = true then
          s.outputs ++ [(s.time + c.dt, xv.1.displacement, xv.1.state)] else s.outputs } := by
  have hr : ∀ u, computeResidual (c.every f) p s.state s.time (s.time + c.dt) ((c.every f).isOutputStep k) u
      = computeResidual (c.every 0) p s.state s.time (s.time + c.dt) false u :=
    fun u => residual_flag c hp f 0 _ _ _ _ _ u
  have hn : ∀ tol m x, newtonLoop (c.every f) p k s.time (s.time + c.dt) ((c.every f).isOutputStep k) tol m 0 x
      = newtonLoop (c.every 0) p k s.time (s.time + c.dt) false tol m 0 x :=
    fun tol m x => newtonLoop_flag c hp f 0 k _ _ _ _ tol m 0 x
  unfold loadStep qAdvance
  simp only
  have e1 : (c.every f).dt = c.dt := rfl
  have e3 : ∀ tc tp u v, kinematic (c.every f).toConfig tc tp u v = kinematic c.toConfig tc tp u v :=
    fun _ _ _ _ => rfl
  have e4 : (c.every f).maxIter = c.maxIter := rfl
  have e5 : (c.every f).relTol = c.relTol := rfl
  simp only [e1, e3, e4, e5] at hr hn ⊢
  rw [hr]
  cases computeResidual (c.every 0) p s.state s.time (s.time + c.dt) false
      (kinematic c.toConfig (s.time + c.dt) s.time s.displacement s.velocity).1 with
  | none => rfl
  | some r =>
    obtain ⟨r, residual, st⟩ := r
    simp only [hn]
    cases newtonLoop (c.every 0) p k s.time (s.time + c.dt) false (c.relTol * residual) c.maxIter.toNat 0
        ⟨(kinematic c.toConfig (s.time + c.dt) s.time s.displacement s.velocity).1, s.trial, r, residual, st⟩ with
    | error e => rfl
    | ok xi =>
      obtain ⟨x, i⟩ := xi
      simp only
      split_ifs <;> rfl

/-- A quasistatic run without what it wrote. -/
def QSim.core (s : QSim K S) : K × Nodal K × Nodal K × Nodal K × S :=
  (s.time, s.displacement, s.velocity, s.trial, s.state)

omit [IsStrictOrderedRing K] in
theorem advance_core (c : QConfig K) (p : QPhysics K S) (k : ℕ) (s t : QSim K S) (h : s.core = t.core) :
    qAdvance c p k s = qAdvance c p k t := by
  obtain ⟨st, su, sv, str, ss, so⟩ := s
  obtain ⟨tt, tu, tv, ttr, ts, to'⟩ := t
  simp only [QSim.core, Prod.mk.injEq] at h
  obtain ⟨rfl, rfl, rfl, rfl, rfl⟩ := h
  rfl

omit [IsStrictOrderedRing K] in
theorem qLoop_append (c : QConfig K) (p : QPhysics K S) (n : ℕ) (s : QSim K S) :
    qLoop c p (n + 1) s = (qLoop c p n s).bind (loadStep c p n) := by
  unfold qLoop
  rw [List.range_succ (n := n), List.foldlM_append]
  simp only [List.foldlM_cons, List.foldlM_nil]
  cases List.foldlM (fun s k => loadStep c p k s) s (List.range n) with
  | error e => rfl
  | ok s =>
    change (loadStep c p n s >>= pure) = loadStep c p n s
    exact bind_pure _

/-- What is written after load step `k` when it is written, read off the run that writes nothing. -/
def qRecord (c : QConfig K) (p : QPhysics K S) (s0 : S) (k : ℕ) : K × Nodal K × S :=
  match qLoop (c.every 0) p k (qStart c s0) with
  | .ok t => match qAdvance c p k t with
    | .ok xv => (t.time + c.dt, xv.1.displacement, xv.1.state)
    | .error _ => (0, fun _ _ => 0, s0)
  | .error _ => (0, fun _ _ => 0, s0)

omit [IsStrictOrderedRing K] in
theorem written_iff (c : QConfig K) (f : ℤ) (k : ℕ) :
    (c.every f).isOutputStep k = true ↔ Written (c.toConfig.every f) k := by
  unfold Config.isOutputStep Written
  simp only [decide_eq_true_eq, Int.dvd_iff_emod_eq_zero]
  have : ((k : ℤ) = ((c.every f).numSteps : ℤ) - 1) ↔ k + 1 = (c.toConfig.every f).numSteps := by
    change ((k : ℤ) = (c.numSteps : ℤ) - 1) ↔ k + 1 = c.numSteps
    omega
  rw [this]
  rfl

open Classical in
omit [IsStrictOrderedRing K] in
theorem qLoop_flag (c : QConfig K) {p : QPhysics K S} (hp : QIgnoresFlag p) (f : ℤ) (s0 : S) (n : ℕ) :
    (∃ e, qLoop (c.every f) p n (qStart c s0) = .error e ∧ qLoop (c.every 0) p n (qStart c s0) = .error e) ∨
    ∃ s t, qLoop (c.every f) p n (qStart c s0) = .ok s ∧ qLoop (c.every 0) p n (qStart c s0) = .ok t ∧
      s.core = t.core ∧
      s.outputs = (qStart c s0).outputs ++
        ((List.range n).filter fun k => decide (Written (c.toConfig.every f) k)).map (qRecord c p s0) := by
  induction n with
  | zero => right; exact ⟨_, _, rfl, rfl, rfl, by simp⟩
  | succ n ih =>
    rcases ih with ⟨e, h1, h2⟩ | ⟨s, t, h1, h2, hc, ho⟩
    · left; exact ⟨e, by rw [qLoop_append, h1]; rfl, by rw [qLoop_append, h2]; rfl⟩
    · have hs : qLoop (c.every f) p (n + 1) (qStart c s0) = loadStep (c.every f) p n s := by
        rw [qLoop_append, h1]; rfl
      have ht : qLoop (c.every 0) p (n + 1) (qStart c s0) = loadStep (c.every 0) p n t := by
        rw [qLoop_append, h2]; rfl
      rw [loadStep_advance c hp, advance_core c p n s t hc] at hs
      rw [loadStep_advance c hp] at ht
      cases ha : qAdvance c p n t with
      | error e =>
        rw [ha] at hs ht
        left; exact ⟨e, hs, ht⟩
      | ok xv =>
        rw [ha] at hs ht
        right
        refine ⟨_, _, hs, ht, ?_, ?_⟩
        · simp only [QSim.core, Prod.mk.injEq] at hc
          simp [QSim.core, hc.1]
        · simp only [List.range_succ, List.filter_append, List.map_append, ← List.append_assoc, ← ho]
          have hw : (c.every f).isOutputStep n = true ↔ Written (c.toConfig.every f) n := written_iff c f n
          by_cases hn : Written (c.toConfig.every f) n
          · rw [if_pos (hw.mpr hn)]
            simp only [QSim.core, Prod.mk.injEq] at hc
            simp [hn, qRecord, h2, ha, hc.1]
          · rw [if_neg (fun h => hn (hw.mp h))]
            simp [hn]

/-- Specification: a finished or stopped quasistatic run without what it wrote. -/
def QResult.core : QResult K S → QResult K S
  | .invalidArgument => .invalidArgument
  | .finished s => .finished { s with outputs := [] }
  | .stopped e => .stopped e

omit [IsStrictOrderedRing K] in
/-- **C144, quasistatic.**  The result of a run (rejected, stopped and why, or finished with which time,
displacements, velocities and element state) does not depend on the output frequency. -/
theorem quasistatic_results_independent_of_frequency (c : QConfig K) (p : QPhysics K S)
    (hp : QIgnoresFlag p) (s0 : S) (f g : ℤ) :
    (qIntegrate (c.every f) p s0).core = (qIntegrate (c.every g) p s0).core := by
  have h0 : ∀ f, (qIntegrate (c.every f) p s0).core = (qIntegrate (c.every 0) p s0).core := by
    intro f
    unfold qIntegrate
    change QResult.core (if c.numRanks > 1 then _ else if c.finalTime < c.initialTime then _ else
        match qLoop (c.every f) p c.numSteps (qStart c s0) with | .ok s => _ | .error e => _)
      = QResult.core (if c.numRanks > 1 then _ else if c.finalTime < c.initialTime then _ else
        match qLoop (c.every 0) p c.numSteps (qStart c s0) with | .ok s => _ | .error e => _)
    split_ifs
    · rfl
    · rfl
    · rcases qLoop_flag c hp f s0 c.numSteps with ⟨e, h1, h2⟩ | ⟨s, t, h1, h2, hc, -⟩
      · rw [h1, h2]
      · rw [h1, h2]
        simp only [QSim.core, Prod.mk.injEq] at hc
        obtain ⟨st, su, sv, str, ss, so⟩ := s
        obtain ⟨tt, tu, tv, ttr, ts, to'⟩ := t
        simp only at hc
        obtain ⟨rfl, rfl, rfl, rfl, rfl⟩ := hc
        rfl
  rw [h0 f, h0 g]

omit [IsStrictOrderedRing K] in
open Classical in
/-- **C144, quasistatic, the output file.**  There are an initial record and one record per load step such
that, whatever the output frequency, a finished run has written the initial record and those of the selected
steps. -/
theorem quasistatic_outputs_independent_of_frequency (c : QConfig K) (p : QPhysics K S)
    (hp : QIgnoresFlag p) (s0 : S) :
    ∃ (first : K × Nodal K × S) (each : ℕ → K × Nodal K × S), ∀ f s,
      qIntegrate (c.every f) p s0 = .finished s →
      s.outputs = first :: ((List.range c.numSteps).filter fun (k : ℕ) =>
        decide (f ≠ 0 ∧ (f ∣ (k : ℤ) ∨ k + 1 = c.numSteps))).map each := by
  refine ⟨(c.initialTime, (qStart c s0).displacement, s0), qRecord c p s0, ?_⟩
  · intro f s h
    unfold qIntegrate at h
    split_ifs at h
    have hl : qLoop (c.every f) p c.numSteps (qStart c s0) = .ok s := by
      cases hl : qLoop (c.every f) p c.numSteps (qStart c s0) with
      | error e =>
        have : qLoop (c.every f) p (c.every f).numSteps (qStart (c.every f) s0) = .error e := hl
        rw [this] at h; simp at h
      | ok s1 =>
        have : qLoop (c.every f) p (c.every f).numSteps (qStart (c.every f) s0) = .ok s1 := hl
        rw [this] at h; simpa using h
    rcases qLoop_flag c hp f s0 c.numSteps with ⟨e, h1, -⟩ | ⟨s1, t, h1, -, -, ho⟩
    · rw [hl] at h1; simp at h1
    · rw [hl] at h1
      cases h1
      refine ho.trans ?_
      refine congrArg (List.cons _) (congrArg (List.map _) (List.filter_congr fun k _ => ?_))
      rw [decide_eq_decide]
      rfl

/-! ## A concrete input -/

/-- Nodes on springs, under the conditions of `demoManager`, three steps of size 1. -/
def frequencyDemo : Config ℚ where
  manager := demoManager
  X := fun n i => if i = 0 then n else 0
  mass := fun _ => 2
  initialTime := 0
  finalTime := 3
  numSteps := 3
  frequency := 1

/-- Springs to the reference position. -/
def countedSprings : Physics ℚ ℕ where
  external := fun _ _ _ _ => fun _ i => if i = 1 then 1 else 0
  internal := fun s _ _ _ u => some (fun n i => -u n i, s + 1)
  contact := none
  updateStates := fun s => s + 10

/-- What a run of the demonstration shows: final state, times written, a displacement and two velocities. -/
def frequencyDemoRun (f : ℤ) : Option (ℕ × List ℚ × ℚ × ℚ × ℚ) :=
  match integrate (frequencyDemo.every f) countedSprings 0 0 with
  | .finished s => some (s.state, s.outputs.map Output.time, s.displacement 1 1, s.velocity 1 1, s.velocity 1 0)
  | _ => none

/-- Non-vacuity: the hypotheses hold, the runs finish and write different steps, and the claim about the
velocity is sharp: that of the governed degree of freedom (node 1, coordinate 0) differs when nothing is
written, that of the free one (node 1, coordinate 1) does not. -/
example : IgnoresFlag countedSprings ∧ frequencyDemo.manager.scheme ≠ .quasistatic ∧
    frequencyDemoRun 1 = some (33, [0, 1, 2, 3], 10, -13/4, 0) ∧
    frequencyDemoRun 2 = some (33, [0, 1, 3], 10, -13/4, 0) ∧
    frequencyDemoRun 0 = some (33, [0], 10, -13/4, -5/2) := by
  refine ⟨fun _ _ _ => ⟨rfl, fun _ => rfl⟩, by decide, ?_, ?_, ?_⟩
  all_goals decide +kernel

/-- Non-vacuity, quasistatic: two runs that converge and write different steps. -/
example : QIgnoresFlag spring ∧
    (qIntegrate ((springConfig 10).every 1) spring 0).summary 2 (fun s : ℕ => (s : ℚ))
      = some [(0, [0, 0], 0), (1, [3, 3], 3), (2, [6, 6], 6)] ∧
    (qIntegrate ((springConfig 10).every 0) spring 0).summary 2 (fun s : ℕ => (s : ℚ)) = some [(0, [0, 0], 0)] := by
  refine ⟨fun _ _ _ _ => rfl, ?_, ?_⟩
  all_goals decide +kernel

end NimbleSM.Integrate
