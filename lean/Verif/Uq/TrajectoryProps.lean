import Verif.Uq.Trajectory
import Verif.Uq.ClosureProps
import Verif.Integrate.ExplicitProps

/-!
# C77, C80: the trajectories of the samples and of the nominal solution
-/

namespace NimbleSM.Uq

open NimbleSM.Bc NimbleSM.Integrate NimbleSM.Hex NimbleSM.Constitutive NimbleSM.Assembly
open NimbleSM.Deck (Str)

variable {K S : Type} [Field K] [LinearOrder K]

/-! ## The pieces of a step -/

omit [LinearOrder K] [Field K] in
theorem foldl_put (g : ℕ → K → K) (v : ℕ → K) : ∀ n k,
    (List.range n).foldl (fun v i => put v i (g i (v i))) v k = if k < n then g k (v k) else v k := by
  intro n
  induction n with
  | zero => intro k; simp
  | succ n ih =>
    intro k
    rw [List.range_succ, List.foldl_append]
    simp only [List.foldl_cons, List.foldl_nil, put]
    by_cases h : k = n
    · subst h; rw [if_pos rfl, ih, if_neg (by omega), if_pos (by omega)]
    · rw [if_neg h, ih]
      by_cases h' : k < n
      · rw [if_pos h', if_pos (by omega)]
      · rw [if_neg h', if_neg (by omega)]

omit [LinearOrder K] in
theorem updateVelocity_at (c : Config K) (N : ℕ) (ext : Nodal K) (dt : K) (s : Sample K) {n i : ℕ} (hn : n < N) (hi : i < 3) :
    (updateVelocity c (3 * N) ext dt s).v (3 * n + i) =
      s.v (3 * n + i) + dt * (1 / c.mass n * (s.f (3 * n + i) + ext n i)) := by
  unfold updateVelocity
  simp only
  rw [foldl_put (fun i x => x + dt * (1 / c.mass (i / 3) * (s.f i + flat ext i))), if_pos (by omega)]
  have h1 : (3 * n + i) / 3 = n := by omega
  have h2 : (3 * n + i) % 3 = i := by omega
  simp only [flat, h1, h2]

omit [LinearOrder K] in
theorem updateDisplacement_at (N : ℕ) (dt : K) (s : Sample K) {n i : ℕ} (hn : n < N) (hi : i < 3) :
    (updateDisplacement (3 * N) dt s).u (3 * n + i) = s.u (3 * n + i) + dt * s.v (3 * n + i) := by
  unfold updateDisplacement
  simp only
  rw [foldl_put (fun i x => x + dt * s.v i), if_pos (by omega)]

omit [Field K] [LinearOrder K] in
theorem flat_at (w : Nodal K) {n i : ℕ} (hi : i < 3) : flat w (3 * n + i) = w n i := by
  have h1 : (3 * n + i) / 3 = n := by omega
  have h2 : (3 * n + i) % 3 = i := by omega
  simp only [flat, h1, h2]

/-- The values of the off-nominal velocity `j` and of a reference velocity agree at one degree of freedom. -/
def Agree (j n i : ℕ) (o : List (Nodal K)) (v : Nodal K) : Prop := ∃ w, o[j]? = some w ∧ w n i = v n i

omit [Field K] [LinearOrder K] in
theorem agree_setAt {j n i : ℕ} {o : List (Nodal K)} {v : Nodal K} (h : Agree j n i o v) (a b : ℕ) (x : K) :
    Agree j n i (o.map fun w => setAt w a b x) (setAt v a b x) := by
  obtain ⟨w, hw, he⟩ := h
  refine ⟨setAt w a b x, by simp [hw], ?_⟩
  simp only [setAt, he]

/-- No condition prescribes a displacement. -/
def NoPrescribedDisplacement (m : Manager K) : Prop := ∀ bc ∈ m.bcs, bc.type ≠ .prescribedDisplacement

theorem kin_agree (m : Manager K) (hm : NoPrescribedDisplacement m) (tc tp : K) (X : Nodal K) (s s' : Kin K) (j n i : ℕ)
    (h : Agree j n i s.offnom s'.velocity) :
    Agree j n i (applyKinematicBC m tc tp X s).offnom (applyKinematicBC m tc tp X s').velocity := by
  unfold applyKinematicBC
  unfold NoPrescribedDisplacement at hm
  simp only
  generalize m.bcs = l at hm ⊢
  induction l generalizing s s' with
  | nil => exact h
  | cons bc l ih =>
    rw [List.foldl_cons, List.foldl_cons]
    refine ih _ _ ?_ (fun b hb => hm b (by simp [hb]))
    unfold kinematicBc
    split
    · generalize m.nodeSet bc = ns
      induction ns generalizing s s' with
      | nil => exact h
      | cons a ns ihn =>
        rw [List.foldl_cons, List.foldl_cons]
        exact ihn _ _ (agree_setAt h _ _ _)
    · rw [if_neg (fun hh => hm bc (by simp) hh.1), if_neg (fun hh => hm bc (by simp) hh.1)]
      exact h

/-- Two off-nominal velocities are treated alike, whatever the conditions. -/
theorem kin_alike (m : Manager K) (tc tp : K) (X : Nodal K) (s : Kin K) (j k n i : ℕ)
    (h : ∃ a b, s.offnom[j]? = some a ∧ s.offnom[k]? = some b ∧ a n i = b n i) :
    ∃ a b, (applyKinematicBC m tc tp X s).offnom[j]? = some a ∧ (applyKinematicBC m tc tp X s).offnom[k]? = some b ∧ a n i = b n i := by
  unfold applyKinematicBC
  simp only
  generalize m.bcs = l
  induction l generalizing s with
  | nil => exact h
  | cons bc l ih =>
    rw [List.foldl_cons]
    refine ih _ ?_
    unfold kinematicBc
    split
    · generalize m.nodeSet bc = ns
      induction ns generalizing s with
      | nil => exact h
      | cons a ns ihn =>
        rw [List.foldl_cons]
        refine ihn _ ?_
        obtain ⟨x, y, hx, hy, he⟩ := h
        exact ⟨_, _, by simp only [velocityNode]; rw [List.getElem?_map, hx]; rfl, by simp only [velocityNode]; rw [List.getElem?_map, hy]; rfl, by simp only [setAt, he]⟩
    · split
      · generalize m.nodeSet bc = ns
        induction ns generalizing s with
        | nil => exact h
        | cons a ns ihn =>
          rw [List.foldl_cons]
          exact ihn _ h
      · exact h

theorem initial_agree (m : Manager K) (X : Nodal K) (v v' : Nodal K) (o o' : List (Nodal K)) (j n i : ℕ) (h : Agree j n i o v') :
    Agree j n i (applyInitialConditions m X v o).2 (applyInitialConditions m X v' o').1 := by
  rw [applyInitialConditions_eq, applyInitialConditions_eq]
  generalize m.bcs = l
  induction l generalizing v v' o o' with
  | nil => exact h
  | cons bc l ih =>
    rw [List.foldl_cons, List.foldl_cons]
    have key : Agree j n i (initialBc m X (v, o) bc).2 (initialBc m X (v', o') bc).1 := by
      unfold initialBc
      split
      · generalize m.nodeSet bc = ns
        induction ns generalizing v v' o o' with
        | nil => exact h
        | cons a ns ihn =>
          rw [List.foldl_cons, List.foldl_cons]
          exact ihn _ _ _ _ (agree_setAt h _ _ _)
      · exact h
    exact ih _ _ _ _ key

/-- The nominal fields do not depend on the off-nominal ones. -/
theorem kin_nominal (m : Manager K) (tc tp : K) (X : Nodal K) (s s' : Kin K) (hd : s.displacement = s'.displacement)
    (hv : s.velocity = s'.velocity) :
    (applyKinematicBC m tc tp X s).displacement = (applyKinematicBC m tc tp X s').displacement ∧
      (applyKinematicBC m tc tp X s).velocity = (applyKinematicBC m tc tp X s').velocity := by
  unfold applyKinematicBC
  simp only
  generalize m.bcs = l
  induction l generalizing s s' with
  | nil => exact ⟨hd, hv⟩
  | cons bc l ih =>
    rw [List.foldl_cons, List.foldl_cons]
    have key : (kinematicBc m X tc (tc - tp) s bc).displacement = (kinematicBc m X tc (tc - tp) s' bc).displacement ∧
        (kinematicBc m X tc (tc - tp) s bc).velocity = (kinematicBc m X tc (tc - tp) s' bc).velocity := by
      unfold kinematicBc
      split
      · generalize m.nodeSet bc = ns
        induction ns generalizing s s' with
        | nil => exact ⟨hd, hv⟩
        | cons a ns ihn =>
          rw [List.foldl_cons, List.foldl_cons]
          exact ihn _ _ (by simp only [velocityNode, hd]) (by simp only [velocityNode, hv])
      · split
        · generalize m.nodeSet bc = ns
          induction ns generalizing s s' with
          | nil => exact ⟨hd, hv⟩
          | cons a ns ihn =>
            rw [List.foldl_cons, List.foldl_cons]
            exact ihn _ _ (by simp only [displacementNode, hd]) (by simp only [displacementNode, hv, hd])
        · exact ⟨hd, hv⟩
    exact ih _ _ key.1 key.2

theorem initial_nominal (m : Manager K) (X v : Nodal K) (o o' : List (Nodal K)) :
    (applyInitialConditions m X v o).1 = (applyInitialConditions m X v o').1 := by
  rw [applyInitialConditions_eq, applyInitialConditions_eq]
  generalize m.bcs = l
  induction l generalizing v o o' with
  | nil => rfl
  | cons bc l ih =>
    rw [List.foldl_cons, List.foldl_cons]
    have key : (initialBc m X (v, o) bc).1 = (initialBc m X (v, o') bc).1 := by
      unfold initialBc
      split
      · generalize m.nodeSet bc = ns
        induction ns generalizing v o o' with
        | nil => rfl
        | cons a ns ihn =>
          rw [List.foldl_cons, List.foldl_cons]
          exact ihn _ _ _
      · rfl
    rcases h1 : initialBc m X (v, o) bc with ⟨a, b⟩
    rcases h2 : initialBc m X (v, o') bc with ⟨a', b'⟩
    rw [h1, h2] at key
    subst key
    exact ih _ _ _

theorem kinematicU_nominal (c : Config K) (g : Setup K) (tc tp : K) (u v : Nodal K) (samples : ℕ → Sample K) :
    (kinematicU c g tc tp u v samples).1 = (kinematic c tc tp u v).1 ∧
      (kinematicU c g tc tp u v samples).2.1 = (kinematic c tc tp u v).2 :=
  kin_nominal _ _ _ _ _ _ rfl rfl

/-! ## C80: the nominal solution -/

theorem ustep_nominal (c : Config K) (g : Setup K) (p : UPhysics K S) (k : ℕ) (s s' : USim K S) (h : ustep c g p k s = some s') :
    step c p.base k s.sim = some s'.sim := by
  unfold ustep at h
  simp only [Option.bind_eq_bind, Option.bind_eq_some_iff] at h
  obtain ⟨⟨internal, st⟩, h1, samples, h2, ⟨contact, st'⟩, h3, h⟩ := h
  simp only [Option.some.injEq] at h
  subst h
  unfold step
  simp only [kinematicU_nominal] at h1 h3 ⊢
  simp only [h1, h3, Option.bind_eq_bind, Option.bind_some]
  cases c.isOutputStep k <;> simp [kinematicU_nominal]

theorem uloop_succ (c : Config K) (g : Setup K) (p : UPhysics K S) (n : ℕ) (s : USim K S) :
    uloop c g p (n + 1) s = (uloop c g p n s).bind fun s => ustep c g p n s := by
  unfold uloop
  rw [List.range_succ, List.foldlM_append]
  cases (List.range n).foldlM (fun s k => ustep c g p k s) s <;> simp

theorem ustart_nominal (c : Config K) (g : Setup K) (s : S) : (ustart c g s).sim = start c s := by
  unfold ustart start
  simp only [kinematicU_nominal, initial_nominal c.manager c.X (fun _ _ => 0) _ []]

variable [IsStrictOrderedRing K]

/-- **C80.**  A run with samples produces, step by step, exactly the nominal fields (and hence the nominal output) of
the run without samples, for every boundary condition and with or without contact. -/
theorem nominal_undisturbed (c : Config K) (g : Setup K) (p : UPhysics K S) (s : S) (n : ℕ) (U : USim K S)
    (h : uloop c g p n (ustart c g s) = some U) : loop c p.base n (start c s) = some U.sim := by
  induction n generalizing U with
  | zero => cases h; rw [loop_zero, ustart_nominal]
  | succ n ih =>
    rw [uloop_succ, Option.bind_eq_some_iff] at h
    obtain ⟨U1, h1, h2⟩ := h
    rw [loop_succ, ih U1 h1]
    exact ustep_nominal c g p n U1 U h2

/-! ## C77: an exact sample -/

theorem kinematicU_sample (c : Config K) (hm : NoPrescribedDisplacement c.manager) (g : Setup K) (tc tp : K) (u v u' v' : Nodal K)
    (samples : ℕ → Sample K) (j : ℕ) (hj : j < g.nexact + g.napprox) (n i : ℕ) (hi : i < 3)
    (h : (samples j).v (3 * n + i) = v' n i) :
    ((kinematicU c g tc tp u v samples).2.2 j).v (3 * n + i) = (kinematic c tc tp u' v').2 n i := by
  have ha := kin_agree c.manager hm tc tp c.X
    { displacement := u, velocity := v, offnom := (List.range (g.nexact + g.napprox)).map fun j => view (samples j).v }
    { displacement := u', velocity := v', offnom := [] } j n i ⟨view (samples j).v, by simp [hj], h⟩
  obtain ⟨w, hw, he⟩ := ha
  unfold kinematicU
  simp only [hw, Option.map_some, Option.getD_some]
  rw [flat_at w hi, he]
  rfl

omit [LinearOrder K] in
theorem mapM_getElem {A B : Type} (f : A → Option B) : ∀ (l : List A) (r : List B), l.mapM f = some r →
    r.length = l.length ∧ ∀ (k : ℕ) (a : A), l[k]? = some a → ∃ b, f a = some b ∧ r[k]? = some b := by
  intro l
  induction l with
  | nil => intro r h; simp at h; subst h; simp
  | cons a l ih =>
    intro r h
    rw [List.mapM_cons] at h
    simp only [Option.bind_eq_bind, Option.bind_eq_some_iff] at h
    obtain ⟨b, hb, bs, hbs, h⟩ := h
    cases h
    obtain ⟨h1, h2⟩ := ih bs hbs
    refine ⟨by simp [h1], fun k x hk => ?_⟩
    cases k with
    | zero => simp at hk; subst hk; exact ⟨b, hb, rfl⟩
    | succ k => simpa using h2 k x (by simpa using hk)

theorem sampleForces_spec {g : Setup K} {p : UPhysics K S} {nominal : Nodal K} {samples r : ℕ → Sample K}
    (h : sampleForces g p nominal samples = some r) :
    0 < g.napprox ∧ (∀ j, (r j).u = (samples j).u ∧ (r j).v = (samples j).v) ∧
      (∀ k < g.nexact, p.exact k (samples k).u = some (r k).f) ∧
      ∀ s < g.napprox, ∀ j < 3 * g.nnodes, (r (g.nexact + s)).f j =
        interpolation g.nexact (g.coeff s) (flat nominal j) (fun k => (r k).f j) := by
  unfold sampleForces at h
  simp only [Option.bind_eq_bind, Option.bind_eq_some_iff] at h
  obtain ⟨exact, h1, forces, h2, h⟩ := h
  cases h
  obtain ⟨hl, hx⟩ := mapM_getElem _ _ _ h1
  simp only [List.length_range] at hl
  unfold reduceSamples at h2
  rw [reduce_steps] at h2
  split at h2
  swap
  · cases h2
  rename_i hlen
  simp only [List.length_append, hl, List.length_replicate] at hlen
  simp only [List.map_id, List.take_append_drop, Option.some.injEq] at h2
  subst h2
  have hexact : ∀ k < g.nexact, ∃ f, p.exact k (samples k).u = some f ∧ (exact ++ List.replicate g.napprox fun _ => (0 : K)).getD k (fun _ => 0) = f := by
    intro k hk
    obtain ⟨f, hf, hr⟩ := hx k k (by simp [hk])
    refine ⟨f, hf, ?_⟩
    rw [List.getD_eq_getElem?_getD, List.getElem?_append_left (by omega), hr]
    rfl
  refine ⟨by omega, fun j => ⟨rfl, rfl⟩, fun k hk => ?_, fun s hs j hj => ?_⟩
  · obtain ⟨f, hf, hr⟩ := hexact k hk
    rw [hf]
    simp only
    rw [closure_exact_unchanged _ _ _ _ _ _ k hk, hr]
  · simp only
    rw [closure_spec, if_pos (by omega), show g.nexact + s - g.nexact = s by omega]
    unfold interpolation
    congr 1
    apply Finset.sum_congr rfl
    intro k hk
    beta_reduce
    rw [closure_exact_unchanged _ _ _ _ _ _ k (Finset.mem_range.1 hk)]

/-- The sample's arrays hold the fields of a separate run on the nodes of the mesh; the separate run's acceleration is
the one the sample's forces give. -/
structure Follows (c : Config K) (g : Setup K) {S' : Type} (k : ℕ) (U : USim K S) (V : Sim K S') : Prop where
  time : U.sim.time = V.time
  u : ∀ n < g.nnodes, ∀ i < 3, (U.samples k).u (3 * n + i) = V.displacement n i
  v : ∀ n < g.nnodes, ∀ i < 3, (U.samples k).v (3 * n + i) = V.velocity n i
  a : ∀ n < g.nnodes, ∀ i < 3, 1 / c.mass n * ((U.samples k).f (3 * n + i) + U.external n i) = V.acceleration n i

/-- A separate run computes the forces of the sample: its internal force is the sample's wherever displacements agree on
the mesh, and its external force is that of the run with samples. -/
structure SameForces (g : Setup K) (p : UPhysics K S) {S' : Type} (q : Physics K S') (k : ℕ) : Prop where
  internal : ∀ (u f : ℕ → K) (w : Nodal K) (s' : S') (tp tc : K) (o : Bool), p.exact k u = some f →
    (∀ n < g.nnodes, ∀ i < 3, u (3 * n + i) = w n i) →
    ∃ f' s'', q.internal s' tp tc o w = some (f', s'') ∧ ∀ n < g.nnodes, ∀ i < 3, f (3 * n + i) = f' n i
  external : ∀ s s' tp tc o, ∀ n < g.nnodes, ∀ i < 3, p.base.external s tp tc o n i = q.external s' tp tc o n i

theorem ustep_follows (c : Config K) (hexp : c.manager.scheme ≠ .quasistatic) (hm : NoPrescribedDisplacement c.manager)
    (g : Setup K) (p : UPhysics K S) {S' : Type} (q : Physics K S') (hq : q.contact = none) (k : ℕ) (hk : k < g.nexact)
    (hp : SameForces g p q k) (m : ℕ) (U U' : USim K S) (V : Sim K S') (hf : Follows c g k U V)
    (h : ustep c g p m U = some U') : ∃ V', step c q m V = some V' ∧ Follows c g k U' V' := by
  unfold ustep at h
  simp only [Option.bind_eq_bind, Option.bind_eq_some_iff] at h
  obtain ⟨⟨internal, st⟩, -, samples, h2, ⟨contact, st'⟩, -, h⟩ := h
  simp only [Option.some.injEq] at h
  have hks : k < g.nexact + g.napprox := by omega
  unfold step
  generalize c.isOutputStep m = o at h ⊢
  obtain ⟨-, huv, hex, -⟩ := sampleForces_spec h2
  have hex := hex k hk
  rw [hf.time] at h hex huv
  -- velocities after the first half step
  have hv1 := fun n (hn : n < g.nnodes) i (hi : i < 3) => by
    have := updateVelocity_at c g.nnodes U.external (0.5 * (V.time + c.dt - V.time)) (U.samples k) hn hi
    rw [hf.v n hn i hi, hf.a n hn i hi] at this
    exact this
  -- after the kinematic conditions
  have hv2 := fun n (hn : n < g.nnodes) i (hi : i < 3) =>
    kinematicU_sample c hm g (V.time + c.dt) V.time U.sim.displacement (axpy U.sim.velocity (0.5 * (V.time + c.dt - V.time)) U.sim.acceleration)
      V.displacement (axpy V.velocity (0.5 * (V.time + c.dt - V.time)) V.acceleration)
      (fun j => updateVelocity c (3 * g.nnodes) U.external (0.5 * (V.time + c.dt - V.time)) (U.samples j)) k hks n i hi (hv1 n hn i hi)
  set K1 := kinematicU c g (V.time + c.dt) V.time U.sim.displacement (axpy U.sim.velocity (0.5 * (V.time + c.dt - V.time)) U.sim.acceleration)
    (fun j => updateVelocity c (3 * g.nnodes) U.external (0.5 * (V.time + c.dt - V.time)) (U.samples j)) with hK1
  set k1 := kinematic c (V.time + c.dt) V.time V.displacement (axpy V.velocity (0.5 * (V.time + c.dt - V.time)) V.acceleration) with hk1
  have hk1d : k1.1 = V.displacement := applyKinematicBC_displacement c.manager hexp _ _ _ _
  have hK1u : (K1.2.2 k).u = (U.samples k).u := rfl
  -- displacements
  have hu1 : ∀ n < g.nnodes, ∀ i < 3, (updateDisplacement (3 * g.nnodes) (V.time + c.dt - V.time) (K1.2.2 k)).u (3 * n + i) =
      axpy k1.1 (V.time + c.dt - V.time) k1.2 n i := by
    intro n hn i hi
    rw [updateDisplacement_at _ _ _ hn hi, hK1u, hf.u n hn i hi, hv2 n hn i hi, hk1d]
    rfl
  have hv3 := fun n (hn : n < g.nnodes) i (hi : i < 3) =>
    kinematicU_sample c hm g (V.time + c.dt) V.time (axpy K1.1 (V.time + c.dt - V.time) K1.2.1) K1.2.1
      (axpy k1.1 (V.time + c.dt - V.time) k1.2) k1.2
      (fun j => updateDisplacement (3 * g.nnodes) (V.time + c.dt - V.time) (K1.2.2 j)) k hks n i hi (hv2 n hn i hi)
  set K2 := kinematicU c g (V.time + c.dt) V.time (axpy K1.1 (V.time + c.dt - V.time) K1.2.1) K1.2.1
    (fun j => updateDisplacement (3 * g.nnodes) (V.time + c.dt - V.time) (K1.2.2 j)) with hK2
  set k2 := kinematic c (V.time + c.dt) V.time (axpy k1.1 (V.time + c.dt - V.time) k1.2) k1.2 with hk2
  have hk2d : k2.1 = axpy k1.1 (V.time + c.dt - V.time) k1.2 := applyKinematicBC_displacement c.manager hexp _ _ _ _
  have hu2 : ∀ n < g.nnodes, ∀ i < 3, (K2.2.2 k).u (3 * n + i) = k2.1 n i := by
    intro n hn i hi
    rw [hk2d, ← hu1 n hn i hi]
    rfl
  obtain ⟨f', s'', hint, hff⟩ := hp.internal (K2.2.2 k).u (samples k).f k2.1 V.state V.time (V.time + c.dt) o hex hu2
  have hext := hp.external U.sim.state V.state V.time (V.time + c.dt) o
  have hacc : ∀ n < g.nnodes, ∀ i < 3, 1 / c.mass n * ((samples k).f (3 * n + i) + (p.base.external U.sim.state V.time (V.time + c.dt) o) n i) = accel c f' (q.external V.state V.time (V.time + c.dt) o) none n i := by
    intro n hn i hi
    rw [hff n hn i hi, hext n hn i hi]
    rfl
  have hv4 : ∀ n < g.nnodes, ∀ i < 3,
      (updateVelocity c (3 * g.nnodes) (p.base.external U.sim.state V.time (V.time + c.dt) o) (0.5 * (V.time + c.dt - V.time)) (samples k)).v (3 * n + i) =
        axpy k2.2 (0.5 * (V.time + c.dt - V.time)) (accel c f' (q.external V.state V.time (V.time + c.dt) o) none) n i := by
    intro n hn i hi
    rw [updateVelocity_at c g.nnodes (p.base.external U.sim.state V.time (V.time + c.dt) o) _ _ hn hi, hacc n hn i hi, (huv k).2, hv3 n hn i hi]
    rfl
  have hu4 : ∀ n < g.nnodes, ∀ i < 3, (samples k).u (3 * n + i) = k2.1 n i := by
    intro n hn i hi
    rw [(huv k).1]; exact hu2 n hn i hi
  simp only [contactForce, hq, ← hk1, ← hk2, hint, Option.bind_eq_bind, Option.bind_some]
  cases o
  · simp only [Bool.false_eq_true, if_false] at h ⊢
    refine ⟨_, rfl, ?_⟩
    rw [← h]
    exact ⟨rfl, hu4, hv4, hacc⟩
  · simp only [if_true] at h ⊢
    refine ⟨_, rfl, ?_⟩
    rw [← h]
    refine ⟨rfl, ?_, ?_, hacc⟩
    · intro n hn i hi
      have hd : (kinematic c (V.time + c.dt) V.time k2.1 (axpy k2.2 (0.5 * (V.time + c.dt - V.time)) (accel c f' (q.external V.state V.time (V.time + c.dt) true) none))).1 = k2.1 :=
        applyKinematicBC_displacement c.manager hexp _ _ _ _
      rw [hd]
      exact hu4 n hn i hi
    · intro n hn i hi
      exact kinematicU_sample c hm g (V.time + c.dt) V.time _ _ _ _ _ k hks n i hi (hv4 n hn i hi)

theorem ustart_follows (c : Config K) (hexp : c.manager.scheme ≠ .quasistatic) (hm : NoPrescribedDisplacement c.manager)
    (g : Setup K) {S' : Type} (k : ℕ) (hk : k < g.nexact + g.napprox) (s : S) (s' : S') :
    Follows c g k (ustart c g s) (start c s') := by
  have hinit := fun n i => initial_agree c.manager c.X (fun _ _ => 0) (fun _ _ => (0 : K))
    ((List.range (g.nexact + g.napprox)).map fun _ => view fun _ => (0 : K)) [] k n i ⟨view fun _ => 0, by simp [hk], rfl⟩
  refine ⟨rfl, ?_, ?_, ?_⟩
  · intro n hn i hi
    have : (start c s').displacement = fun _ _ => 0 := applyKinematicBC_displacement c.manager hexp _ _ _ _
    rw [this]
    rfl
  · intro n hn i hi
    unfold ustart start
    simp only
    refine kinematicU_sample c hm g 0 0 _ _ _ _ _ k hk n i hi ?_
    obtain ⟨w, hw, he⟩ := hinit n i
    simp only [hw, Option.map_some, Option.getD_some]
    rw [flat_at w hi, he]
  · intro n hn i hi
    show 1 / c.mass n * ((0 : K) + 0) = 0
    simp

/-- **C77**, as far as it holds.  Without prescribed displacements, an exact sample follows, at every step, the
trajectory of a separate run with the sample's parameters and without contact: same displacements, same
velocities, at every node of the mesh.  (With contact in the run the sample still follows the run without contact.) -/
theorem sample_standalone_partial (c : Config K) (hexp : c.manager.scheme ≠ .quasistatic) (hm : NoPrescribedDisplacement c.manager)
    (g : Setup K) (p : UPhysics K S) {S' : Type} (q : Physics K S') (hq : q.contact = none) (k : ℕ) (hk : k < g.nexact)
    (hp : SameForces g p q k) (s : S) (s' : S') (m : ℕ) (U : USim K S) (h : uloop c g p m (ustart c g s) = some U) :
    ∃ V, loop c q m (start c s') = some V ∧ U.sim.time = V.time ∧
      ∀ n < g.nnodes, ∀ i < 3, (U.samples k).u (3 * n + i) = V.displacement n i ∧ (U.samples k).v (3 * n + i) = V.velocity n i := by
  have key : ∃ V, loop c q m (start c s') = some V ∧ Follows c g k U V := by
    induction m generalizing U with
    | zero => cases h; exact ⟨_, rfl, ustart_follows c hexp hm g k (by omega) s s'⟩
    | succ m ih =>
      rw [uloop_succ, Option.bind_eq_some_iff] at h
      obtain ⟨U1, h1, h2⟩ := h
      obtain ⟨V1, hV1, hf⟩ := ih U1 h1
      obtain ⟨V2, hV2, hf2⟩ := ustep_follows c hexp hm g p q hq k hk hp m U1 U V1 hf h2
      exact ⟨V2, by rw [loop_succ, hV1]; exact hV2, hf2⟩
  obtain ⟨V, hV, hf⟩ := key
  exact ⟨V, hV, hf.time, fun n hn i hi => ⟨hf.u n hn i hi, hf.v n hn i hi⟩⟩

/-! ## C77: an approximate sample -/

/-- Two samples hold the same values on the mesh. -/
structure Alike (g : Setup K) (x y : Sample K) : Prop where
  u : ∀ n < g.nnodes, ∀ i < 3, x.u (3 * n + i) = y.u (3 * n + i)
  v : ∀ n < g.nnodes, ∀ i < 3, x.v (3 * n + i) = y.v (3 * n + i)
  f : ∀ n < g.nnodes, ∀ i < 3, x.f (3 * n + i) = y.f (3 * n + i)

theorem kinematicU_alike (c : Config K) (g : Setup K) (tc tp : K) (u v : Nodal K) (samples : ℕ → Sample K) {j k : ℕ}
    (hj : j < g.nexact + g.napprox) (hk : k < g.nexact + g.napprox) (h : Alike g (samples j) (samples k)) :
    Alike g ((kinematicU c g tc tp u v samples).2.2 j) ((kinematicU c g tc tp u v samples).2.2 k) := by
  refine ⟨h.u, fun n hn i hi => ?_, h.f⟩
  obtain ⟨a, b, ha, hb, he⟩ := kin_alike c.manager tc tp c.X
    { displacement := u, velocity := v, offnom := (List.range (g.nexact + g.napprox)).map fun j => view (samples j).v } j k n i
    ⟨view (samples j).v, view (samples k).v, by simp [hj], by simp [hk], h.v n hn i hi⟩
  unfold kinematicU
  simp only [ha, hb, Option.map_some, Option.getD_some]
  rw [flat_at a hi, flat_at b hi, he]

omit [LinearOrder K] in
theorem updateVelocity_alike (c : Config K) (g : Setup K) (ext : Nodal K) (dt : K) {x y : Sample K} (h : Alike g x y) :
    Alike g (updateVelocity c (3 * g.nnodes) ext dt x) (updateVelocity c (3 * g.nnodes) ext dt y) :=
  ⟨h.u, fun n hn i hi => by
    rw [updateVelocity_at c _ _ _ _ hn hi, updateVelocity_at c _ _ _ _ hn hi, h.v n hn i hi, h.f n hn i hi], h.f⟩

omit [LinearOrder K] in
theorem updateDisplacement_alike (g : Setup K) (dt : K) {x y : Sample K} (h : Alike g x y) :
    Alike g (updateDisplacement (3 * g.nnodes) dt x) (updateDisplacement (3 * g.nnodes) dt y) :=
  ⟨fun n hn i hi => by
    rw [updateDisplacement_at _ _ _ hn hi, updateDisplacement_at _ _ _ hn hi, h.u n hn i hi, h.v n hn i hi], h.v, h.f⟩

theorem ustep_alike (c : Config K) (g : Setup K) (p : UPhysics K S) {a k : ℕ} (ha : a < g.napprox) (hk : k < g.nexact)
    (hc : ∀ b ≤ g.nexact, g.coeff a b = if b = k + 1 then 1 else 0) (m : ℕ) (U U' : USim K S)
    (hU : Alike g (U.samples (g.nexact + a)) (U.samples k)) (h : ustep c g p m U = some U') :
    Alike g (U'.samples (g.nexact + a)) (U'.samples k) := by
  unfold ustep at h
  simp only [Option.bind_eq_bind, Option.bind_eq_some_iff] at h
  obtain ⟨⟨internal, st⟩, -, samples, h2, ⟨contact, st'⟩, -, h⟩ := h
  simp only [Option.some.injEq] at h
  have hj : g.nexact + a < g.nexact + g.napprox := by omega
  have hks : k < g.nexact + g.napprox := by omega
  obtain ⟨-, huv, -, hap⟩ := sampleForces_spec h2
  have h1 := kinematicU_alike c g (U.sim.time + c.dt) U.sim.time U.sim.displacement
    (axpy U.sim.velocity (0.5 * (U.sim.time + c.dt - U.sim.time)) U.sim.acceleration)
    (fun j => updateVelocity c (3 * g.nnodes) U.external (0.5 * (U.sim.time + c.dt - U.sim.time)) (U.samples j)) hj hks
    (updateVelocity_alike c g _ _ hU)
  set K1 := kinematicU c g (U.sim.time + c.dt) U.sim.time U.sim.displacement
    (axpy U.sim.velocity (0.5 * (U.sim.time + c.dt - U.sim.time)) U.sim.acceleration)
    (fun j => updateVelocity c (3 * g.nnodes) U.external (0.5 * (U.sim.time + c.dt - U.sim.time)) (U.samples j)) with hK1
  have h3 := kinematicU_alike c g (U.sim.time + c.dt) U.sim.time (axpy K1.1 (U.sim.time + c.dt - U.sim.time) K1.2.1) K1.2.1
    (fun j => updateDisplacement (3 * g.nnodes) (U.sim.time + c.dt - U.sim.time) (K1.2.2 j))
    hj hks (updateDisplacement_alike g (U.sim.time + c.dt - U.sim.time) h1)
  have h4 : Alike g (samples (g.nexact + a)) (samples k) := by
    refine ⟨fun n hn i hi => ?_, fun n hn i hi => ?_, fun n hn i hi => ?_⟩
    · rw [(huv _).1, (huv _).1]; exact h3.u n hn i hi
    · rw [(huv _).2, (huv _).2]; exact h3.v n hn i hi
    · rw [hap a ha (3 * n + i) (by omega)]
      unfold interpolation
      rw [hc 0 (by omega), if_neg (by omega), zero_mul, zero_add, Finset.sum_eq_single k]
      · rw [hc (k + 1) (by omega), if_pos rfl, one_mul]
      · intro b hb hbk
        have := Finset.mem_range.1 hb
        rw [hc (b + 1) (by omega), if_neg (by omega), zero_mul]
      · intro hh; exact absurd (Finset.mem_range.2 hk) hh
  have h5 := updateVelocity_alike c g (p.base.external U.sim.state U.sim.time (U.sim.time + c.dt) (c.isOutputStep m))
    (0.5 * (U.sim.time + c.dt - U.sim.time)) h4
  rw [← h]
  cases ho : c.isOutputStep m
  · rw [ho] at h5
    simp only [Bool.false_eq_true, if_false]
    exact h5
  · rw [ho] at h5
    simp only [if_true]
    exact kinematicU_alike c g _ _ _ _ _ hj hks h5

/-- **C77.**  An approximate sample whose coefficients select an exact sample (one for it, zero for the nominal and the
others) has that sample's displacements and velocities at every step, for every boundary condition, with or without
contact. -/
theorem selecting_sample_follows (c : Config K) (g : Setup K) (p : UPhysics K S) {a k : ℕ} (ha : a < g.napprox) (hk : k < g.nexact)
    (hc : ∀ b ≤ g.nexact, g.coeff a b = if b = k + 1 then 1 else 0) (s : S) (m : ℕ) (U : USim K S)
    (h : uloop c g p m (ustart c g s) = some U) : ∀ n < g.nnodes, ∀ i < 3,
      (U.samples (g.nexact + a)).u (3 * n + i) = (U.samples k).u (3 * n + i) ∧
      (U.samples (g.nexact + a)).v (3 * n + i) = (U.samples k).v (3 * n + i) := by
  have key : Alike g (U.samples (g.nexact + a)) (U.samples k) := by
    induction m generalizing U with
    | zero =>
      cases h
      unfold ustart
      simp only
      refine kinematicU_alike c g _ _ _ _ _ (by omega) (by omega) ⟨fun _ _ _ _ => rfl, fun n hn i hi => ?_, fun _ _ _ _ => rfl⟩
      have h1 := initial_agree c.manager c.X (fun _ _ => 0) (fun _ _ => (0 : K))
        ((List.range (g.nexact + g.napprox)).map fun _ => view fun _ => (0 : K)) [] (g.nexact + a) n i ⟨view fun _ => 0, by simp [ha], rfl⟩
      have h2 := initial_agree c.manager c.X (fun _ _ => 0) (fun _ _ => (0 : K))
        ((List.range (g.nexact + g.napprox)).map fun _ => view fun _ => (0 : K)) [] k n i ⟨view fun _ => 0, by simp [show k < g.nexact + g.napprox by omega], rfl⟩
      obtain ⟨w1, hw1, he1⟩ := h1
      obtain ⟨w2, hw2, he2⟩ := h2
      simp only [hw1, hw2, Option.map_some, Option.getD_some]
      rw [flat_at w1 hi, flat_at w2 hi, he1, he2]
    | succ m ih =>
      rw [uloop_succ, Option.bind_eq_some_iff] at h
      obtain ⟨U1, h1, h2⟩ := h
      exact ustep_alike c g p ha hk hc m U1 U (ih U1 h1) h2
  exact fun n hn i hi => ⟨key.u n hn i hi, key.v n hn i hi⟩

/-! ## The forces of an exact sample -/

theorem offNominalElementForce_eq (val : K) (b : UBlk K) (bulk shear : K) (X u : ℕ → K) (elem : ℕ) :
    offNominalElementForce val b bulk shear X u elem =
      elementForce val (b.blk { b.material with bulk := bulk, shear := shear }) X u elem := by
  unfold offNominalElementForce elementForce getOffNominalStress
  have hg : ∀ d, gather (b.blk b.material) elem d = gather (b.blk { b.material with bulk := bulk, shear := shear }) elem d := fun _ => rfl
  simp only [hg]
  cases computeDeformationGradients val (gather (b.blk { b.material with bulk := bulk, shear := shear }) elem X)
      (gather (b.blk { b.material with bulk := bulk, shear := shear }) elem fun k => X k + u k) with
  | none => rfl
  | some F =>
    simp only [Option.bind_eq_bind, Option.bind_some]
    have : (b.blk { b.material with bulk := bulk, shear := shear }).law = b.law { b.material with bulk := bulk, shear := shear } := rfl
    rw [this]
    cases pointLoop (b.law { b.material with bulk := bulk, shear := shear }) 8 F (fun _ => 0) <;> rfl

/-- **C77.**  The force computed for an exact sample is the internal force of a model whose materials have the bulk and
shear moduli of the sample (whatever other parameters the sample has). -/
theorem sample_force (val : K) (blocks : List (UBlk K)) (parameters : UBlk K → Str → Option K) (X u : ℕ → K) :
    offNominalForce val (blocks.map fun b => (b, some (parameters b))) X u =
      computeInternalForce val X u (serial (blocks.map fun b => b.blk
        { b.material with
          bulk := (parameters b "bulk_modulus".toList).getD 0
          shear := (parameters b "shear_modulus".toList).getD 0 })) := by
  unfold offNominalForce computeInternalForce serial
  rw [List.map_map, List.foldlM_map, List.foldlM_map]
  congr 1
  funext out b
  show offNominalBlockForce val b (parameters b) X u out = _
  unfold offNominalBlockForce
  have h := fun elem => offNominalElementForce_eq val b ((parameters b "bulk_modulus".toList).getD 0)
    ((parameters b "shear_modulus".toList).getD 0) X u elem
  simp only [h]
  rfl

end NimbleSM.Uq
