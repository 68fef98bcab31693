import Verif.Kokkos.Coherence
import Verif.Integrate.ReversibleProps
import Verif.Kokkos.KernelProps

/-!
# C99: the kernels see the fields the integrator sees
-/

namespace NimbleSM.Kokkos.Coherence

open NimbleSM.Bc NimbleSM.Integrate

variable {K S E : Type*} [Field K] [LinearOrder K]

/-! ## Specification: one memory -/

/-- The integrator of C40 for these physics: one copy of every field, coordinates `Xd` for the kernels, the
mesh coordinates for the boundary conditions.  The state is paired with the one before `UpdateStates`, which
is what the element data of an output are computed from. -/
def refPhysics (p : DevPhysics K S E) (Xd : Nodal K) : Physics K (S × S) where
  external s := p.external s.1
  internal s tp tc out u := (p.internal s.1 tp tc out Xd u).map fun (F, st) => (p.reduceForce F, (st, st))
  contact := p.contact.map fun g s n u => (g s.1 n u).map fun (F, st) => (p.reduceForce F, (st, st))
  updateStates s := (p.updateStates s.1, s.1)

/-- The masses come from the coordinates `Xd`. -/
def refConfig (c : Config K) (p : DevPhysics K S E) (Xd : Nodal K) : Config K :=
  { c with mass := p.reduceMass (p.mass Xd) }

/-- The reference run after `n` steps. -/
def ref (c : Config K) (p : DevPhysics K S E) (Xd : Nodal K) (s : S) (n : ℕ) : Option (Sim K (S × S)) :=
  loop (refConfig c p Xd) (refPhysics p Xd) n (start (refConfig c p Xd) (s, s))

/-- What an output at the end of a step of the reference run contains: its nodal fields, and element data
computed from the displacement that is written. -/
def refOutput (p : DevPhysics K S E) (Xd : Nodal K) (r : Sim K (S × S)) : Output K × E :=
  (⟨r.time, r.displacement, r.velocity, r.acceleration⟩, p.element r.state.2 Xd r.displacement)

/-- All outputs of the first `n` steps. -/
def refOutputs (c : Config K) (p : DevPhysics K S E) (Xd : Nodal K) (s : S) (n : ℕ) : List (Output K × E) :=
  refOutput p Xd (start (refConfig c p Xd) (s, s)) ::
    ((List.range n).filter c.isOutputStep).filterMap fun j => (ref c p Xd s (j + 1)).map (refOutput p Xd)

/-- The two runs agree: everything the user can see, and the kernels' copies. -/
structure Same (c : Config K) (p : DevPhysics K S E) (Xd : Nodal K) (k : KSim K S E) (r : Sim K (S × S)) :
    Prop where
  time : k.time = r.time
  displacement : k.displacement.host = r.displacement
  velocity : k.velocity.host = r.velocity
  acceleration : k.acceleration.host = r.acceleration
  state : k.state = r.state.1
  mass : k.mass.host = p.reduceMass (p.mass Xd)
  kernelDisplacement : k.displacement.dev = r.displacement
  kernelCoordinates : k.X.dev = Xd
  coordinates : k.X.host = c.X

/-- The coordinates the kernels read. -/
def kernelX (shared : Bool) (c : Config K) : Nodal K := if shared then c.X else fun _ _ => 0

/-! ## Proofs -/

@[simp] theorem setHost_host {α : Type*} (sh : Bool) (m : Mirror α) (a : α) : (m.setHost sh a).host = a := by
  unfold Mirror.setHost; split <;> rfl

@[simp] theorem toDev_host {α : Type*} (m : Mirror α) : m.toDev.host = m.host := rfl

@[simp] theorem toDev_dev {α : Type*} (m : Mirror α) : m.toDev.dev = m.host := rfl

@[simp] theorem toHost_host {α : Type*} (m : Mirror α) : m.toHost.host = m.dev := rfl

@[simp] theorem toHost_dev {α : Type*} (m : Mirror α) : m.toHost.dev = m.dev := rfl

@[simp] theorem setDev_dev {α : Type*} (sh : Bool) (m : Mirror α) (a : α) : (m.setDev sh a).dev = a := by
  unfold Mirror.setDev; split <;> rfl

/-- Writing the value that is already on the device changes nothing there. -/
theorem setHost_same {α : Type*} (sh : Bool) (m : Mirror α) (a : α) (h : m.dev = a) :
    (m.setHost sh a).dev = a := by
  unfold Mirror.setHost; split
  · rfl
  · exact h

/-- Kinematic conditions of the explicit scheme leave the displacement alone, on host and device. -/
theorem applyKinematic_spec (shared : Bool) (c : Config K) (hm : c.manager.scheme ≠ .quasistatic) (tc tp : K)
    (k : KSim K S E) (hX : k.X.host = c.X) (hu : k.displacement.dev = k.displacement.host) :
    applyKinematic shared c tc tp k = { k with
      velocity := k.velocity.setHost shared (kinematic c tc tp k.displacement.host k.velocity.host).2 } := by
  have hk1 : (kinematic c tc tp k.displacement.host k.velocity.host).1 = k.displacement.host :=
    applyKinematicBC_displacement c.manager hm tc tp c.X _
  have hd : k.displacement.setHost shared k.displacement.host = k.displacement := by
    cases h : k.displacement with
    | mk a b =>
      rw [h] at hu
      unfold Mirror.setHost
      split
      · simp only at hu; rw [hu]
      · rfl
  unfold applyKinematic
  rw [hX]
  have : ({ c with X := c.X } : Config K) = c := rfl
  rw [this]
  cases hkk : kinematic c tc tp k.displacement.host k.velocity.host with
  | mk u v =>
    rw [hkk] at hk1
    simp only at hk1 ⊢
    rw [hk1, hd]

theorem predict_spec (shared : Bool) (c : Config K) (hm : c.manager.scheme ≠ .quasistatic) (tc tp : K)
    (k : KSim K S E) (hX : k.X.host = c.X) (hu : k.displacement.dev = k.displacement.host) :
    ∃ (u : Mirror (Nodal K)) (v : Mirror (Nodal K)),
      predict shared c tc tp k = { k with displacement := u, velocity := v } ∧
      u.host = axpy k.displacement.host (tc - tp) (kinematic c tc tp k.displacement.host
        (axpy k.velocity.host (0.5 * (tc - tp)) k.acceleration.host)).2 ∧ u.dev = u.host ∧
      v.host = (kinematic c tc tp u.host (kinematic c tc tp k.displacement.host
        (axpy k.velocity.host (0.5 * (tc - tp)) k.acceleration.host)).2).2 := by
  unfold predict
  extract_lets k1 k2 k3 k4 k5
  have h3 : k3 = _ := applyKinematic_spec shared c hm tc tp k2 hX hu
  have hX5 : k5.X.host = c.X := by simp only [k5, k4, h3]; exact hX
  rw [applyKinematic_spec shared c hm tc tp k5 hX5 rfl]
  simp only [k5, k4, h3, k2, k1]
  exact ⟨_, _, rfl, by simp, by simp, by simp⟩

theorem correct_spec (shared : Bool) (c : Config K) (hm : c.manager.scheme ≠ .quasistatic)
    (p : DevPhysics K S E) (out : Bool) (tc tp : K) (external : Nodal K) (k : KSim K S E)
    (hX : k.X.host = c.X) (hu : k.displacement.dev = k.displacement.host) (a v : Nodal K)
    (ha : a = accel { c with mass := k.mass.host } k.internalForce.host external
      (p.contact.map fun _ => k.contactForce.host))
    (hv : v = if out then (kinematic c tc tp k.displacement.host (axpy k.velocity.host (0.5 * (tc - tp)) a)).2
      else axpy k.velocity.host (0.5 * (tc - tp)) a) :
    ∃ A V : Mirror (Nodal K), correct shared c p out tc tp external k = { k with
        time := tc
        acceleration := A
        velocity := V
        displacement := k.displacement
        state := p.updateStates k.state
        outputs := k.outputs ++ if out then
          [(⟨tc, k.displacement.host, v, a⟩, p.element k.state k.gX k.gU)] else [] } ∧
      A.host = a ∧ V.host = v := by
  have hd : k.displacement.toDev = k.displacement := by
    cases h : k.displacement with
    | mk x y => rw [h] at hu; simp only at hu; rw [hu]; rfl
  unfold correct
  extract_lets a' k1 k2 k3 k4
  have ha' : a' = a := ha.symm
  cases out with
  | false =>
    simp only [k4, k3, k2, k1, ha', Bool.false_eq_true, if_false, List.append_nil]
    refine ⟨_, _, rfl, by simp, ?_⟩
    rw [hv]; simp
  | true =>
    have h4 : k4 = writeOutput p (applyKinematic shared c tc tp k3) := rfl
    rw [applyKinematic_spec shared c hm tc tp k3 hX hu] at h4
    rw [h4]
    simp only [if_true] at hv
    simp only [writeOutput, k3, k2, k1, ha', if_true, hd, setHost_host, toDev_host, hv]
    exact ⟨_, _, rfl, by simp, by simp⟩

theorem kstep_ref (shared : Bool) (c : Config K) (hm : c.manager.scheme ≠ .quasistatic)
    (p : DevPhysics K S E) (Xd : Nodal K) (n : ℕ) (k : KSim K S E) (r : Sim K (S × S)) (h : Same c p Xd k r) :
    match step (refConfig c p Xd) (refPhysics p Xd) n r with
    | none => kstep shared c p n k = none
    | some r' => ∃ k', kstep shared c p n k = some k' ∧ Same c p Xd k' r' ∧
        k'.outputs = k.outputs ++ if c.isOutputStep n then [refOutput p Xd r'] else [] := by
  obtain ⟨ht, hu, hv, ha, hs, hmass, hud, hXd, hXh⟩ := h
  have hk1 : ∀ tc tp (u v : Nodal K), (kinematic c tc tp u v).1 = u := fun tc tp u v =>
    applyKinematicBC_displacement c.manager hm tc tp c.X _
  have hkr : ∀ tc tp (u v : Nodal K), kinematic (refConfig c p Xd) tc tp u v = kinematic c tc tp u v :=
    fun _ _ _ _ => rfl
  have hdt : (refConfig c p Xd).dt = c.dt := rfl
  have hio : (refConfig c p Xd).isOutputStep n = c.isOutputStep n := rfl
  obtain ⟨u, v, hp, huh, hdev, hvh⟩ := predict_spec shared c hm (k.time + c.dt) k.time k hXh (by rw [hud, hu])
  rw [hu, hv, ha, ht] at huh hvh
  unfold kstep step
  simp only [hkr, hdt, hio, hk1, hp]
  rw [← huh, ← hvh]
  simp only [computeInternalForce, hXd, hs, hdev, ht]
  have hi : (refPhysics p Xd).internal r.state r.time (r.time + c.dt) (c.isOutputStep n) u.host
      = (p.internal r.state.1 r.time (r.time + c.dt) (c.isOutputStep n) Xd u.host).map
        fun (F, st) => (p.reduceForce F, (st, st)) := rfl
  rw [hi]
  cases hF : p.internal r.state.1 r.time (r.time + c.dt) (c.isOutputStep n) Xd u.host with
  | none => simp
  | some Fs =>
    obtain ⟨F, st⟩ := Fs
    simp only [Option.map_some, Option.bind_some, Option.bind_eq_bind, toHost_host, setDev_dev]
    unfold computeContactForce contactForce
    have hcc : (refPhysics p Xd).contact = p.contact.map fun g s n u =>
      (g s.1 n u).map fun (F, st) => (p.reduceForce F, (st, st)) := rfl
    rw [hcc]
    have hfin : ∀ (k1 : KSim K S E) (st2 : S) (C : Option (Nodal K)), k1.displacement = u → k1.velocity = v →
        k1.X = k.X → k1.mass = k.mass → k1.internalForce.host = p.reduceForce F → k1.state = st2 →
        k1.gX = Xd → k1.gU = u.host → k1.outputs = k.outputs →
        (p.contact.map fun _ => k1.contactForce.host) = C →
        ∃ k', correct shared c p (c.isOutputStep n) (r.time + c.dt) r.time
            (p.external r.state.1 r.time (r.time + c.dt) (c.isOutputStep n)) k1 = k' ∧
          Same c p Xd k' (⟨r.time + c.dt, u.host, (if c.isOutputStep n then
              (kinematic c (r.time + c.dt) r.time u.host (axpy v.host (0.5 * (r.time + c.dt - r.time))
                (accel (refConfig c p Xd) (p.reduceForce F)
                  (p.external r.state.1 r.time (r.time + c.dt) (c.isOutputStep n)) C))).2
              else axpy v.host (0.5 * (r.time + c.dt - r.time)) (accel (refConfig c p Xd) (p.reduceForce F)
                  (p.external r.state.1 r.time (r.time + c.dt) (c.isOutputStep n)) C)),
            accel (refConfig c p Xd) (p.reduceForce F)
                  (p.external r.state.1 r.time (r.time + c.dt) (c.isOutputStep n)) C,
            (p.updateStates st2, st2), r.outputs⟩ : Sim K (S × S)) ∧
          k'.outputs = k.outputs ++ if c.isOutputStep n then [(⟨r.time + c.dt, u.host, (if c.isOutputStep n then
              (kinematic c (r.time + c.dt) r.time u.host (axpy v.host (0.5 * (r.time + c.dt - r.time))
                (accel (refConfig c p Xd) (p.reduceForce F)
                  (p.external r.state.1 r.time (r.time + c.dt) (c.isOutputStep n)) C))).2
              else axpy v.host (0.5 * (r.time + c.dt - r.time)) (accel (refConfig c p Xd) (p.reduceForce F)
                  (p.external r.state.1 r.time (r.time + c.dt) (c.isOutputStep n)) C)),
            accel (refConfig c p Xd) (p.reduceForce F)
                  (p.external r.state.1 r.time (r.time + c.dt) (c.isOutputStep n)) C⟩,
              p.element st2 Xd u.host)] else [] := by
      intro k1 st2 C h1 h2 h3 h4 h5 h6 h7 h8 h9 h10
      obtain ⟨A, V, hcor, hA, hV⟩ := correct_spec shared c hm p (c.isOutputStep n) (r.time + c.dt) r.time
        (p.external r.state.1 r.time (r.time + c.dt) (c.isOutputStep n)) k1 (by rw [h3, hXh])
        (by rw [h1, hdev]) _ _ rfl rfl
      have hmm : accel { c with mass := k1.mass.host } = accel (refConfig c p Xd) := by
        rw [h4, hmass]; rfl
      rw [h10, h5, hmm] at hcor hA hV
      rw [h1, h2] at hV hcor
      refine ⟨_, hcor, ⟨rfl, rfl, hV, hA, ?_, ?_, hdev, ?_, ?_⟩, ?_⟩
      · show p.updateStates k1.state = _
        rw [h6]
      · show k1.mass.host = _
        rw [h4, hmass]
      · show k1.X.dev = _
        rw [h3, hXd]
      · show k1.X.host = _
        rw [h3, hXh]
      · simp only [h6, h7, h8, h9]
    cases hc : p.contact with
    | none =>
      simp only [Option.map_none, Option.map_some, Option.bind_some]
      obtain ⟨k', hk', hsame, hout⟩ := hfin { k with
        time := r.time, displacement := u, velocity := v, gX := Xd, gU := u.host, state := st, internalForce :=
          ((k.internalForce.setDev shared fun _ _ => 0).setDev shared F).toHost.setHost shared (p.reduceForce F) }
        st none rfl rfl rfl rfl (by simp) rfl rfl rfl rfl (by rw [hc]; rfl)
      refine ⟨k', congrArg some hk', ?_, ?_⟩
      · cases hb : c.isOutputStep n <;> simp only [hb, if_true, if_false, Bool.false_eq_true, hk1] at hsame ⊢ <;>
          exact ⟨hsame.1, hsame.2, hsame.3, hsame.4, hsame.5, hsame.6, hsame.7, hsame.8, hsame.9⟩
      · rw [hout]
        cases hb : c.isOutputStep n <;> simp [refOutput, refPhysics, hk1]
    | some g =>
      simp only [Option.map_some, Option.bind_some, hdev]
      cases hg : g st (n + 1) u.host with
      | none => simp
      | some Cs =>
        obtain ⟨C, st2⟩ := Cs
        simp only [Option.map_some, Option.bind_some, toHost_host, setDev_dev]
        obtain ⟨k', hk', hsame, hout⟩ := hfin { k with
        time := r.time, displacement := u, velocity := v, gX := Xd, gU := u.host, state := st2, contactForce :=
          ((k.contactForce.setDev shared fun _ _ => 0).setDev shared C).toHost.setHost shared (p.reduceForce C), internalForce :=
          ((k.internalForce.setDev shared fun _ _ => 0).setDev shared F).toHost.setHost shared (p.reduceForce F) }
          st2 (some (p.reduceForce C)) rfl rfl rfl rfl (by simp) rfl rfl rfl rfl (by rw [hc]; simp)
        refine ⟨k', congrArg some hk', ?_, ?_⟩
        · cases hb : c.isOutputStep n <;> simp only [hb, if_true, if_false, Bool.false_eq_true, hk1] at hsame ⊢ <;>
          exact ⟨hsame.1, hsame.2, hsame.3, hsame.4, hsame.5, hsame.6, hsame.7, hsame.8, hsame.9⟩
        · rw [hout]
          cases hb : c.isOutputStep n <;> simp [refOutput, refPhysics, hk1]

theorem kstart_same (shared : Bool) (c : Config K) (hm : c.manager.scheme ≠ .quasistatic)
    (p : DevPhysics K S E) (s : S) :
    Same c p (kernelX shared c) (kstart shared c p s) (start (refConfig c p (kernelX shared c)) (s, s)) ∧
    (kstart shared c p s).outputs
      = [refOutput p (kernelX shared c) (start (refConfig c p (kernelX shared c)) (s, s))] := by
  have hk1 : ∀ tc tp (u v : Nodal K), (kinematic c tc tp u v).1 = u := fun tc tp u v =>
    applyKinematicBC_displacement c.manager hm tc tp c.X _
  have hkr : ∀ tc tp (u v : Nodal K), kinematic (refConfig c p (kernelX shared c)) tc tp u v = kinematic c tc tp u v :=
    fun _ _ _ _ => rfl
  have hXh : ((Mirror.fresh (fun _ _ => 0 : Nodal K)).setHost shared c.X).host = c.X := by simp
  have hXd : ((Mirror.fresh (fun _ _ => 0 : Nodal K)).setHost shared c.X).dev = kernelX shared c := by
    unfold Mirror.setHost kernelX; split <;> rfl
  unfold kstart
  extract_lets k0
  cases hv : applyInitialConditions c.manager k0.X.host k0.velocity.host [] with
  | mk v o =>
    simp only
    rw [applyKinematic_spec shared c hm 0 0 _ hXh rfl]
    have hv' : applyInitialConditions c.manager c.X (fun _ _ => 0) [] = (v, o) := by
      rw [← hv]; simp only [k0, computeLumpedMass, allocate, setHost_host, Mirror.fresh]
    unfold start
    have hcm : (refConfig c p (kernelX shared c)).manager = c.manager := rfl
    have hcX : (refConfig c p (kernelX shared c)).X = c.X := rfl
    rw [hcm, hcX, hv']
    simp only [hkr, hk1]
    refine ⟨⟨rfl, rfl, ?_, rfl, rfl, ?_, rfl, ?_, ?_⟩, ?_⟩
    · simp [writeOutput, k0, computeLumpedMass, allocate, Mirror.fresh]
    · simp only [writeOutput, k0, computeLumpedMass, allocate, hXd, setHost_host, toHost_host, setDev_dev]
    · exact hXd
    · exact hXh
    · simp only [writeOutput, k0, computeLumpedMass, allocate, hXd, setHost_host, toDev_host]
      rfl

/-- **C99.**  With shared memory or without, for every configuration of an explicit run, every kernel and
every number of steps: the run with two copies of every field is the run of the one-memory integrator of
C40, with the kernels reading the coordinates `kernelX` and always the current displacement; it stops where
that one stops; the outputs hold the nodal fields of that run, and element data computed from the
displacement written beside them. -/
theorem mirrored_run (shared : Bool) (c : Config K) (hm : c.manager.scheme ≠ .quasistatic)
    (p : DevPhysics K S E) (s : S) (n : ℕ) :
    match ref c p (kernelX shared c) s n with
    | none => kloop shared c p n s = none
    | some r => ∃ k, kloop shared c p n s = some k ∧ Same c p (kernelX shared c) k r ∧
        k.outputs = refOutputs c p (kernelX shared c) s n := by
  induction n with
  | zero =>
    obtain ⟨h1, h2⟩ := kstart_same shared c hm p s
    refine ⟨_, rfl, h1, ?_⟩
    rw [h2]; rfl
  | succ n ih =>
    have hr : ref c p (kernelX shared c) s (n + 1) = (ref c p (kernelX shared c) s n).bind
        (step (refConfig c p (kernelX shared c)) (refPhysics p (kernelX shared c)) n) := by
      unfold ref loop
      rw [List.range_succ (n := n), List.foldlM_append]
      simp [Option.bind_eq_bind]
    have hl : kloop shared c p (n + 1) s = (kloop shared c p n s).bind (kstep shared c p n) := by
      unfold kloop
      rw [List.range_succ (n := n), List.foldlM_append]
      simp [Option.bind_eq_bind]
    rw [hl, hr]
    cases hn : ref c p (kernelX shared c) s n with
    | none => rw [hn] at ih; simp only at ih; rw [ih]; rfl
    | some r =>
      rw [hn] at ih
      obtain ⟨k, hk, hsame, hout⟩ := ih
      rw [hk, Option.bind_some, Option.bind_some]
      have hs := kstep_ref shared c hm p (kernelX shared c) n k r hsame
      cases hst : step (refConfig c p (kernelX shared c)) (refPhysics p (kernelX shared c)) n r with
      | none => rw [hst] at hs; exact hs
      | some r' =>
        rw [hst] at hs
        obtain ⟨k', hk', hsame', hout'⟩ := hs
        refine ⟨k', hk', hsame', ?_⟩
        rw [hout', hout]
        unfold refOutputs
        have hr' : ref c p (kernelX shared c) s (n + 1) = some r' := by rw [hr, hn, Option.bind_some, hst]
        rw [List.range_succ, List.filter_append, List.filterMap_append, List.cons_append]
        congr 2
        cases hb : c.isOutputStep n <;> simp [hb, hr']

/-- With shared memory the kernels read the coordinates of the mesh. -/
theorem shared_kernel_coordinates (c : Config K) : kernelX true c = c.X := rfl

/-! ## Separate memory -/

theorem jacobian_zero (val : K) (q : ℕ) : Hex.jacobian val (fun _ _ => 0) q = ![![0, 0, 0], ![0, 0, 0], ![0, 0, 0]] := by
  unfold Hex.jacobian
  simp [List.range_succ]

theorem lumpedMassK_zero (val density : K) (i : ℕ) : lumpedMassK val density (fun _ _ => 0) i = 0 := by
  have hd : ∀ q, (invert3x3K (Hex.jacobian val (fun _ _ => 0) q)).2 = 0 := by
    intro q
    rw [jacobian_zero]
    simp [invert3x3K]
  unfold lumpedMassK
  simp [hd, List.range_succ]

/-- The kernels of `ComputeLumpedMass` on the device are those of C95, for the blocks `ks`. -/
def UsesKernels (p : DevPhysics K S E) (val : K) (ks : List (KBlk K)) : Prop :=
  ∀ X : Nodal K, ∃ before, LumpedMass val (fun nd => X nd.1 nd.2) ks before (p.mass X)

/-- **C99, refuted for separate memory.**  Where the host cannot access the memory of the device, the
coordinates are never copied to the device, so for every mesh, every material, every schedule of the kernels
and every step the mass of every node is zero (and every acceleration of the run is divided by it). -/
theorem separate_memory_masses_vanish [IsStrictOrderedRing K] (c : Config K)
    (hm : c.manager.scheme ≠ .quasistatic) (p : DevPhysics K S E) (val : K) (ks : List (KBlk K))
    (hk : UsesKernels p val ks) (hr : p.reduceMass = id) (s : S) (n : ℕ) (k : KSim K S E)
    (h : kloop false c p n s = some k) (i : ℕ) : k.mass.host i = 0 := by
  have hrun := mirrored_run false c hm p s n
  cases hrf : ref c p (kernelX false c) s n with
  | none => rw [hrf] at hrun; simp only at hrun; rw [h] at hrun; cases hrun
  | some r =>
    rw [hrf] at hrun
    obtain ⟨k', hk', hsame, _⟩ := hrun
    rw [h] at hk'
    cases hk'
    rw [hsame.mass, hr]
    obtain ⟨before, hL⟩ := hk (kernelX false c)
    rw [id, blockMasses_run hL i, zero_add]
    have : ∀ b : KBlk K, blockMassK val (fun nd => kernelX false c nd.1 nd.2) b i = 0 := by
      intro b
      unfold blockMassK
      apply Finset.sum_eq_zero; intro e _
      apply Finset.sum_eq_zero; intro d _
      have h0 : (fun n d => kernelX false c (b.conn (8 * e + n)) d) = fun _ _ => (0 : K) := rfl
      show (if _ then lumpedMassK val b.density (fun n d => kernelX false c (b.conn (8 * e + n)) d) d else 0) = 0
      rw [h0, lumpedMassK_zero, ite_self]
    simp [this]

/-- With shared memory the same masses are those of the mesh. -/
theorem shared_memory_masses [IsStrictOrderedRing K] (c : Config K)
    (hm : c.manager.scheme ≠ .quasistatic) (p : DevPhysics K S E) (val : K) (ks : List (KBlk K))
    (hk : UsesKernels p val ks) (hr : p.reduceMass = id) (s : S) (n : ℕ) (k : KSim K S E)
    (h : kloop true c p n s = some k) (i : ℕ) :
    k.mass.host i = (ks.map fun b => blockMassK val (fun nd => c.X nd.1 nd.2) b i).sum := by
  have hrun := mirrored_run true c hm p s n
  cases hrf : ref c p (kernelX true c) s n with
  | none => rw [hrf] at hrun; simp only at hrun; rw [h] at hrun; cases hrun
  | some r =>
    rw [hrf] at hrun
    obtain ⟨k', hk', hsame, _⟩ := hrun
    rw [h] at hk'
    cases hk'
    rw [hsame.mass, hr]
    obtain ⟨before, hL⟩ := hk (kernelX true c)
    rw [id, blockMasses_run hL i, zero_add]
    rfl

/-! ## Non-vacuity -/

/-- The cube of `thrown`: masses by the kernels of C95, springs as internal force; the element data of an
output are the first displacement and coordinate the kernels saw. -/
def demoP : DevPhysics ℚ ℕ (ℚ × ℚ × ℕ) where
  mass X i := blockMassK Hex.gaussVal (fun nd => X nd.1 nd.2) demoK i
  reduceMass := id
  reduceForce := id
  external _ _ _ _ := fun _ _ => 0
  internal s _ _ _ X u := some (fun n i => -(u n i) * (X 1 0 + 1), s + 1)
  contact := some fun s _ u => some (fun n i => u n i / 4, s + 1)
  updateStates s := s + 1
  element s gX gU := (gX 1 0, gU 0 0, s)

/-- The hypotheses of the theorems hold: the mass kernels are those of C95. -/
theorem demoP_kernels : UsesKernels demoP Hex.gaussVal [demoK] := by
  intro X
  obtain ⟨after, h⟩ := concurrent_lumped_mass_exists Hex.gaussVal (fun nd => X nd.1 nd.2) [demoK] (fun _ => 0)
  refine ⟨fun _ => 0, ?_⟩
  have : after = demoP.mass X := by
    funext i
    rw [blockMasses_run h i]
    simp [demoP]
  exact this ▸ h

/-- Two steps with shared memory: the element data of each output belong to the displacement beside them. -/
example : (kloop true thrown demoP 2 0).map (fun k => (k.mass.host 0 ≠ 0 : Bool)) = some true ∧
    (kloop true thrown demoP 2 0).map (fun k => k.outputs.map fun o => (o.1.displacement 0 0 == o.2.2.1, o.2.2.2))
      = some [(true, 0), (true, 2), (true, 5)] := by
  constructor <;> decide +kernel

/-- With separate memory the run goes on with zero masses. -/
example : (kloop false thrown demoP 2 0).map (fun k => k.mass.host 0) = some 0 := by decide +kernel

end NimbleSM.Kokkos.Coherence
