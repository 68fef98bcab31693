import Verif.App.Driver
import Verif.Contact.ForceLemmas

/-!
# What the application promises to the one who starts it (C100-C103)
-/

namespace NimbleSM.App

/-! ## Specification -/

/-- `file` is the first word of the command line that does not start with a dash. -/
def FirstPlain (args : List Tok) (file : String) : Prop :=
  ∃ pre post, args = pre ++ Tok.word file :: post ∧ ∀ t ∈ pre, ∀ s, t ≠ Tok.word s

/-- A program called with these words was asked to run a deck, and the build has what the words ask for. -/
def Accepted (b : Build) (w : World) (args : List Tok) (file : String) : Prop :=
  Tok.help ∉ args ∧ (Tok.useTpetra ∈ args → b.trilinos = true) ∧ (Tok.useVT ∈ args → b.vt = true) ∧
    (Tok.useUQ ∈ args → b.uq = true) ∧ FirstPlain args file ∧ w.fileExists file = true

/-- The simulation of deck `d` came to its end with status `n`: the mesh was read, the set up succeeded, the
integrator of the deck returned `n`. -/
def Completes (w : World) (d : Deck) (n : ℤ) : Prop :=
  d.scheme = "explicit" ∧ w.mesh d = .ok () ∧ w.setup d .kokkos = .ok () ∧ w.explicit d .kokkos = .ok n

/-! ## The command line -/

theorem firstWord_iff (args : List Tok) (file : String) : firstWord args = some file ↔ FirstPlain args file := by
  induction args with
  | nil => simp [firstWord, FirstPlain]
  | cons t ts ih =>
    by_cases ht : ∃ s, t = Tok.word s
    · obtain ⟨s, rfl⟩ := ht
      simp only [firstWord, Option.some.injEq]
      constructor
      · rintro rfl
        exact ⟨[], ts, rfl, by simp⟩
      · rintro ⟨pre, post, h, hpre⟩
        cases pre with
        | nil => simp at h; exact h.1
        | cons p pre => simp at h; exact absurd h.1.symm (hpre p (by simp) s)
    · have h1 : firstWord (t :: ts) = firstWord ts := by
        cases t <;> first | rfl | exact absurd ⟨_, rfl⟩ ht
      rw [h1, ih]
      constructor
      · rintro ⟨pre, post, rfl, hpre⟩
        refine ⟨t :: pre, post, rfl, ?_⟩
        intro a ha s hs
        rcases List.mem_cons.mp ha with rfl | ha
        · exact ht ⟨s, hs⟩
        · exact hpre a ha s hs
      · rintro ⟨pre, post, h, hpre⟩
        cases pre with
        | nil => simp at h; exact absurd ⟨_, h.1⟩ ht
        | cons p pre =>
          simp at h
          exact ⟨pre, post, h.2, fun a ha => hpre a (List.mem_cons_of_mem _ ha)⟩

/-- No combination of words makes the command line configuration report that the UQ capability is wanted, in
any build. -/
theorem uq_never_selected (b : Build) (ex : String → Bool) (args : List Tok) : (cliParse b ex args).1.use_uq = false := by
  unfold cliParse
  repeat' split
  all_goals first | rfl | (split_ifs <;> rfl)

/-- The other switches select what they name: with an accepted command line, Tpetra is on iff `--use_tpetra`
was given, the input file is the first plain word; VT is on iff `--use_vt` or `--use_uq` was given. -/
theorem cli_accepted (b : Build) (w : World) (args : List Tok) (file : String) (h : Accepted b w args file) :
    ∃ c, cliParse b w.fileExists args = (c, .ok) ∧ c.input_filename = file ∧
      (c.use_tpetra = true ↔ Tok.useTpetra ∈ args) ∧
      (c.use_vt = true ↔ Tok.useVT ∈ args ∨ Tok.useUQ ∈ args) := by
  obtain ⟨hh, ht, hv, hu, hf, he⟩ := h
  rw [← firstWord_iff] at hf
  by_cases h1 : Tok.useTpetra ∈ args <;> by_cases h2 : Tok.useVT ∈ args <;> by_cases h3 : Tok.useUQ ∈ args <;>
    simp_all [cliParse]

/-- A switch for something the build does not have is rejected with code 105. -/
theorem cli_unsupported (b : Build) (ex : String → Bool) (args : List Tok)
    (h : (Tok.useTpetra ∈ args ∧ b.trilinos = false) ∨ (Tok.useVT ∈ args ∧ b.vt = false) ∨
      (Tok.useUQ ∈ args ∧ b.uq = false)) : (cliParse b ex args).2 = .error 105 := by
  unfold cliParse
  by_cases h1 : Tok.useTpetra ∈ args ∧ b.trilinos = false
  · simp [h1]
  · by_cases h2 : Tok.useVT ∈ args ∧ b.vt = false
    · simp [h2]
      split_ifs <;> rfl
    · have h3 : Tok.useUQ ∈ args ∧ b.uq = false := by tauto
      simp [h3]
      split_ifs <;> rfl

/-- Without an input file, or with one that does not exist, a command line without a help request is rejected
with a code other than 0. -/
theorem cli_no_input (b : Build) (ex : String → Bool) (args : List Tok) (hh : Tok.help ∉ args)
    (h : ∀ f, FirstPlain args f → ex f = false) : ∃ n, (cliParse b ex args).2 = .error n ∧ n ≠ 0 := by
  simp only [← firstWord_iff] at h
  unfold cliParse
  dsimp only
  split_ifs
  all_goals first
    | exact ⟨105, rfl, by decide⟩
    | (cases hf : firstWord args with
       | none => exact ⟨106, by simp, by decide⟩
       | some f => exact ⟨105, by simp [h f hf], by decide⟩)

/-- C101 as one would want it, refuted: "with `--use_uq`, a build with UQ uses UQ". -/
theorem use_uq_selects_uq_refuted :
    ¬ ∀ (b : Build) (ex : String → Bool) (args : List Tok) (c : Cli), b.uq = true → Tok.useUQ ∈ args →
        cliParse b ex args = (c, .ok) → c.use_uq = true := by
  intro h
  have := h ⟨false, false, true, false, false, false⟩ (fun _ => true) [.useUQ, .word "a.in"]
    ⟨false, true, false, "a.in"⟩ rfl (by simp) rfl
  exact absurd this (by simp)

/-- It turns on VT instead, also in a build without VT. -/
theorem use_uq_turns_on_vt (b : Build) (ex : String → Bool) (args : List Tok) (c : Cli) (h : Tok.useUQ ∈ args)
    (hc : cliParse b ex args = (c, .ok)) : c.use_vt = true := by
  unfold cliParse at hc
  dsimp only at hc
  split_ifs at hc <;> cases hf : firstWord args <;> simp [hf] at hc <;> split_ifs at hc <;>
    simp_all <;> (subst_vars; try rfl) <;> (obtain ⟨hc, -⟩ := hc; rw [← hc])

/-! ## The run -/

theorem modelKind_false (b : Build) : modelKind b false = .ok .kokkos := rfl

theorem mainLoop_ok_iff (b : Build) (w : World) (d : Deck) (k : Kind) (n : ℤ) :
    mainLoop b w false d = .ok (k, n) ↔ k = .kokkos ∧ Completes w d n := by
  unfold mainLoop Completes
  rw [modelKind_false]
  cases hm : w.mesh d with
  | throw => simp
  | abort => simp
  | ok u =>
    by_cases hs : d.scheme = "explicit"
    · have ht : timeIntegrationScheme d = .ok "explicit" := by simp [timeIntegrationScheme, hs]
      cases hset : w.setup d .kokkos with
      | throw => simp [ht, hset]
      | abort => simp [ht, hset]
      | ok u2 =>
        cases hi : w.explicit d .kokkos with
        | throw => simp [ht, hset, integrate, hi]
        | abort => simp [ht, hset, integrate, hi]
        | ok x =>
          simp [ht, hset, integrate, hi, hs]
          exact fun _ => eq_comm
    · by_cases hq : d.scheme = "quasistatic"
      · have ht : timeIntegrationScheme d = .ok "quasistatic" := by simp [timeIntegrationScheme, hq]
        have hi : integrate w d .kokkos = .throw := by
          unfold integrate
          rw [ht]
          simp [quasistaticIntegrate]
        cases hset : w.setup d .kokkos <;> simp [ht, hset, hi, hs]
      · have ht : timeIntegrationScheme d = .throw := by simp [timeIntegrationScheme, hs, hq]
        simp [ht, hs]

theorem parse_uq (b : Build) (w : World) (args : List Tok) (n : ℤ) (c : Cli) (ev : List Event)
    (h : parseAndGetErrorCode b w args = (n, c, ev)) : c.use_uq = false := by
  have := uq_never_selected b w.fileExists args
  unfold parseAndGetErrorCode at h
  split at h <;> rename_i c' heq <;> simp [heq] at this <;> simp at h <;> rw [← h.2.1] <;> exact this

/-- Without a help request the command line passes only if it is accepted. -/
theorem parse_zero_iff (b : Build) (w : World) (args : List Tok) (hh : Tok.help ∉ args) (c : Cli) (ev : List Event) :
    parseAndGetErrorCode b w args = (0, c, ev) →
      ev = [] ∧ Accepted b w args c.input_filename := by
  intro h
  unfold parseAndGetErrorCode at h
  by_cases hbad : (Tok.useTpetra ∈ args ∧ b.trilinos = false) ∨ (Tok.useVT ∈ args ∧ b.vt = false) ∨
      (Tok.useUQ ∈ args ∧ b.uq = false)
  · have h105 := cli_unsupported b w.fileExists args hbad
    cases hp : cliParse b w.fileExists args with
    | mk c' r => simp [hp] at h105 h; subst h105; simp at h
  · by_cases hin : ∀ f, FirstPlain args f → w.fileExists f = false
    · obtain ⟨n, hn, hn0⟩ := cli_no_input b w.fileExists args hh hin
      cases hp : cliParse b w.fileExists args with
      | mk c' r => simp [hp] at hn h; subst hn; simp [hn0] at h
    · push Not at hin hbad
      obtain ⟨f, hf, hex⟩ := hin
      have hacc : Accepted b w args f :=
        ⟨hh, by simpa using hbad.1, by simpa using hbad.2.1, by simpa using hbad.2.2, hf, by simpa using hex⟩
      obtain ⟨c', hc', hfile, -, -⟩ := cli_accepted b w args f hacc
      rw [hc'] at h
      simp at h
      obtain ⟨rfl, rfl⟩ := h
      exact ⟨rfl, hfile ▸ hacc⟩

/-- C100, the status: without a help request, the program ends with status 0 exactly if the command line was
accepted, the deck was read, and the simulation of the deck came to its end with status 0. -/
theorem exit_zero_iff (b : Build) (w : World) (args : List Tok) (hh : Tok.help ∉ args) :
    (run b w args).1 = .code 0 ↔
      ∃ file d, Accepted b w args file ∧ w.deck file = .ok d ∧ Completes w d 0 := by
  constructor
  · intro h
    unfold run at h
    cases hp : parseAndGetErrorCode b w args with
    | mk err r =>
      obtain ⟨c, ev⟩ := r
      rw [hp] at h
      dsimp only at h
      by_cases he : err = 0
      · subst he
        obtain ⟨hev, hacc⟩ := parse_zero_iff b w args hh c ev hp
        rw [parse_uq b w args _ c ev hp] at h
        simp only [ne_eq, not_true_eq_false, if_false] at h
        cases hd : w.deck c.input_filename with
        | throw => simp [hd] at h
        | abort => simp [hd] at h
        | ok d =>
          rw [hd] at h
          dsimp only at h
          cases hm : mainLoop b w false d with
          | throw => simp [hm] at h
          | abort => simp [hm] at h
          | ok kn =>
            obtain ⟨k, n⟩ := kn
            simp [hm] at h
            subst h
            exact ⟨_, d, hacc, hd, ((mainLoop_ok_iff b w d k 0).mp hm).2⟩
      · simp [he] at h
  · rintro ⟨file, d, hacc, hd, hc⟩
    obtain ⟨c, hcli, hfile, -, -⟩ := cli_accepted b w args file hacc
    have hp : parseAndGetErrorCode b w args = (0, c, []) := by
      unfold parseAndGetErrorCode; rw [hcli]
    unfold run
    rw [hp]
    dsimp only
    simp [parse_uq b w args _ c _ hp, hfile, hd, (mainLoop_ok_iff b w d .kokkos 0).mpr ⟨rfl, hc⟩]

/-- C100, the trace: whenever MPI and Kokkos are shut down, the integrator of an explicit deck has come to its
end, its status is the exit status, and everything happened once and in order. -/
theorem finalized_iff (b : Build) (w : World) (args : List Tok) (hh : Tok.help ∉ args) (n : ℤ) :
    ((run b w args).1 = .code n ∧ Event.finalized ∈ (run b w args).2) ↔
      ∃ file d, Accepted b w args file ∧ w.deck file = .ok d ∧ Completes w d n ∧
        run b w args = (.code n, [.initialized, .integrated "explicit" .kokkos n, .finalized]) := by
  constructor
  · rintro ⟨h1, h2⟩
    have hrun := h1
    unfold run at h1 h2
    cases hp : parseAndGetErrorCode b w args with
    | mk err r =>
      obtain ⟨c, ev⟩ := r
      rw [hp] at h1 h2
      dsimp only at h1 h2
      by_cases he : err = 0
      · subst he
        obtain ⟨hev, hacc⟩ := parse_zero_iff b w args hh c ev hp
        rw [parse_uq b w args _ c ev hp] at h1 h2
        simp only [ne_eq, not_true_eq_false, if_false] at h1 h2
        cases hd : w.deck c.input_filename with
        | throw => simp [hd] at h1
        | abort => simp [hd] at h1
        | ok d =>
          rw [hd] at h1 h2
          dsimp only at h1 h2
          cases hm : mainLoop b w false d with
          | throw => simp [hm, hev] at h2
          | abort => simp [hm] at h1
          | ok kn =>
            obtain ⟨k, m⟩ := kn
            simp [hm] at h1
            subst h1
            obtain ⟨rfl, hc⟩ := (mainLoop_ok_iff b w d k m).mp hm
            refine ⟨_, d, hacc, hd, hc, ?_⟩
            unfold run
            rw [hp]
            dsimp only
            simp [parse_uq b w args _ c ev hp, hd, hm, hev, hc.1]
      · have hev : ev = [] := by
          unfold parseAndGetErrorCode at hp
          split at hp
          · exact (congrArg (fun t => t.2.2) hp).symm
          · exact absurd (congrArg (fun t => t.1) hp).symm he
          · exact (congrArg (fun t => t.2.2) hp).symm
        simp [he, hev] at h2
  · rintro ⟨file, d, -, -, -, h⟩
    rw [h]
    simp

/-- C100, the failures: an exception while the deck is read is not caught and terminates the process; one in
the rest of the program gives status 1.  In neither case are MPI and Kokkos shut down. -/
theorem failures_reported (b : Build) (w : World) (args : List Tok) (file : String) (hacc : Accepted b w args file) :
    (w.deck file = .throw → run b w args = (.terminate, [.initialized])) ∧
    (∀ d, w.deck file = .ok d → (∀ n, ¬ Completes w d n) →
      (run b w args = (.code 1, [.initialized]) ∨ run b w args = (.abort, [.initialized]))) := by
  obtain ⟨c, hcli, hfile, -, -⟩ := cli_accepted b w args file hacc
  have hp : parseAndGetErrorCode b w args = (0, c, []) := by
    unfold parseAndGetErrorCode; rw [hcli]
  constructor
  · intro hd
    unfold run
    rw [hp]
    dsimp only
    rw [hfile, hd]
    rfl
  · intro d hd hno
    unfold run
    rw [hp]
    dsimp only
    rw [parse_uq b w args _ c _ hp, hfile, hd]
    dsimp only
    cases hm : mainLoop b w false d with
    | throw => left; rfl
    | abort => right; rfl
    | ok kn => exact absurd ((mainLoop_ok_iff b w d kn.1 kn.2).mp hm).2 (hno _)

/-- A world in which everything succeeds for the deck `a.in`. -/
def goodWorld (scheme : String) : World :=
  { fileExists := fun f => f == "a.in"
    deck := fun f => if f = "a.in" then .ok ⟨scheme, "", ""⟩ else .throw
    mesh := fun _ => .ok ()
    setup := fun _ _ => .ok ()
    explicit := fun _ _ => .ok 0
    quasistaticStart := fun _ => .ok ()
    numRanks := 1 }

/-- C100 as one would want it, refuted: "a help request prints the help and runs nothing".  The simulation
runs as well. -/
theorem help_only_prints_refuted :
    ¬ ∀ (b : Build) (w : World) (args : List Tok), Tok.help ∈ args → (run b w args).2 = [.help] := by
  intro h
  have := h ⟨false, false, false, false, false, false⟩ (goodWorld "explicit") [.help, .word "a.in"] (by simp)
  revert this
  decide +kernel

/-- A help request without an input file reads a deck with an empty name; if that fails, the process is
terminated by the exception. -/
theorem help_alone_reads_empty_deck (b : Build) (w : World) (args : List Tok)
    (h0 : args = [Tok.help]) (hd : w.deck "" = .throw) : run b w args = (.terminate, [.help, .initialized]) := by
  subst h0
  have hp : parseAndGetErrorCode b w [Tok.help] = (0, ⟨false, false, false, ""⟩, [.help]) := by
    simp [parseAndGetErrorCode, cliParse, firstWord]
  unfold run
  rw [hp]
  dsimp only
  rw [hd]
  rfl

/-! ## Quasistatic decks -/

theorem quasistatic_never_ok (w : World) (d : Deck) (k : Kind) (n : ℤ) : quasistaticIntegrate w d k ≠ .ok n := by
  unfold quasistaticIntegrate
  split_ifs
  · simp
  · cases k
    · simp
    · cases w.quasistaticStart d <;> simp

/-- C102: a quasistatic deck is never run to its end by the application: whatever the build, the command line
(with or without UQ), the number of ranks and the mesh, the program does not end with status 0, and the model
integrator never reports a status. -/
theorem quasistatic_never_completes (b : Build) (w : World) (args : List Tok)
    (hq : ∀ f d, w.deck f = .ok d → d.scheme = "quasistatic") :
    (run b w args).1 ≠ .code 0 ∧ (∀ s k n, Event.integrated s k n ∉ (run b w args).2) ∧
      Event.finalized ∉ (run b w args).2 := by
  have hmain : ∀ u d kn, d.scheme = "quasistatic" → mainLoop b w u d ≠ .ok kn := by
    intro u d kn hs h
    have ht : timeIntegrationScheme d = .ok "quasistatic" := by simp [timeIntegrationScheme, hs]
    unfold mainLoop at h
    cases hm : w.mesh d <;> simp [hm] at h
    cases hk : modelKind b u <;> simp [hk] at h
    rename_i k
    rw [ht] at h
    cases hset : w.setup d k <;> simp [hset] at h
    have : ∀ n, integrate w d k ≠ .ok n := by
      intro n
      unfold integrate
      rw [ht]
      simpa using quasistatic_never_ok w d k n
    cases hi : integrate w d k <;> simp [hi] at h
    exact this _ hi
  have hev : ∀ n c ev, parseAndGetErrorCode b w args = (n, c, ev) → ev = [] ∨ ev = [.help] := by
    intro n c ev h
    unfold parseAndGetErrorCode at h
    split at h <;> simp at h <;> simp [← h.2.2]
  unfold run
  cases hp : parseAndGetErrorCode b w args with
  | mk err r =>
    obtain ⟨c, ev⟩ := r
    dsimp only
    have hev' := hev err c ev hp
    by_cases he : err = 0
    · simp only [he, ne_eq, not_true_eq_false, if_false]
      cases hd : w.deck c.input_filename with
      | throw => rcases hev' with rfl | rfl <;> simp
      | abort => rcases hev' with rfl | rfl <;> simp
      | ok d =>
        dsimp only
        cases hm : mainLoop b w c.use_uq d with
        | throw => rcases hev' with rfl | rfl <;> simp
        | abort => rcases hev' with rfl | rfl <;> simp
        | ok kn => exact absurd hm (hmain _ d kn (hq _ d hd))
    · rcases hev' with rfl | rfl <;> simp [he]

/-- C102 as one would want it, refuted: "a quasistatic deck that is read, whose mesh is read and whose set up
succeeds runs to its end". -/
theorem quasistatic_completes_refuted :
    ¬ ∀ (b : Build) (w : World) (args : List Tok) (file : String) (d : Deck), Accepted b w args file →
        w.deck file = .ok d → d.scheme = "quasistatic" → w.mesh d = .ok () → (∀ k, w.setup d k = .ok ()) →
        w.quasistaticStart d = .ok () → w.numRanks = 1 → ∃ n, (run b w args).1 = .code n ∧ n = 0 := by
  intro h
  obtain ⟨n, hn, rfl⟩ := h ⟨true, true, true, true, true, true⟩ (goodWorld "quasistatic") [.word "a.in"] "a.in"
    ⟨"quasistatic", "", ""⟩ (by refine ⟨?_, ?_, ?_, ?_, ⟨[], [], rfl, ?_⟩, ?_⟩ <;> simp [goodWorld])
    (by simp [goodWorld]) rfl rfl (fun _ => rfl) rfl rfl
  revert hn
  decide +kernel

/-! ## Contact -/

/-- C103, the key: the `contact backend` key of the deck has no influence on which contact manager is used. -/
theorem contact_backend_ignored (b : Build) (useVT : Bool) (d : Deck) (s : String) :
    contactKind b useVT { d with contactBackend := s } = contactKind b useVT d := rfl

/-- C103, the choice: a deck with a contact command gets a manager that searches for contact exactly if the
build has ArborX, or has BVH and VT is on. -/
theorem contact_kind_iff (b : Build) (useVT : Bool) (d : Deck) :
    (contactKind b useVT d = none ↔ d.contact = "") ∧
    (contactKind b useVT d = some .base ↔ d.contact ≠ "" ∧ b.arborx = false ∧ ¬ (b.bvh = true ∧ useVT = true)) ∧
    (contactKind b useVT d = some .bvh ↔ d.contact ≠ "" ∧ b.bvh = true ∧ useVT = true) := by
  unfold contactKind
  refine ⟨?_, ?_, ?_⟩ <;> split_ifs <;> simp_all

variable {K : Type*} [Field K] [LinearOrder K]

/-- C103, the force: with the base manager and the interface of the stock application the contact force is zero
at every node, for every mesh, every displacement and every positive penalty. -/
theorem base_contact_force_zero (disp : ℕ → Fin 3 → K) (force_d : ℤ → K) (m : Contact.Manager K)
    (F : ℕ → Fin 3 → K) (h : baseContactForce stockInterface disp force_d m = some F) : F = fun _ => 0 := by
  unfold baseContactForce at h
  split_ifs at h
  simp only [Option.some.injEq] at h
  subst h
  unfold Contact.getForces
  have key : ∀ (l : List ℕ) (o : ℕ → Fin 3 → K), o = (fun _ => 0) →
      l.foldl (fun o (i : ℕ) => Function.update o ((Contact.applyDisplacements disp m).nodeIds.getD i 0)
        ![(0 : K), 0, 0]) o = fun _ => 0 := by
    intro l
    induction l with
    | nil => intro o ho; exact ho
    | cons i l ih =>
      intro o ho
      rw [List.foldl_cons]
      apply ih
      subst ho
      funext a
      by_cases ha : a = (Contact.applyDisplacements disp m).nodeIds.getD i 0
      · subst ha
        rw [Function.update_self]
        funext j
        fin_cases j <;> rfl
      · rw [Function.update_of_ne ha]
  exact key _ _ rfl

/-- With a positive penalty the call succeeds; otherwise it is refused. -/
theorem base_contact_force_defined (i : ContactInterface K) (disp : ℕ → Fin 3 → K) (force_d : ℤ → K)
    (m : Contact.Manager K) : (baseContactForce i disp force_d m).isSome = true ↔ 0 < m.penalty := by
  unfold baseContactForce
  split_ifs with h
  · simpa using h
  · simpa using h

/-- An application that overrides `CreateContactInterface` gets what its search computes from zero: nothing
of the previous step is left in the forces. -/
theorem base_contact_force_fresh (i : ContactInterface K) (disp : ℕ → Fin 3 → K) (force_d force_d' : ℤ → K)
    (m : Contact.Manager K) (hp : 0 < m.penalty) (hn : m.nodeIds.Nodup) :
    baseContactForce i disp force_d m = baseContactForce i disp force_d' m ∧
    ∃ F, baseContactForce i disp force_d m = some F ∧
      (∀ k (hk : k < m.nodeIds.length) (d : Fin 3), F m.nodeIds[k] d =
        i.doSearchAndEnforcement (Contact.applyDisplacements disp m).nodes
          (Contact.applyDisplacements disp m).faces (fun _ => 0) (3 * (k : ℤ) + d)) ∧
      (∀ a, a ∉ m.nodeIds → F a = 0) := by
  refine ⟨rfl, _, by unfold baseContactForce; rw [if_neg (not_le.mpr hp)], ?_, ?_⟩
  · intro k hk d
    have := congrFun (Contact.getForces_at (Contact.applyDisplacements disp m) hn
      (computeContact i (Contact.applyDisplacements disp m).nodes (Contact.applyDisplacements disp m).faces force_d)
      (fun _ => 0) k hk) d
    refine this.trans ?_
    fin_cases d <;> simp [Contact.nodeVec, computeContact]
  · intro a ha
    exact Contact.getForces_other (Contact.applyDisplacements disp m) hn _ _ a ha

/-! ## Concrete cases -/

private def fullBuild : Build := ⟨true, true, true, true, true, true⟩
private def plainBuild : Build := ⟨false, false, false, false, false, false⟩

/-- `NimbleSM --use_tpetra a.in extra` in a full build. -/
example : Accepted fullBuild (goodWorld "explicit") [.useTpetra, .word "a.in", .word "extra"] "a.in" ∧
    run fullBuild (goodWorld "explicit") [.useTpetra, .word "a.in", .word "extra"] =
      (.code 0, [.initialized, .integrated "explicit" .kokkos 0, .finalized]) := by
  refine ⟨⟨by simp, by simp [fullBuild], by simp, by simp,
    ⟨[.useTpetra], [.word "extra"], rfl, by simp⟩, by simp [goodWorld]⟩, ?_⟩
  decide +kernel

example : run plainBuild (goodWorld "explicit") [.useTpetra, .word "a.in"] = (.code 105, []) ∧
    run plainBuild (goodWorld "explicit") [.option "--verbose"] = (.code 106, []) ∧
    run plainBuild (goodWorld "explicit") [.word "b.in"] = (.code 105, []) ∧
    run fullBuild (goodWorld "quasistatic") [.useUQ, .word "a.in"] = (.code 1, [.initialized]) ∧
    run plainBuild (goodWorld "explict") [.word "a.in"] = (.code 1, [.initialized]) := by
  refine ⟨?_, ?_, ?_, ?_, ?_⟩ <;> decide +kernel

example : Completes (goodWorld "explicit") ⟨"explicit", "", ""⟩ 0 := ⟨rfl, rfl, rfl, rfl⟩

/-- The hypothesis of `quasistatic_never_completes` holds of `goodWorld "quasistatic"`. -/
example : ∀ f d, (goodWorld "quasistatic").deck f = .ok d → d.scheme = "quasistatic" := by
  intro f d h
  by_cases hf : f = "a.in"
  · simp [goodWorld, hf] at h; rw [← h]
  · simp [goodWorld, hf] at h

/-- A contact deck in a build without search libraries that asks for ArborX. -/
example : contactKind plainBuild false ⟨"explicit", "primary_blocks a secondary_blocks b penalty_parameter 1", "arborx"⟩
    = some .base := by decide +kernel

/-- An interface whose search adds something: the forces are not zero. -/
example : ∃ F, baseContactForce (K := ℚ) ⟨fun _ _ f => Function.update f 4 7⟩ (fun _ => 0) (fun _ => 0)
    ⟨1, [5, 9], fun _ => 0, fun _ => 0, [], []⟩ = some F ∧ F 9 = ![0, 7, 0] ∧ F 5 = 0 := by
  refine ⟨_, rfl, ?_, ?_⟩ <;> decide +kernel

end NimbleSM.App
