import Verif.App.Lifecycle

/-!
# Starting and stopping libraries (C148, C149)
-/

namespace NimbleSM.App

/-! ## Specification -/

/-- Replay a history over the libraries that are running, the last started first.  A library must not be started
while it runs, only the last started may be stopped, and a simulation needs Kokkos and, in a build with MPI, MPI (or
Tpetra, which brings its own).  `none`: a rule was broken. -/
def replay (mpi : Bool) : List Lib → List Act → Option (List Lib)
  | up, [] => some up
  | up, .start l :: t => if l ∈ up then none else replay mpi (l :: up) t
  | [], .stop _ :: _ => none
  | l' :: up, .stop l :: t => if l' = l then replay mpi up t else none
  | up, .simulate _ :: t =>
    if Lib.kokkos ∈ up ∧ (mpi = true → Lib.mpi ∈ up ∨ Lib.tpetra ∈ up) then replay mpi up t else none

/-- All rules were kept and in the end nothing is left running. -/
def Disciplined (b : LibBuild) (t : List Act) : Prop := replay b.mpi [] t = some []

/-- The call is refused for its command line, or its deck is read and its simulation ends without an exception. -/
def Clean (c : Call) : Prop :=
  c.cliCode ≠ 0 ∨ ((∃ k, c.deck = .ok k) ∧ ∃ n, c.main = .ok n)

/-- Tpetra is not asked for in a build with Trilinos and without MPI. -/
def Ordinary (b : LibBuild) (c : Call) : Prop := b.trilinos = true → c.useTpetra = true → b.mpi = true

/-- What the simulations of a history saw as contact interface: the number of the call that made it. -/
def interfaces (t : List Act) : List (Option ℕ) :=
  t.filterMap fun | .simulate x => some x | _ => none

/-- The simulations that are due, numbered from `n`: one for each call that is not refused, with an interface of
its own if its deck has contact. -/
def due : ℕ → List Call → List (Option ℕ)
  | _, [] => []
  | n, c :: cs => if c.cliCode ≠ 0 then due (n + 1) cs
    else (match c.deck with | .ok true => some n | _ => none) :: due (n + 1) cs

/-! ## Replay -/

theorem replay_append (m : Bool) (up : List Lib) (t t' : List Act) :
    replay m up (t ++ t') = (replay m up t).bind fun u => replay m u t' := by
  induction t generalizing up with
  | nil => rfl
  | cons a t ih =>
    cases a with
    | start l =>
      simp only [List.cons_append, replay]
      split_ifs
      · rfl
      · exact ih _
    | stop l =>
      cases up with
      | nil => rfl
      | cons l' up =>
        simp only [List.cons_append, replay]
        split_ifs
        · exact ih _
        · rfl
    | simulate x =>
      simp only [List.cons_append, replay]
      split_ifs
      · exact ih _
      · rfl

/-- The libraries between two calls. -/
def base (s : AppState) : List Lib := if s.scope then [.tpetra] else []

/-- So far the rules were kept, and only the scope of Tpetra is left. -/
def Good (m : Bool) (s : AppState) : Prop := replay m [] s.trace = some (base s)

/-- A rule was broken, or Kokkos was left running. -/
def Bad (m : Bool) (t : List Act) : Prop :=
  replay m [] t = none ∨ ∃ up, replay m [] t = some up ∧ Lib.kokkos ∈ up

theorem bad_none {m : Bool} {t t' : List Act} (h : replay m [] t = none) : replay m [] (t ++ t') = none := by
  rw [replay_append, h]; rfl

theorem bad_drop {m : Bool} {s : AppState} (h : Bad m s.trace) : Bad m (dropParser s).trace := by
  unfold dropParser
  simp only
  cases s.scope with
  | false => simpa using h
  | true =>
    rcases h with h | ⟨up, h, hk⟩
    · exact Or.inl (bad_none h)
    · unfold Bad
      simp only [if_true]
      rw [replay_append, h]
      cases up with
      | nil => simp at hk
      | cons l up =>
        simp only [Option.bind_some, replay]
        by_cases hl : l = .tpetra
        · rw [if_pos hl]
          refine Or.inr ⟨up, rfl, ?_⟩
          rw [hl] at hk
          simpa using hk
        · rw [if_neg hl]; exact Or.inl rfl

theorem start_twice (b : LibBuild) (c : Call) (ho : Ordinary b c) (up : List Lib) (hk : Lib.kokkos ∈ up) :
    replay b.mpi up (startLibraries b c) = none := by
  obtain ⟨bt, bm, bv⟩ := b
  obtain ⟨code, ut, uv, deck, main⟩ := c
  unfold Ordinary at ho
  revert ho
  cases bt <;> cases bm <;> cases bv <;> cases ut <;> cases uv <;> simp [startLibraries, replay, hk]

theorem bad_call {b : LibBuild} {n : ℕ} {c : Call} (ho : Ordinary b c) {s : AppState} (h : Bad b.mpi s.trace) :
    Bad b.mpi (runCall b n c s).2.trace := by
  unfold runCall
  split_ifs with hc
  · exact h
  · have hd := bad_drop h
    have key : ∀ r, replay b.mpi [] ((dropParser s).trace ++ startLibraries b c ++ r) = none := by
      intro r
      apply bad_none
      rcases hd with hd | ⟨up, hd, hk⟩
      · exact bad_none hd
      · rw [replay_append, hd]; exact start_twice b c ho up hk
    have key0 := key []
    rw [List.append_nil] at key0
    simp only
    cases c.deck with
    | throw => exact Or.inl key0
    | abort => exact Or.inl key0
    | ok k =>
      cases c.main with
      | abort => exact Or.inl (key _)
      | throw => exact Or.inl (key _)
      | ok v => exact Or.inl (by simp only [List.append_assoc] at key ⊢; exact key _)

theorem good_drop {m : Bool} {s : AppState} (h : Good m s) : replay m [] (dropParser s).trace = some [] := by
  unfold Good base at h
  unfold dropParser
  simp only
  rw [replay_append, h]
  cases s.scope <;> simp [replay]

/-- After the start of the libraries. -/
theorem started (b : LibBuild) (c : Call) (ho : Ordinary b c) :
    ∃ up, replay b.mpi [] (startLibraries b c) = some up ∧ Lib.kokkos ∈ up ∧
      (b.mpi = true → Lib.mpi ∈ up ∨ Lib.tpetra ∈ up) ∧
      replay b.mpi up (stopLibraries b c) = some (if b.trilinos && c.useTpetra then [.tpetra] else []) := by
  obtain ⟨bt, bm, bv⟩ := b
  obtain ⟨code, ut, uv, deck, main⟩ := c
  unfold Ordinary at ho
  revert ho
  cases bt <;> cases bm <;> cases bv <;> cases ut <;> cases uv <;>
    simp [startLibraries, stopLibraries, replay]

theorem good_call {b : LibBuild} {n : ℕ} {c : Call} (ho : Ordinary b c) {s : AppState} (h : Good b.mpi s) :
    (Clean c ∧ (∃ v, (runCall b n c s).1 = .returned v) ∧ Good b.mpi (runCall b n c s).2) ∨
      (¬ Clean c ∧ Bad b.mpi (runCall b n c s).2.trace) := by
  unfold runCall
  split_ifs with hc
  · exact Or.inl ⟨Or.inl hc, ⟨_, rfl⟩, h⟩
  · have hd := good_drop h
    obtain ⟨up, h1, hk, hm, h2⟩ := started b c ho
    have hs : replay b.mpi [] ((dropParser s).trace ++ startLibraries b c) = some up := by
      rw [replay_append, hd]; exact h1
    have hsim : ∀ x, replay b.mpi [] ((dropParser s).trace ++ startLibraries b c ++ [.simulate x]) = some up := by
      intro x
      rw [replay_append, hs]
      simp only [Option.bind_some, replay]
      rw [if_pos ⟨hk, hm⟩]
    simp only
    cases hdk : c.deck with
    | throw => exact Or.inr ⟨by rintro (hx | ⟨⟨k, hx⟩, -⟩); exacts [hc hx, by rw [hdk] at hx; cases hx],
        Or.inr ⟨up, hs, hk⟩⟩
    | abort => exact Or.inr ⟨by rintro (hx | ⟨⟨k, hx⟩, -⟩); exacts [hc hx, by rw [hdk] at hx; cases hx],
        Or.inr ⟨up, hs, hk⟩⟩
    | ok k =>
      simp only
      cases hmn : c.main with
      | throw => exact Or.inr ⟨by rintro (hx | ⟨-, v, hx⟩); exacts [hc hx, by rw [hmn] at hx; cases hx],
          Or.inr ⟨up, hsim _, hk⟩⟩
      | abort => exact Or.inr ⟨by rintro (hx | ⟨-, v, hx⟩); exacts [hc hx, by rw [hmn] at hx; cases hx],
          Or.inr ⟨up, hsim _, hk⟩⟩
      | ok v =>
        refine Or.inl ⟨Or.inr ⟨⟨_, hdk⟩, _, hmn⟩, ⟨_, rfl⟩, ?_⟩
        unfold Good base
        simp only
        rw [replay_append, hsim]
        exact h2

theorem calls_discipline {b : LibBuild} (cs : List Call) (ho : ∀ c ∈ cs, Ordinary b c) (n : ℕ) (s : AppState)
    (h : Good b.mpi s) :
    ((∀ c ∈ cs, Clean c) ∧ (calls b n cs s).1 = true ∧ Good b.mpi (calls b n cs s).2) ∨
      ((∃ c ∈ cs, ¬ Clean c) ∧ Bad b.mpi (calls b n cs s).2.trace) := by
  have hbad : ∀ (cs : List Call), (∀ c ∈ cs, Ordinary b c) → ∀ n s, Bad b.mpi s.trace →
      Bad b.mpi (calls b n cs s).2.trace := by
    intro cs
    induction cs with
    | nil => intro _ n s hs; exact hs
    | cons c cs ih =>
      intro ho n s hs
      have h1 := bad_call (n := n) (ho c List.mem_cons_self) hs
      unfold calls
      generalize runCall b n c s = r at h1
      obtain ⟨e, t⟩ := r
      cases e with
      | died => exact h1
      | returned v => exact ih (fun c hc => ho c (List.mem_cons_of_mem _ hc)) _ _ h1
  induction cs generalizing n s with
  | nil => exact Or.inl ⟨by simp, rfl, h⟩
  | cons c cs ih =>
    have ho' : ∀ c ∈ cs, Ordinary b c := fun c hc => ho c (List.mem_cons_of_mem _ hc)
    rcases good_call (n := n) (ho c List.mem_cons_self) h with ⟨hc, ⟨v, hv⟩, hg⟩ | ⟨hc, hb⟩
    · unfold calls
      generalize runCall b n c s = r at hv hg
      obtain ⟨e, t⟩ := r
      simp only at hv hg
      subst hv
      simp only
      rcases ih ho' (n + 1) t hg with ⟨hall, h1, h2⟩ | ⟨⟨c', hc', hn⟩, h2⟩
      · exact Or.inl ⟨fun x hx => (List.mem_cons.mp hx).elim (fun e => e ▸ hc) (hall x), h1, h2⟩
      · exact Or.inr ⟨⟨c', List.mem_cons_of_mem _ hc', hn⟩, h2⟩
    · refine Or.inr ⟨⟨c, List.mem_cons_self, hc⟩, ?_⟩
      unfold calls
      generalize runCall b n c s = r at hb
      obtain ⟨e, t⟩ := r
      cases e with
      | died => exact hb
      | returned v => exact hbad cs ho' _ _ hb

/-! ## C148 -/

/-- **C148 (what holds)**.  Over any history of calls the libraries are started and stopped by the rules, and all are
stopped in the end, exactly if every call was refused for its command line or ran its simulation to the end without
an exception. -/
theorem libraries_disciplined_partial (b : LibBuild) (cs : List Call) (ho : ∀ c ∈ cs, Ordinary b c) :
    Disciplined b (session b cs) ↔ ∀ c ∈ cs, Clean c := by
  have h0 : Good b.mpi .new := rfl
  unfold session Disciplined
  rcases calls_discipline cs ho 0 .new h0 with ⟨hall, h1, h2⟩ | ⟨⟨c, hc, hn⟩, hb⟩
  · generalize calls b 0 cs .new = r at h1 h2
    obtain ⟨e, s⟩ := r
    simp only at h1 h2
    subst h1
    exact ⟨fun _ => hall, fun _ => good_drop h2⟩
  · have hbd := bad_drop hb
    have no : ∀ t, Bad b.mpi t → replay b.mpi [] t ≠ some [] := by
      rintro t (h | ⟨up, h, hk⟩) hh
      · rw [h] at hh; cases hh
      · rw [h] at hh; cases hh; simp at hk
    constructor
    · intro h
      exfalso
      generalize calls b 0 cs .new = r at hb hbd h
      obtain ⟨e, s⟩ := r
      cases e with
      | true => exact no _ hbd h
      | false => exact no _ hb h
    · intro h; exact absurd (h c hc) hn

/-- A simulation that throws leaves MPI and Kokkos running although `Run` returns: not every history of calls stops
what it started. -/
theorem libraries_always_stopped_refuted :
    ¬ ∀ (b : LibBuild) (cs : List Call), (∀ c ∈ cs, Ordinary b c ∧ c.main ≠ .abort ∧ ∃ k, c.deck = .ok k) →
      Disciplined b (session b cs) := by
  intro h
  have := (libraries_disciplined_partial ⟨false, true, false⟩ [⟨0, false, false, .ok false, .throw⟩]
    (by intro c hc; intro h; cases h)).mp (h _ _ (by
      intro c hc
      rw [List.mem_singleton] at hc
      subst hc
      refine ⟨?_, ?_, _, rfl⟩
      · intro h; cases h
      · intro h; cases h)) _ (List.mem_singleton.mpr rfl)
  rcases this with h | ⟨-, n, h⟩
  · exact h rfl
  · cases h

/-- With Trilinos and without MPI, a run that uses Tpetra stops a Kokkos that it never started. -/
theorem tpetra_without_mpi (b : LibBuild) (ht : b.trilinos = true) (hm : b.mpi = false) (c : Call)
    (hc : c.cliCode = 0) (hu : c.useTpetra = true) (k : Bool) (hd : c.deck = .ok k) (n : ℤ) (hn : c.main = .ok n) :
    Act.stop .kokkos ∈ session b [c] ∧ Act.start .kokkos ∉ session b [c] := by
  obtain ⟨bt, bm, bv⟩ := b
  obtain ⟨code, ut, uv, deck, main⟩ := c
  simp only at ht hm hc hu hd hn
  subst ht hm hc hu hd hn
  cases bv <;> cases uv <;> cases k <;>
    simp [session, calls, runCall, startLibraries, stopLibraries, dropParser, AppState.new]

/-! ## C149 -/

theorem interfaces_append (t t' : List Act) : interfaces (t ++ t') = interfaces t ++ interfaces t' := by
  unfold interfaces; rw [List.filterMap_append]

theorem interfaces_start (b : LibBuild) (c : Call) : interfaces (startLibraries b c) = [] := by
  obtain ⟨bt, bm, bv⟩ := b
  obtain ⟨code, ut, uv, deck, main⟩ := c
  cases bt <;> cases bm <;> cases bv <;> cases ut <;> cases uv <;> rfl

theorem interfaces_stop (b : LibBuild) (c : Call) : interfaces (stopLibraries b c) = [] := by
  obtain ⟨bt, bm, bv⟩ := b
  obtain ⟨code, ut, uv, deck, main⟩ := c
  cases bt <;> cases bm <;> cases bv <;> cases ut <;> cases uv <;> rfl

theorem interfaces_drop (s : AppState) : interfaces (dropParser s).trace = interfaces s.trace := by
  unfold dropParser
  simp only
  rw [interfaces_append]
  cases s.scope <;> simp [interfaces]

theorem interfaces_calls (b : LibBuild) (cs : List Call) (hcs : ∀ c ∈ cs, Clean c) (n : ℕ) (s : AppState)
    (hs : s.contact = none) :
    (calls b n cs s).1 = true ∧ interfaces (calls b n cs s).2.trace = interfaces s.trace ++ due n cs := by
  induction cs generalizing n s with
  | nil => simp [calls, due]
  | cons c cs ih =>
    have hcs' : ∀ c ∈ cs, Clean c := fun c hc => hcs c (List.mem_cons_of_mem _ hc)
    unfold calls due runCall
    by_cases hc : c.cliCode ≠ 0
    · rw [if_pos hc, if_pos hc]
      exact ih hcs' (n + 1) s hs
    · rw [if_neg hc, if_neg hc]
      obtain ⟨⟨k, hk⟩, v, hv⟩ := (hcs c List.mem_cons_self).resolve_left hc
      simp only [hk, hv]
      obtain ⟨h1, h2⟩ := ih hcs' (n + 1) (s := { (dropParser s) with
        trace := (dropParser s).trace ++ startLibraries b c ++
          [.simulate (if k = true then some n else (dropParser s).contact)] ++ stopLibraries b c
        scope := b.trilinos && c.useTpetra, contact := none }) rfl
      refine ⟨h1, ?_⟩
      rw [h2]
      simp only [interfaces_append, interfaces_start, interfaces_stop, interfaces_drop, List.append_nil,
        List.append_assoc]
      congr 1
      have hd : (dropParser s).contact = none := hs
      rw [hd]
      cases k <;> rfl

/-- **C149 (what holds)**.  `Run` may be called again: if no call ended with an exception, there is one simulation
for each call that is not refused, in order, and it sees the contact interface made by the same call, or none if its
deck has no contact. -/
theorem run_again_partial (b : LibBuild) (cs : List Call) (hcs : ∀ c ∈ cs, Clean c) :
    interfaces (session b cs) = due 0 cs := by
  obtain ⟨h1, h2⟩ := interfaces_calls b cs hcs 0 .new rfl
  unfold session
  generalize calls b 0 cs .new = r at h1 h2
  obtain ⟨e, s⟩ := r
  simp only at h1 h2
  subst h1
  simp only
  rw [interfaces_drop, h2]
  rfl

/-- MPI is started once for each call that is not refused and does not use Tpetra. -/
theorem mpi_started (b : LibBuild) (hb : b.mpi = true) (cs : List Call) (hcs : ∀ c ∈ cs, Clean c) :
    (session b cs).count (.start .mpi)
      = cs.countP (fun c => c.cliCode = 0 ∧ ¬ (b.trilinos = true ∧ c.useTpetra = true)) := by
  have hdrop : ∀ s : AppState, (dropParser s).trace.count (.start .mpi) = s.trace.count (.start .mpi) := by
    intro s
    unfold dropParser
    cases s.scope <;> simp
  have hstart : ∀ c, (startLibraries b c).count (.start .mpi)
      = if ¬ (b.trilinos = true ∧ c.useTpetra = true) then 1 else 0 := by
    intro c
    obtain ⟨bt, bm, bv⟩ := b
    obtain ⟨code, ut, uv, deck, main⟩ := c
    simp only at hb
    subst hb
    cases bt <;> cases bv <;> cases ut <;> cases uv <;> rfl
  have hstop : ∀ c, (stopLibraries b c).count (.start .mpi) = 0 := by
    intro c
    obtain ⟨bt, bm, bv⟩ := b
    obtain ⟨code, ut, uv, deck, main⟩ := c
    cases bt <;> cases bm <;> cases bv <;> cases ut <;> cases uv <;> rfl
  have key : ∀ (cs : List Call), (∀ c ∈ cs, Clean c) → ∀ n s, (calls b n cs s).1 = true ∧
      (calls b n cs s).2.trace.count (.start .mpi) = s.trace.count (.start .mpi)
        + cs.countP (fun c => c.cliCode = 0 ∧ ¬ (b.trilinos = true ∧ c.useTpetra = true)) := by
    intro cs
    induction cs with
    | nil => intro _ n s; simp [calls]
    | cons c cs ih =>
      intro hcs n s
      have hcs' : ∀ c ∈ cs, Clean c := fun c hc => hcs c (List.mem_cons_of_mem _ hc)
      unfold calls runCall
      by_cases hc : c.cliCode ≠ 0
      · rw [if_pos hc]
        obtain ⟨h1, h2⟩ := ih hcs' (n + 1) s
        refine ⟨h1, ?_⟩
        rw [List.countP_cons_of_neg (by simp [hc])]
        exact h2
      · rw [if_neg hc]
        obtain ⟨⟨k, hk⟩, v, hv⟩ := (hcs c List.mem_cons_self).resolve_left hc
        simp only [hk, hv]
        obtain ⟨h1, h2⟩ := ih hcs' (n + 1) (s := { (dropParser s) with
          trace := (dropParser s).trace ++ startLibraries b c ++
            [.simulate (if k = true then some n else (dropParser s).contact)] ++ stopLibraries b c
          scope := b.trilinos && c.useTpetra, contact := none })
        refine ⟨h1, ?_⟩
        rw [h2]
        simp only [List.count_append, hdrop, hstart, hstop]
        rw [List.countP_cons]
        have hc0 : c.cliCode = 0 := not_not.mp hc
        by_cases hx : b.trilinos = true ∧ c.useTpetra = true
        · simp [hx, hc0]
        · simp only [hx, hc0, not_false_eq_true, if_true, and_self, decide_true]
          simp
          omega
  obtain ⟨h1, h2⟩ := key cs hcs 0 .new
  unfold session
  generalize calls b 0 cs .new = r at h1 h2
  obtain ⟨e, s⟩ := r
  simp only at h1 h2
  subst h1
  simp only
  rw [hdrop, h2]
  simp [AppState.new]

/-- In a build with MPI a second call starts MPI a second time, which MPI forbids, even when both runs succeed. -/
theorem run_again_refuted : ¬ ∀ (b : LibBuild) (cs : List Call), (∀ c ∈ cs, Clean c) →
    (session b cs).count (.start .mpi) ≤ 1 := by
  intro h
  have hc : ∀ c ∈ [(⟨0, false, false, .ok false, .ok 0⟩ : Call), ⟨0, false, false, .ok false, .ok 0⟩], Clean c := by
    intro c hc
    simp only [List.mem_cons, List.not_mem_nil, or_false, or_self] at hc
    subst hc
    exact Or.inr ⟨⟨_, rfl⟩, _, rfl⟩
  have h1 := h ⟨false, true, false⟩ _ hc
  rw [mpi_started _ rfl _ hc] at h1
  revert h1
  decide

/-- After a call that ended with an exception, a run without contact finds the contact interface of the failed
call. -/
theorem stale_interface : ∃ (b : LibBuild) (cs : List Call) (x : Option ℕ), interfaces (session b cs) = [some 0, x] ∧
    due 0 cs = [some 0, none] ∧ x = some 0 :=
  ⟨⟨false, false, false⟩, [⟨0, false, false, .ok true, .throw⟩, ⟨0, false, false, .ok false, .ok 0⟩], some 0,
    by decide, by decide, rfl⟩

/-! ## Non-vacuity -/

/-- Three calls: contact and Tpetra, a refused command line, a plain run with VT. -/
example :
    let b : LibBuild := ⟨true, true, true⟩
    let cs : List Call := [⟨0, true, false, .ok true, .ok 0⟩, ⟨106, false, false, .throw, .throw⟩,
      ⟨0, false, true, .ok false, .ok 3⟩]
    (∀ c ∈ cs, Ordinary b c) ∧ (∀ c ∈ cs, Clean c) ∧ due 0 cs = [some 0, none] ∧
    session b cs = [.start .tpetra, .start .kokkos, .simulate (some 0), .stop .kokkos, .stop .tpetra,
      .start .mpi, .start .kokkos, .start .vt, .simulate none, .stop .vt, .stop .kokkos, .stop .mpi] := by
  refine ⟨fun c _ _ _ => rfl, ?_, by decide, by decide⟩
  intro c hc
  simp only [List.mem_cons, List.not_mem_nil, or_false] at hc
  rcases hc with rfl | rfl | rfl
  · exact Or.inr ⟨⟨_, rfl⟩, _, rfl⟩
  · exact Or.inl (by decide)
  · exact Or.inr ⟨⟨_, rfl⟩, _, rfl⟩

end NimbleSM.App
