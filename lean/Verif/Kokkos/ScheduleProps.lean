import Verif.Kokkos.Schedule
import Mathlib.Algebra.BigOperators.Group.List.Basic
import Mathlib.Algebra.Order.BigOperators.Group.List
import Mathlib.Data.List.Nodup
import Mathlib.Tactic.Linarith

/-!
# Executions of concurrent kernels

If accesses of different threads commute, every execution ends in the state of the sequential one.
-/

namespace NimbleSM.Kokkos

variable {α S : Type*}

/-- Accesses of different threads commute. -/
def Independent (step : α → S → S) (ts : List (List α)) : Prop :=
  ts.Pairwise fun t t' => ∀ a ∈ t, ∀ b ∈ t', ∀ s, step a (step b s) = step b (step a s)

theorem foldl_comm_head (step : α → S → S) (a : α) (l : List α)
    (h : ∀ b ∈ l, ∀ s, step a (step b s) = step b (step a s)) (s : S) :
    l.foldl (fun s b => step b s) (step a s) = step a (l.foldl (fun s b => step b s) s) := by
  induction l generalizing s with
  | nil => rfl
  | cons b l ih =>
    simp only [List.foldl_cons]
    rw [← h b (by simp) s]
    exact ih (fun c hc => h c (by simp [hc])) _

/-- The state of the sequential execution, thread after thread. -/
def seqRun (step : α → S → S) (ts : List (List α)) (s : S) : S :=
  ts.flatten.foldl (fun s b => step b s) s

theorem independent_set {step : α → S → S} : ∀ {ts : List (List α)} {i : ℕ} {a : α} {rest : List α},
    ts[i]? = some (a :: rest) → Independent step ts → Independent step (ts.set i rest)
  | [], i, a, rest, h, _ => by simp at h
  | t :: ts, 0, a, rest, h, hi => by
    simp only [List.getElem?_cons_zero, Option.some.injEq] at h
    subst h
    simp only [List.set_cons_zero]
    unfold Independent at hi ⊢
    rw [List.pairwise_cons] at hi ⊢
    exact ⟨fun t' ht' x hx => hi.1 t' ht' x (by simp [hx]), hi.2⟩
  | t :: ts, i + 1, a, rest, h, hi => by
    simp only [List.getElem?_cons_succ] at h
    simp only [List.set_cons_succ]
    unfold Independent at hi ⊢
    rw [List.pairwise_cons] at hi ⊢
    refine ⟨fun t' ht' x hx y hy => ?_, independent_set h hi.2⟩
    rcases List.mem_or_eq_of_mem_set ht' with hm | rfl
    · exact hi.1 t' hm x hx y hy
    · exact hi.1 (a :: t') (List.mem_of_getElem? h) x hx y (by simp [hy])

theorem seqRun_set {step : α → S → S} : ∀ {ts : List (List α)} {i : ℕ} {a : α} {rest : List α},
    ts[i]? = some (a :: rest) → Independent step ts →
      ∀ s, seqRun step (ts.set i rest) (step a s) = seqRun step ts s
  | [], i, a, rest, h, _ => by simp at h
  | t :: ts, 0, a, rest, h, hi => by
    simp only [List.getElem?_cons_zero, Option.some.injEq] at h
    subst h
    intro s
    simp [seqRun]
  | t :: ts, i + 1, a, rest, h, hi => by
    intro s
    simp only [List.getElem?_cons_succ] at h
    unfold Independent at hi
    rw [List.pairwise_cons] at hi
    have h1 := seqRun_set h hi.2 (t.foldl (fun s b => step b s) s)
    have h2 : t.foldl (fun s b => step b s) (step a s) = step a (t.foldl (fun s b => step b s) s) :=
      foldl_comm_head step a t
        (fun b hb s => (hi.1 _ (List.mem_of_getElem? h) b hb a (by simp) s).symm) s
    simp only [seqRun, List.set_cons_succ, List.flatten_cons, List.foldl_append] at h1 ⊢
    rw [h2, h1]

/-- Every execution of independent threads ends in the state of the sequential execution. -/
theorem run_eq_seqRun {step : α → S → S} {ts : List (List α)} {s s' : S} (h : Run step ts s s')
    (hi : Independent step ts) : s' = seqRun step ts s := by
  induction h with
  | done hd => 
    rename_i ts s
    have : ts.flatten = [] := by simpa [List.flatten_eq_nil_iff] using hd
    simp [seqRun, this]
  | next i a rest hget _ ih => rw [ih (independent_set hget hi), seqRun_set hget hi]

/-- There is an execution: the sequential one. -/
theorem run_seqRun (step : α → S → S) (ts : List (List α)) (s : S) : Run step ts s (seqRun step ts s) := by
  induction h : (ts.map List.length).sum generalizing ts s with
  | zero =>
    have hnil : ∀ t ∈ ts, t = [] := by
      intro t ht
      have := List.single_le_sum (fun _ _ => Nat.zero_le _) _ (List.mem_map_of_mem (f := List.length) ht)
      rw [h] at this
      exact List.length_eq_zero_iff.mp (Nat.le_zero.mp this)
    have : ts.flatten = [] := by simpa [List.flatten_eq_nil_iff] using hnil
    have e : seqRun step ts s = s := by simp [seqRun, this]
    rw [e]
    exact Run.done hnil
  | succ n ih =>
    -- the first thread that is not finished
    have : ∃ (i : ℕ) (a : α) (rest : List α), ts[i]? = some (a :: rest) ∧ (∀ t ∈ ts.take i, t = []) := by
      clear ih
      induction ts with
      | nil => simp at h
      | cons t ts iht =>
        cases t with
        | cons a rest => exact ⟨0, a, rest, by simp, by simp⟩
        | nil =>
          obtain ⟨i, a, rest, hg, ht⟩ := iht (by simpa using h)
          exact ⟨i + 1, a, rest, by simpa using hg, by simpa using ht⟩
    obtain ⟨i, a, rest, hg, hpre⟩ := this
    have hlt : i < ts.length := (List.getElem?_eq_some_iff.mp hg).1
    have hsplit : ts = ts.take i ++ (a :: rest) :: ts.drop (i + 1) := by
      have hge := (List.getElem?_eq_some_iff.mp hg).2
      rw [← hge, List.getElem_cons_drop, List.take_append_drop]
    have hset : ts.set i rest = ts.take i ++ rest :: ts.drop (i + 1) := by
      rw [List.set_eq_take_append_cons_drop, if_pos hlt]
    refine Run.next i a rest hg ?_
    have e : seqRun step ts s = seqRun step (ts.set i rest) (step a s) := by
      have hp : (ts.take i).flatten = [] := by simpa [List.flatten_eq_nil_iff] using hpre
      unfold seqRun
      rw [hset]
      conv_lhs => rw [hsplit]
      simp [hp]
    rw [e]
    apply ih
    rw [hset]
    rw [hsplit] at h
    simp only [List.map_append, List.map_cons, List.length_cons, List.sum_append, List.sum_cons] at h ⊢
    omega

/-! ## Writes and additions -/

variable {ι K : Type*} [DecidableEq ι]

theorem write_comm {a b : ι × K} (h : a.1 ≠ b.1) (v : ι → K) : write a (write b v) = write b (write a v) := by
  unfold write
  exact (Function.update_comm h _ _ _).symm

/-- Writes of a list of pairwise different entries: every entry written holds its value, the others are
unchanged. -/
theorem foldl_write (l : List (ι × K)) (hn : (l.map Prod.fst).Nodup) (v : ι → K) (i : ι) :
    (∀ x, (i, x) ∈ l → l.foldl (fun v a => write a v) v i = x) ∧
      (i ∉ l.map Prod.fst → l.foldl (fun v a => write a v) v i = v i) := by
  induction l generalizing v with
  | nil => simp
  | cons a l ih =>
    simp only [List.map_cons, List.nodup_cons] at hn
    obtain ⟨h1, h2⟩ := ih hn.2 (write a v)
    constructor
    · intro x hx
      rcases List.mem_cons.mp hx with rfl | hx
      · rw [List.foldl_cons, h2 hn.1]
        simp [write]
      · exact h1 x hx
    · intro hi
      simp only [List.map_cons, List.mem_cons, not_or] at hi
      rw [List.foldl_cons, h2 hi.2]
      simp [write, Function.update_of_ne hi.1]

theorem nodup_flatten_independent {ts : List (List (ι × K))} (h : (ts.flatten.map Prod.fst).Nodup) :
    Independent (write (ι := ι) (K := K)) ts := by
  induction ts with
  | nil => exact List.Pairwise.nil
  | cons t ts ih =>
    rw [List.flatten_cons, List.map_append, List.nodup_append] at h
    refine List.Pairwise.cons ?_ (ih h.2.1)
    intro t' ht' a ha b hb s
    refine write_comm (fun e => h.2.2 a.1 (List.mem_map_of_mem ha) b.1 ?_ e) s
    exact List.mem_map_of_mem (List.mem_flatten.mpr ⟨t', ht', hb⟩)

/-- A kernel whose threads write pairwise different entries: after every execution each entry written
holds its value and the others are unchanged. -/
theorem run_write {ts : List (List (ι × K))} {v v' : ι → K} (hr : Run write ts v v')
    (hn : (ts.flatten.map Prod.fst).Nodup) (i : ι) :
    (∀ x, (i, x) ∈ ts.flatten → v' i = x) ∧ (i ∉ ts.flatten.map Prod.fst → v' i = v i) := by
  rw [run_eq_seqRun hr (nodup_flatten_independent hn)]
  exact foldl_write _ hn v i

theorem atomicAdd_comm [AddCommMonoid K] (a b : ι × K) (v : ι → K) :
    atomicAdd a (atomicAdd b v) = atomicAdd b (atomicAdd a v) := by
  funext j
  unfold atomicAdd
  by_cases hab : a.1 = b.1
  · by_cases h : j = b.1
    · subst h; simp [hab, add_right_comm]
    · simp [hab, h]
  · by_cases ha : j = a.1
    · subst ha; simp [hab]
    · by_cases hb : j = b.1
      · subst hb; simp [Function.update_of_ne ha]
      · simp [ha, hb]

theorem foldl_atomicAdd [AddCommMonoid K] (l : List (ι × K)) (v : ι → K) (i : ι) :
    l.foldl (fun v a => atomicAdd a v) v i = v i + (l.map fun a => if a.1 = i then a.2 else 0).sum := by
  induction l generalizing v with
  | nil => simp
  | cons a l ih =>
    rw [List.foldl_cons, ih, List.map_cons, List.sum_cons, ← add_assoc]
    congr 1
    unfold atomicAdd
    by_cases h : a.1 = i
    · subst h; simp
    · simp [Function.update_of_ne (Ne.symm h), h]

/-- A kernel of atomic additions: whatever the interleaving, every entry has received exactly the sum of
the amounts added to it. -/
theorem run_atomicAdd [AddCommMonoid K] {ts : List (List (ι × K))} {v v' : ι → K}
    (hr : Run atomicAdd ts v v') (i : ι) :
    v' i = v i + (ts.flatten.map fun a => if a.1 = i then a.2 else 0).sum := by
  rw [run_eq_seqRun hr (List.pairwise_of_forall fun t t' a _ b _ s => atomicAdd_comm a b s)]
  exact foldl_atomicAdd _ v i

/-- Without the atomic memory trait the addition is a load and a store, and there is an execution that
loses one of the additions: two threads that each add `x` to an entry holding `0` can leave `x` there. -/
theorem plain_add_loses_update [AddCommMonoid K] (i : ι) (x : K) :
    ∃ s' : (ι → K) × (ℕ → K),
      Run plainStep [[Plain.load 0 i, Plain.store 0 i x], [Plain.load 1 i, Plain.store 1 i x]]
        (fun _ => 0, fun _ => 0) s' ∧ s'.1 i = x := by
  refine ⟨_, Run.next 0 _ _ rfl (Run.next 1 _ _ rfl (Run.next 0 _ _ rfl (Run.next 1 _ _ rfl
    (Run.done (by simp))))), ?_⟩
  simp [plainStep]

/-- The same two additions done atomically always leave `x + x`. -/
theorem atomic_add_keeps_updates [AddCommMonoid K] (i : ι) (x : K) (v' : ι → K)
    (h : Run atomicAdd [[(i, x)], [(i, x)]] (fun _ => 0) v') : v' i = x + x := by
  rw [run_atomicAdd h i]
  simp

/-! ## Kernels that fill a three-index array -/

/-- The writes of a kernel that fills the entries `(e, i, c)` of a three-index array. -/
def gridWrites (N A B : ℕ) (g : ℕ → ℕ → Fin B → K) : List ((ℕ × ℕ × ℕ) × K) :=
  (List.range N).flatMap fun e => (List.range A).flatMap fun i =>
    (List.finRange B).map fun c => ((e, i, c.val), g e i c)

theorem mem_gridWrites {N A B : ℕ} {g : ℕ → ℕ → Fin B → K} {k : ℕ × ℕ × ℕ} {x : K} :
    (k, x) ∈ gridWrites N A B g ↔
      k.1 < N ∧ k.2.1 < A ∧ ∃ c : Fin B, k.2.2 = c.val ∧ x = g k.1 k.2.1 c := by
  obtain ⟨e, i, c⟩ := k
  simp only [gridWrites, List.mem_flatMap, List.mem_range, List.mem_map, Prod.mk.injEq, List.mem_finRange,
    true_and]
  constructor
  · rintro ⟨e', he, i', hi, c', ⟨rfl, rfl, rfl⟩, rfl⟩
    exact ⟨he, hi, c', rfl, rfl⟩
  · rintro ⟨he, hi, c', rfl, rfl⟩
    exact ⟨e, he, i, hi, c', ⟨rfl, rfl, rfl⟩, rfl⟩

theorem nodup_gridWrites (N A B : ℕ) (g : ℕ → ℕ → Fin B → K) :
    ((gridWrites N A B g).map Prod.fst).Nodup := by
  have : (gridWrites N A B g).map Prod.fst = (List.range N).flatMap fun e => (List.range A).flatMap fun i =>
      (List.finRange B).map fun c => (e, i, c.val) := by
    simp only [gridWrites, List.map_flatMap, List.map_map]
    rfl
  rw [this, List.nodup_flatMap]
  refine ⟨fun e _ => ?_, ?_⟩
  · rw [List.nodup_flatMap]
    refine ⟨fun i _ => ?_, ?_⟩
    · exact (List.nodup_finRange B).map fun a b h => Fin.ext (by simpa using h)
    · refine List.nodup_range.imp ?_
      intro a b hab x hx hy
      simp only [List.mem_map] at hx hy
      obtain ⟨c, _, rfl⟩ := hx
      obtain ⟨c', _, h⟩ := hy
      simp only [Prod.mk.injEq, true_and] at h
      exact hab h.1.symm
  · refine List.nodup_range.imp ?_
    intro a b hab x hx hy
    simp only [List.mem_flatMap, List.mem_map, List.mem_range] at hx hy
    obtain ⟨_, _, c, _, rfl⟩ := hx
    obtain ⟨_, _, c', _, h⟩ := hy
    simp only [Prod.mk.injEq] at h
    exact hab h.1.symm

/-- After every execution of a kernel that fills entries `(e, i, c)`, each has its value. -/
theorem run_grid {ts : List (List ((ℕ × ℕ × ℕ) × K))} {N A B : ℕ} {g : ℕ → ℕ → Fin B → K}
    (hts : ts.flatten = gridWrites N A B g) {v v' : ℕ × ℕ × ℕ → K} (hr : Run write ts v v') {e i : ℕ}
    (he : e < N) (hi : i < A) (c : Fin B) : v' (e, i, c.val) = g e i c :=
  (run_write hr (by rw [hts]; exact nodup_gridWrites N A B g) (e, i, c.val)).1 _
    (by rw [hts]; exact mem_gridWrites.mpr ⟨he, hi, c, rfl, rfl⟩)

end NimbleSM.Kokkos
