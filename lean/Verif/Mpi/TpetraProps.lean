import Verif.Mpi.Tpetra
import Mathlib.Tactic.Ring
import Mathlib.Tactic.Linarith
import Mathlib.Data.List.Flatten

/-!
# C125: reductions with Tpetra, over any history
-/

open scoped BigOperators

namespace NimbleSM.Tpetra

variable {R : ℕ} {K : Type*} [AddCommMonoid K]

/-! ## Specification -/

/-- The sum of the values at node `g`, component `k`, over the ranks that hold the node; every rank stores `d` components per node. -/
def totalAt (ids : Fin R → List ℤ) (d : ℕ) (data : Fin R → ℕ → K) (g : ℤ) (k : ℕ) : K :=
  ∑ s : Fin R, if g ∈ ids s then data s ((ids s).idxOf g * d + k) else 0

/-- The directory shows to the tie break exactly the ranks that hold the id, in any order. -/
def ShowsHolders (map : Fin R → List ℤ) (holders : ℤ → List (Fin R)) : Prop :=
  ∀ g r, r ∈ holders g ↔ g ∈ map r

/-! ## The tie break -/

theorem selectedIndex_spec (pids : List (Fin R)) (first : Fin R) (h0 : pids[0]? = some first) :
    pids[(selectedIndex pids first).1]? = some (selectedIndex pids first).2 ∧ ∀ p ∈ pids, (selectedIndex pids first).2 ≤ p := by
  have inv : ∀ n ≤ pids.length,
      let s := (List.range n).foldl (fun (s : ℕ × Fin R) i => match pids[i]? with
        | some pid => if pid < s.2 then (i, pid) else s
        | none => s) (0, first)
      pids[s.1]? = some s.2 ∧ ∀ i < n, ∀ p, pids[i]? = some p → s.2 ≤ p := by
    intro n
    induction n with
    | zero => intro _; exact ⟨h0, fun i hi => absurd hi (Nat.not_lt_zero _)⟩
    | succ n ih =>
      intro hn
      obtain ⟨h1, h2⟩ := ih (by omega)
      simp only [List.range_succ, List.foldl_append, List.foldl_cons, List.foldl_nil] at h1 h2 ⊢
      set s := (List.range n).foldl (fun (s : ℕ × Fin R) i => match pids[i]? with
        | some pid => if pid < s.2 then (i, pid) else s
        | none => s) (0, first) with hs
      have hget : pids[n]? = some pids[n] := List.getElem?_eq_getElem (by omega)
      simp only [hget]
      by_cases hlt : pids[n] < s.2
      · rw [if_pos hlt]
        refine ⟨hget, fun i hi p hp => ?_⟩
        rcases Nat.lt_succ_iff_lt_or_eq.mp hi with h | rfl
        · exact (le_of_lt hlt).trans (h2 i h p hp)
        · rw [hget] at hp; exact le_of_eq (Option.some.inj hp)
      · rw [if_neg hlt]
        refine ⟨h1, fun i hi p hp => ?_⟩
        rcases Nat.lt_succ_iff_lt_or_eq.mp hi with h | rfl
        · exact h2 i h p hp
        · rw [hget] at hp; rw [← Option.some.inj hp]; exact not_lt.mp hlt
  obtain ⟨h1, h2⟩ := inv pids.length le_rfl
  refine ⟨h1, fun p hp => ?_⟩
  obtain ⟨i, hi, rfl⟩ := List.getElem_of_mem hp
  exact h2 i hi _ (List.getElem?_eq_getElem hi)

/-- The tie break selects the least of the ranks that hold the id, in whatever order it is shown them. -/
theorem selectedRank_least {pids : List (Fin R)} {o : Fin R} : selectedRank pids = some o ↔ o ∈ pids ∧ ∀ p ∈ pids, o ≤ p := by
  match pids with
  | [] => simp [selectedRank]
  | p :: rest =>
    obtain ⟨h1, h2⟩ := selectedIndex_spec (p :: rest) p rfl
    unfold selectedRank
    simp only
    rw [h1]
    constructor
    · intro h
      obtain rfl := Option.some.inj h
      exact ⟨List.mem_of_getElem? h1, h2⟩
    · rintro ⟨ho, hle⟩
      exact congrArg some (le_antisymm (h2 o ho) (hle _ (List.mem_of_getElem? h1)))

/-! ## Export and import -/

section Transfer

variable {map : Fin R → List ℤ} {holders : ℤ → List (Fin R)}

theorem owner_exists (hh : ShowsHolders map holders) {r : Fin R} {g : ℤ} (hg : g ∈ map r) :
    ∃ o, g ∈ map o ∧ ∀ s, g ∈ createOneToOne holders map s ↔ s = o := by
  have hne : holders g ≠ [] := fun h => by
    have := (hh g r).mpr hg
    rw [h] at this; exact absurd this (by simp)
  obtain ⟨o, ho⟩ : ∃ o, selectedRank (holders g) = some o := by
    match h : holders g with
    | [] => exact absurd h hne
    | p :: rest => exact ⟨_, (selectedIndex_spec (p :: rest) p rfl).1⟩
  have hmem : g ∈ map o := (hh g o).mp (selectedRank_least.mp ho).1
  refine ⟨o, hmem, fun s => ?_⟩
  unfold createOneToOne
  rw [List.mem_filter]
  constructor
  · rintro ⟨_, h⟩
    rw [ho] at h
    exact (Option.some.inj (of_decide_eq_true h)).symm
  · rintro rfl
    exact ⟨hmem, by simp [ho]⟩

/-- After export and import every entry holds the sum over all ranks of the entries with its id, whatever the vectors held before. -/
theorem transfer (hh : ShowsHolders map holders) (x y z : Fin R → ℕ → K) (r : Fin R) (j : ℕ) (g : ℤ) (hg : (map r)[j]? = some g) :
    doImport (createOneToOne holders map) map (doExport map (createOneToOne holders map) x y) z r j
      = ∑ s : Fin R, if g ∈ map s then x s ((map s).idxOf g) else 0 := by
  obtain ⟨o, hmo, ho⟩ := owner_exists hh (List.mem_of_getElem? hg)
  have hval : doExport map (createOneToOne holders map) x y o ((createOneToOne holders map o).idxOf g)
      = ∑ s : Fin R, if g ∈ map s then x s ((map s).idxOf g) else 0 := by
    have hget : (createOneToOne holders map o)[(createOneToOne holders map o).idxOf g]? = some g :=
      List.getElem?_idxOf ((ho o).mpr rfl)
    unfold doExport
    rw [hget]
    simp only
    rw [if_pos hmo, ← Finset.add_sum_erase Finset.univ (fun s => if g ∈ map s then x s ((map s).idxOf g) else 0) (Finset.mem_univ o),
      if_pos hmo, ← Finset.add_sum_erase Finset.univ (fun s => if s ≠ o ∧ g ∈ map s ∧ g ∉ createOneToOne holders map s then
        x s ((map s).idxOf g) else 0) (Finset.mem_univ o), if_neg (by simp), zero_add]
    congr 1
    apply Finset.sum_congr rfl
    intro s hs
    have hso := Finset.ne_of_mem_erase hs
    by_cases hms : g ∈ map s
    · rw [if_pos hms, if_pos ⟨hso, hms, fun h => hso ((ho s).mp h)⟩]
    · rw [if_neg hms, if_neg (fun h => hms h.2.1)]
  unfold doImport
  rw [hg]
  simp only
  by_cases hr : g ∈ createOneToOne holders map r
  · rw [if_pos hr, (ho r).mp hr, hval]
  · rw [if_neg hr]
    have hfind : (List.finRange R).find? (fun s => decide (g ∈ createOneToOne holders map s)) = some o := by
      cases hf : (List.finRange R).find? (fun s => decide (g ∈ createOneToOne holders map s)) with
      | none =>
        have := List.find?_eq_none.mp hf o (List.mem_finRange o)
        exact absurd ((ho o).mpr rfl) (by simpa using this)
      | some s =>
        have := List.find?_some hf
        exact congrArg some ((ho s).mp (of_decide_eq_true this))
    rw [hfind]
    simp only
    exact hval

end Transfer

/-! ## Ids of vector entries -/

theorem vectorIds_length (dim : ℕ) (l : List ℤ) : (vectorIds dim l).length = l.length * dim := by
  unfold vectorIds
  induction l with
  | nil => simp
  | cons g l ih => rw [List.flatMap_cons, List.length_append, ih]; simp; ring

theorem vectorIds_getElem (dim : ℕ) (l : List ℤ) (i k : ℕ) (g : ℤ) (hg : l[i]? = some g) (hk : k < dim) :
    (vectorIds dim l)[i * dim + k]? = some (g * dim + k) := by
  induction l generalizing i with
  | nil => simp at hg
  | cons x l ih =>
    unfold vectorIds
    rw [List.flatMap_cons]
    cases i with
    | zero =>
      obtain rfl : x = g := by simpa using hg
      rw [zero_mul, zero_add, List.getElem?_append_left (by simpa using hk)]
      simp [hk]
    | succ i =>
      rw [List.getElem?_append_right (by simp; nlinarith)]
      have := ih i (by simpa using hg)
      unfold vectorIds at this
      rw [← this]
      congr 1
      simp
      rw [Nat.succ_mul]
      omega

theorem entry_inj {dim : ℕ} {g g' : ℤ} {k k' : ℕ} (hk : k < dim) (hk' : k' < dim) (h : g * dim + k = g' * dim + k') : g = g' ∧ k = k' := by
  have hd : (0 : ℤ) < dim := by omega
  have h1 : (g * dim + k) / dim = g := by
    rw [add_comm, Int.add_mul_ediv_right _ _ (by omega), Int.ediv_eq_zero_of_lt (by omega) (by omega), zero_add]
  have h2 : (g' * dim + k') / dim = g' := by
    rw [add_comm, Int.add_mul_ediv_right _ _ (by omega), Int.ediv_eq_zero_of_lt (by omega) (by omega), zero_add]
  have : g = g' := by rw [← h1, ← h2, h]
  subst this
  exact ⟨rfl, by omega⟩

theorem mem_vectorIds {dim : ℕ} {l : List ℤ} {g : ℤ} {k : ℕ} (hk : k < dim) : g * dim + k ∈ vectorIds dim l ↔ g ∈ l := by
  unfold vectorIds
  simp only [List.mem_flatMap, List.mem_map, List.mem_range]
  constructor
  · rintro ⟨g', hg', k', hk', h⟩
    rw [(entry_inj hk' hk h).1] at hg'
    exact hg'
  · intro h
    exact ⟨g, h, k, hk, rfl⟩

theorem idxOf_vectorIds {dim : ℕ} {l : List ℤ} {g : ℤ} {k : ℕ} (hk : k < dim) (hg : g ∈ l) :
    (vectorIds dim l).idxOf (g * dim + k) = l.idxOf g * dim + k := by
  induction l with
  | nil => exact absurd hg (by simp)
  | cons x l ih =>
    unfold vectorIds
    rw [List.flatMap_cons]
    by_cases hx : x = g
    · subst hx
      have hm : x * (dim : ℤ) + k ∈ (List.range dim).map fun dof : ℕ => x * (dim : ℤ) + dof := List.mem_map.mpr ⟨k, List.mem_range.mpr hk, rfl⟩
      rw [List.idxOf_append_of_mem hm, List.idxOf_cons_self, zero_mul, zero_add]
      have hinj : Function.Injective fun dof : ℕ => x * (dim : ℤ) + dof := by intro a b h; simpa using h
      have h1 := List.Nodup.idxOf_getElem (xs := (List.range dim).map fun dof : ℕ => x * (dim : ℤ) + dof) (List.nodup_range.map hinj) k (by simpa using hk)
      simpa using h1
    · have hgl : g ∈ l := by
        rcases List.mem_cons.mp hg with h | h
        · exact absurd h.symm hx
        · exact h
      rw [List.idxOf_append_of_notMem, List.idxOf_cons_ne _ hx]
      · have := ih hgl
        unfold vectorIds at this
        rw [this, List.length_map, List.length_range, Nat.succ_mul]
        omega
      · intro h
        obtain ⟨k', hk', he⟩ := List.mem_map.mp h
        exact hx (entry_inj (List.mem_range.mp hk') hk he).1

/-! ## Reductions -/

/-- What `Initialize` establishes and reductions keep. -/
structure Ready (dim : ℕ) (ids : Fin R → List ℤ) (h1 h3 : ℤ → List (Fin R)) (c : Container R K) : Prop where
  dim_eq : c.dim = dim
  ids_eq : c.ids = ids
  map1_eq : c.map1 = ids
  one1_eq : c.one1 = createOneToOne h1 ids
  map3_eq : c.map3 = fun r => vectorIds dim (ids r)
  one3_eq : c.one3 = createOneToOne h3 fun r => vectorIds dim (ids r)

theorem ready_run (dim : ℕ) (ids : Fin R → List ℤ) (h1 h3 : ℤ → List (Fin R)) (calls : List (ℕ × (Fin R → ℕ → K))) :
    Ready dim ids h1 h3 (runCalls (initializeContainer dim ids h1 h3) calls) := by
  have keep : ∀ (c : Container R K), Ready dim ids h1 h3 c → Ready dim ids h1 h3 (runCalls c calls) := by
    induction calls with
    | nil => exact fun c hc => hc
    | cons call calls ih =>
      intro c hc
      refine ih _ ?_
      show Ready dim ids h1 h3 (vectorReduction c call.1 call.2).1
      unfold vectorReduction
      by_cases hd : call.1 = c.dim
      · rw [if_pos hd]; exact ⟨hc.dim_eq, hc.ids_eq, hc.map1_eq, hc.one1_eq, hc.map3_eq, hc.one3_eq⟩
      · rw [if_neg hd]; exact ⟨hc.dim_eq, hc.ids_eq, hc.map1_eq, hc.one1_eq, hc.map3_eq, hc.one3_eq⟩
  exact keep _ ⟨rfl, rfl, rfl, rfl, rfl, rfl⟩

/-- **C125, the part that holds.**  After any history of reductions with any data, a reduction of data with one component per node or with
as many as dimensions leaves at every node of every rank the sum of the data of this call over all ranks that hold the node, and changes
nothing else of the array. -/
theorem tpetra_reduction_partial (dim : ℕ) (ids : Fin R → List ℤ) (h1 h3 : ℤ → List (Fin R)) (hh1 : ShowsHolders ids h1)
    (hh3 : ShowsHolders (fun r => vectorIds dim (ids r)) h3) (history : List (ℕ × (Fin R → ℕ → K))) (d : ℕ) (hd : d = 1 ∨ d = dim)
    (data : Fin R → ℕ → K) (r : Fin R) :
    let out := (vectorReduction (runCalls (initializeContainer dim ids h1 h3) history) d data).2
    (∀ i g, (ids r)[i]? = some g → ∀ k < d, out r (i * d + k) = totalAt ids d data g k) ∧
      ∀ j, (ids r).length * d ≤ j → out r j = data r j := by
  obtain ⟨e1, e2, e3, e4, e5, e6⟩ := ready_run dim ids h1 h3 history
  set c := runCalls (initializeContainer dim ids h1 h3) history with hc
  intro out
  by_cases hdim : d = dim
  · subst hdim
    have hout : out = fun r => copyFirst ((ids r).length * d) (doImport c.one3 c.map3 (doExport c.map3 c.one3
        (fun r => copyFirst ((ids r).length * d) (data r) (c.vec3 r)) c.vecOne3)
        (fun r => copyFirst ((ids r).length * d) (data r) (c.vec3 r)) r) (data r) := by
      show (vectorReduction c d data).2 = _
      unfold vectorReduction
      rw [if_pos e1.symm, e1, e2]
    rw [hout, e5, e6]
    refine ⟨fun i g hg k hk => ?_, fun j hj => if_neg (by omega)⟩
    have hi := (List.getElem?_eq_some_iff.mp hg).1
    have hlt : i * d + k < (ids r).length * d := by nlinarith
    simp only
    unfold copyFirst
    rw [if_pos hlt, transfer hh3 _ _ _ r (i * d + k) (g * d + k) (vectorIds_getElem d _ i k g hg hk)]
    unfold totalAt
    apply Finset.sum_congr rfl
    intro s _
    by_cases hm : g ∈ ids s
    · rw [if_pos hm, if_pos ((mem_vectorIds hk).mpr hm), idxOf_vectorIds hk hm, if_pos]
      have := List.idxOf_lt_length_of_mem hm
      nlinarith
    · rw [if_neg hm, if_neg (fun h => hm ((mem_vectorIds hk).mp h))]
  · obtain rfl : d = 1 := hd.resolve_right hdim
    have hout : out = fun r => copyFirst (ids r).length (doImport c.one1 c.map1 (doExport c.map1 c.one1
        (fun r => copyFirst (ids r).length (data r) (c.vec1 r)) c.vecOne1)
        (fun r => copyFirst (ids r).length (data r) (c.vec1 r)) r) (data r) := by
      show (vectorReduction c 1 data).2 = _
      unfold vectorReduction
      rw [if_neg (by rw [e1]; exact hdim), e2]
    rw [hout, e3, e4]
    refine ⟨fun i g hg k hk => ?_, fun j hj => if_neg (by omega)⟩
    obtain rfl : k = 0 := by omega
    have hi := (List.getElem?_eq_some_iff.mp hg).1
    simp only [mul_one, add_zero]
    unfold copyFirst
    rw [if_pos hi, transfer hh1 _ _ _ r i g hg]
    unfold totalAt
    apply Finset.sum_congr rfl
    intro s _
    by_cases hm : g ∈ ids s
    · rw [if_pos hm, if_pos hm, if_pos (List.idxOf_lt_length_of_mem hm), mul_one, add_zero]
    · rw [if_neg hm, if_neg hm]

/-- Two ranks that share node 7. -/
def demoIds : Fin 2 → List ℤ := ![[3, 7], [7, 9]]

/-- The ranks that hold an id, the greatest first. -/
def demoHolders (map : Fin 2 → List ℤ) (g : ℤ) : List (Fin 2) := [1, 0].filter fun r => g ∈ map r

theorem demo_holders (map : Fin 2 → List ℤ) : ShowsHolders map (demoHolders map) := by
  intro g r
  unfold demoHolders
  rw [List.mem_filter]
  constructor
  · rintro ⟨_, h⟩; exact of_decide_eq_true h
  · intro h; exact ⟨by clear h; revert r; decide, by simpa using h⟩

/-- **C125, refuted for other numbers of components.**  With two components per node in three dimensions the array is treated as one value
per node. -/
theorem tpetra_reduction_refuted : ¬ ∀ (R dim : ℕ) (ids : Fin R → List ℤ) (h1 h3 : ℤ → List (Fin R)), (∀ r, (ids r).Nodup) →
    ShowsHolders ids h1 → ShowsHolders (fun r => vectorIds dim (ids r)) h3 → ∀ (d : ℕ) (data : Fin R → ℕ → ℤ) (r : Fin R) (i : ℕ) (g : ℤ),
      (ids r)[i]? = some g → ∀ k < d,
        (vectorReduction (initializeContainer dim ids h1 h3) d data).2 r (i * d + k) = totalAt ids d data g k := by
  intro h
  have := h 2 3 demoIds (demoHolders demoIds) (demoHolders fun r => vectorIds 3 (demoIds r)) (by decide) (demo_holders _) (demo_holders _)
    2 (fun _ j => j + 1) 0 1 7 rfl 0 (by decide)
  revert this
  decide +kernel

/-- Not vacuous: after a reduction with other data, node 7 of both ranks gets the sum. -/
example :
    let c : Container 2 ℤ := runCalls (initializeContainer 3 demoIds (demoHolders demoIds) (demoHolders fun r => vectorIds 3 (demoIds r)))
      [(3, fun r j => 100 * r + j), (1, fun r j => 1000 * r + j)]
    (vectorReduction c 3 ![fun j => 10 + j, fun j => 20 + j]).2 0 4 = 14 + 21 ∧
      (vectorReduction c 3 ![fun j => 10 + j, fun j => 20 + j]).2 1 1 = 14 + 21 ∧
      (vectorReduction c 1 ![fun j => 10 + j, fun j => 20 + j]).2 0 1 = 11 + 20 := by decide +kernel

end NimbleSM.Tpetra
