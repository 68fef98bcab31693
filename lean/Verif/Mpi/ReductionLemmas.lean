import Verif.Mpi.Reduction
import Verif.Mpi.CliqueLemmas
import Mathlib.Data.List.Sort
import Mathlib.Data.List.OfFn
import Mathlib.Data.List.Perm.Basic

open scoped BigOperators

namespace NimbleSM.Mpi

theorem mem_uniqueAdj : ∀ (l : List Nat) (a : Nat), a ∈ uniqueAdj l ↔ a ∈ l
  | [], a => by simp [uniqueAdj]
  | [x], a => by simp [uniqueAdj]
  | x :: y :: t, a => by
    rw [uniqueAdj]
    have ih := mem_uniqueAdj (y :: t) a
    split
    · rename_i h; subst h; rw [ih]; simp
    · rw [List.mem_cons, ih, List.mem_cons (l := y :: t)]

theorem pairwise_uniqueAdj : ∀ (l : List Nat), l.Pairwise (· ≤ ·) → (uniqueAdj l).Pairwise (· < ·)
  | [], _ => by simp [uniqueAdj]
  | [x], _ => by simp [uniqueAdj]
  | x :: y :: t, h => by
    rw [uniqueAdj]
    have ih := pairwise_uniqueAdj (y :: t) h.tail
    split
    · exact ih
    · rename_i hne
      rw [List.pairwise_cons]
      refine ⟨?_, ih⟩
      intro b hb
      rw [mem_uniqueAdj] at hb
      rw [List.pairwise_cons] at h
      have hxy := h.1 y (by simp)
      have hyb : y ≤ b := by
        rcases List.mem_cons.1 hb with rfl | hb
        · exact le_refl _
        · exact (List.pairwise_cons.1 h.2).1 b hb
      omega

theorem mem_cliqueIds {s : CliqueState} {ids : List Int} {c : Nat} :
    c ∈ cliqueIds s ids ↔ ∃ g ∈ ids, s.lookup g = c := by
  simp [cliqueIds, mem_uniqueAdj, cliqueAssignment]

theorem pairwise_cliqueIds (s : CliqueState) (ids : List Int) : (cliqueIds s ids).Pairwise (· < ·) := by
  apply pairwise_uniqueAdj
  have := List.pairwise_mergeSort (le := fun a b : Nat => decide (a ≤ b)) (by simpa using fun a b c => Nat.le_trans)
    (by simpa using fun a b => Nat.le_total a b) (cliqueAssignment s ids)
  simpa using this

theorem cliqueColors_aux : ∀ (cids : List Nat) (v : List Bool), (∀ c ∈ cids, c < v.length) →
    ∃ w, cids.foldlM (fun (v : List Bool) i => if i < v.length then some (v.set i true) else none) v = some w ∧
      w.length = v.length ∧ ∀ k, k < v.length → (w[k]? = some true ↔ (v[k]? = some true ∨ k ∈ cids))
  | [], v, _ => ⟨v, by simp⟩
  | c :: cids, v, h => by
    have hc := h c (by simp)
    obtain ⟨w, h1, h2, h3⟩ := cliqueColors_aux cids (v.set c true) (by
      intro c' hc'; simpa using h c' (by simp [hc']))
    refine ⟨w, ?_, by simpa using h2, ?_⟩
    · simp [List.foldlM_cons, hc, h1]
    · intro k hk
      rw [h3 k (by simpa using hk)]
      by_cases hkc : k = c
      · subst hkc; simp [hk]
      · rw [List.getElem?_set_ne (Ne.symm hkc)]; simp [hkc]

theorem cliqueColors_spec {num : Nat} {cids : List Nat} (h : ∀ c ∈ cids, c < num) :
    ∃ w, cliqueColors num cids = some w ∧ w.length = num ∧ ∀ k, k < num → (w[k]? = some true ↔ k ∈ cids) := by
  obtain ⟨w, h1, h2, h3⟩ := cliqueColors_aux cids (List.replicate num false) (by simpa using h)
  refine ⟨w, h1, by simpa using h2, ?_⟩
  intro k hk
  rw [h3 k (by simpa using hk)]
  simp [hk]

theorem comms_eq {num : Nat} {cids : List Nat} {w : List Bool} (hs : cids.Pairwise (· < ·))
    (h : ∀ c ∈ cids, c < num) (hl : w.length = num) (hw : ∀ k, k < num → (w[k]? = some true ↔ k ∈ cids)) :
    comms w = cids := by
  apply List.Pairwise.eq_of_mem_iff (r := (· < ·)) _ hs
  · intro k
    unfold comms
    rw [List.mem_filter, List.mem_range, hl]
    constructor
    · rintro ⟨h1, h2⟩; exact (hw k h1).1 (by simpa using h2)
    · intro hk; exact ⟨h k hk, by simpa using (hw k (h k hk)).2 hk⟩
  · exact (List.pairwise_lt_range).filter _

/-- The constructor succeeds and its cliques are, in order, the rank's clique numbers, each with its own communicator. -/
theorem reductionInfo_eq {R : Nat} {s : CliqueState} {ids : List Int} (h : ∀ g ∈ ids, s.lookup g < s.counter) :
    reductionInfo R s ids = some ((cliqueIds s ids).map fun c =>
      { indices := (sortedIndexList R s ids c).map Fin.val, comm := c }) := by
  have hlt : ∀ c ∈ cliqueIds s ids, c < s.counter := by
    intro c hc
    obtain ⟨g, hg, rfl⟩ := mem_cliqueIds.1 hc
    exact h g hg
  obtain ⟨w, h1, h2, h3⟩ := cliqueColors_spec hlt
  have hc := comms_eq (pairwise_cliqueIds s ids) hlt h2 h3
  unfold reductionInfo
  simp only [h1, hc, Option.bind_eq_bind, Option.bind_some, ne_eq, not_true_eq_false, if_false]
  congr 1
  generalize cliqueIds s ids = l
  induction l with
  | nil => rfl
  | cons a l ih => simpa using ih

/-- The global ids behind a clique's sorted index list. -/
def cliqueGids (R : Nat) (s : CliqueState) (ids : List Int) (c : Nat) : List Int :=
  (sortedIndexList R s ids c).map fun i => ids[i]

theorem mem_sortedIndexList {R s ids c} {i : Fin ids.length} :
    i ∈ sortedIndexList R s ids c ↔ R < c ∧ s.lookup ids[i] = c := by
  simp [sortedIndexList, indexList]

theorem mem_cliqueGids {R s ids c} {g : Int} :
    g ∈ cliqueGids R s ids c ↔ g ∈ ids ∧ R < c ∧ s.lookup g = c := by
  simp only [cliqueGids, List.mem_map, mem_sortedIndexList]
  constructor
  · rintro ⟨i, hi, rfl⟩; exact ⟨List.getElem_mem _, hi⟩
  · rintro ⟨hg, h⟩
    obtain ⟨k, hk, rfl⟩ := List.getElem_of_mem hg
    exact ⟨⟨k, hk⟩, h, rfl⟩

theorem nodup_sortedIndexList {R s ids c} : (sortedIndexList R s ids c).Nodup := by
  rw [sortedIndexList, (List.mergeSort_perm _ _).nodup_iff]
  exact (List.nodup_finRange _).filter _

theorem pairwise_cliqueGids {R s c} {ids : List Int} (hn : ids.Nodup) : (cliqueGids R s ids c).Pairwise (· < ·) := by
  have h1 : (sortedIndexList R s ids c).Pairwise (fun a b => ids[a] ≤ ids[b]) := by
    have := List.pairwise_mergeSort (le := fun a b : Fin ids.length => decide (¬ ids[b] < ids[a]))
      (by intro a b c; simp only [decide_eq_true_eq, not_lt]; exact le_trans)
      (by intro a b; simp only [Bool.or_eq_true, decide_eq_true_eq, not_lt]; exact le_total _ _)
      (indexList R s ids c)
    simpa [sortedIndexList] using this
  have h2 : (sortedIndexList R s ids c).Pairwise (fun a b => a ≠ b) := nodup_sortedIndexList
  rw [cliqueGids, List.pairwise_map]
  refine (h1.and h2).imp ?_
  rintro a b ⟨h, hne⟩
  refine lt_of_le_of_ne h ?_
  intro he
  apply hne
  have := (List.Nodup.getElem_inj_iff hn (hi := a.2) (hj := b.2)).1 he
  exact Fin.ext this

/-- All ranks that own a clique list the same global ids in the same order. -/
theorem cliqueGids_eq {R : Nat} {s : CliqueState} {ids ids' : List Int} (hn : ids.Nodup) (hn' : ids'.Nodup) {c : Nat}
    (h : ∀ g, s.lookup g = c → g ∈ ids) (h' : ∀ g, s.lookup g = c → g ∈ ids') :
    cliqueGids R s ids c = cliqueGids R s ids' c := by
  apply List.Pairwise.eq_of_mem_iff (r := (· < ·)) (pairwise_cliqueGids hn) (pairwise_cliqueGids hn')
  intro g
  rw [mem_cliqueGids, mem_cliqueGids]
  constructor
  · rintro ⟨_, h2, h3⟩; exact ⟨h' g h3, h2, h3⟩
  · rintro ⟨_, h2, h3⟩; exact ⟨h g h3, h2, h3⟩

variable {K : Type*}

/-- Node-major storage of a field with `fs` components per node: the array that represents "node `g` has components `w g`"
on a rank with local node list `ids`. -/
def layout (fs : Nat) {α : Type*} (ids : List α) (w : α → Fin fs → K) : List K :=
  ids.flatMap fun g => List.ofFn (w g)

theorem length_layout {α : Type*} (fs : Nat) (ids : List α) (w : α → Fin fs → K) :
    (layout fs ids w).length = ids.length * fs := by
  induction ids with
  | nil => simp [layout]
  | cons a l ih =>
    have : layout fs (a :: l) w = List.ofFn (w a) ++ layout fs l w := rfl
    rw [this, List.length_append, ih]; simp [Nat.add_mul]; omega

theorem getElem?_layout {α : Type*} {fs : Nat} (w : α → Fin fs → K) : ∀ (ids : List α) (i : Nat) (hi : i < ids.length)
    (j : Fin fs), (layout fs ids w)[i * fs + j]? = some (w ids[i] j)
  | [], i, hi, j => by simp at hi
  | a :: l, 0, hi, j => by
    have : layout fs (a :: l) w = List.ofFn (w a) ++ layout fs l w := rfl
    rw [this, List.getElem?_append_left (by simp)]
    simp
  | a :: l, i + 1, hi, j => by
    have : layout fs (a :: l) w = List.ofFn (w a) ++ layout fs l w := rfl
    rw [this, List.getElem?_append_right (by simp [Nat.add_mul]; omega)]
    have e : (i + 1) * fs + j - (List.ofFn (w a)).length = i * fs + j := by
      simp [Nat.add_mul]; omega
    rw [e]
    simpa using getElem?_layout w l i (by simpa using hi) j

/-- Two node-major arrays of the same shape are equal when they agree at every node and component. -/
theorem layout_ext {fs n : Nat} {l l' : List K} (hl : l.length = n * fs) (hl' : l'.length = n * fs)
    (h : ∀ i, i < n → ∀ j : Fin fs, l[i * fs + j]? = l'[i * fs + j]?) : l = l' := by
  apply List.ext_getElem?
  intro k
  by_cases hk : k < n * fs
  · have hfs : 0 < fs := by
      rcases Nat.eq_zero_or_pos fs with h0 | h0
      · subst h0; simp at hk
      · exact h0
    have h1 := h (k / fs) (Nat.div_lt_of_lt_mul (by rw [Nat.mul_comm]; exact hk)) ⟨k % fs, Nat.mod_lt _ hfs⟩
    simpa [Nat.div_add_mod'] using h1
  · rw [List.getElem?_eq_none (by omega), List.getElem?_eq_none (by omega)]

theorem mapM_some_of {α β : Type*} (f : α → Option β) (g : α → β) : ∀ (l : List α), (∀ a ∈ l, f a = some (g a)) →
    l.mapM f = some (l.map g)
  | [], _ => by simp
  | a :: l, h => by
    rw [List.mapM_cons, h a (by simp), mapM_some_of f g l (fun b hb => h b (by simp [hb]))]
    simp

theorem ofFn_eq_map_range {fs : Nat} (f : Fin fs → K) (g : Nat → K) (h : ∀ j : Fin fs, g j = f j) :
    (List.range fs).map g = List.ofFn f := by
  apply List.ext_getElem
  · simp
  · intro i h1 h2
    simp at h1
    simpa using h ⟨i, h1⟩

theorem pack_layout [Inhabited K] {fs : Nat} {ids : List Int} (w : Int → Fin fs → K) (idxs : List (Fin ids.length)) :
    pack fs (idxs.map Fin.val) (layout fs ids w) = some (layout fs (idxs.map fun i => ids[i]) w) := by
  unfold pack
  rw [mapM_some_of _ (fun a => ((layout fs ids w)[a]?).getD default)]
  · congr 1
    unfold addresses layout
    rw [List.map_flatMap, List.flatMap_map, List.flatMap_map]
    apply List.flatMap_congr
    intro i _
    rw [List.map_map]
    apply ofFn_eq_map_range
    intro j
    have := getElem?_layout w ids i i.2 j
    simp only [layout] at this
    simp only [Function.comp_apply, this, Option.getD_some, Fin.getElem_fin]
  · intro a ha
    unfold addresses at ha
    simp only [List.mem_flatMap, List.mem_map, List.mem_range] at ha
    obtain ⟨_, ⟨i, hi, rfl⟩, j, hj, rfl⟩ := ha
    have := getElem?_layout w ids i i.2 ⟨j, hj⟩
    simp only at this
    rw [this]; simp

theorem storeAll_spec (F : Nat → K) : ∀ (writes : List (Nat × K)) (data : List K),
    (∀ w ∈ writes, w.1 < data.length ∧ w.2 = F w.1) →
    ∃ d, storeAll writes data = some d ∧ d.length = data.length ∧
      ∀ k, k < data.length → d[k]? = if k ∈ writes.map Prod.fst then some (F k) else data[k]?
  | [], data, _ => ⟨data, by simp [storeAll]⟩
  | w :: ws, data, h => by
    obtain ⟨h1, h2⟩ := h w (by simp)
    obtain ⟨d, e1, e2, e3⟩ := storeAll_spec F ws (data.set w.1 w.2) (by
      intro w' hw'; simpa using h w' (by simp [hw']))
    refine ⟨d, ?_, by simpa using e2, ?_⟩
    · simp only [storeAll] at e1
      simp [storeAll, List.foldlM_cons, h1, e1]
    · intro k hk
      rw [e3 k (by simpa using hk)]
      by_cases hkw : k = w.1
      · subst hkw
        by_cases hm : w.1 ∈ ws.map Prod.fst
        · rw [if_pos hm, if_pos (by rw [List.map_cons]; exact List.mem_cons_of_mem _ hm)]
        · rw [if_neg hm, if_pos (by simp)]; simp [h1, h2]
      · rw [List.getElem?_set_ne (Ne.symm hkw)]
        have e : (k ∈ (w :: ws).map Prod.fst) ↔ (k ∈ ws.map Prod.fst) := by
          rw [List.map_cons, List.mem_cons]; exact ⟨fun h => h.resolve_left hkw, Or.inr⟩
        by_cases hm : k ∈ ws.map Prod.fst
        · rw [if_pos hm, if_pos (e.2 hm)]
        · rw [if_neg hm, if_neg (fun h => hm (e.1 h))]

theorem length_addresses (fs : Nat) (idxs : List Nat) : (addresses fs idxs).length = idxs.length * fs := by
  induction idxs with
  | nil => simp [addresses]
  | cons a l ih =>
    have : addresses fs (a :: l) = (List.range fs).map (fun j => a * fs + j) ++ addresses fs l := rfl
    rw [this, List.length_append, ih]; simp [Nat.add_mul]; omega

theorem mem_zip_addresses {fs : Nat} {ids : List Int} (v : Int → Fin fs → K) : ∀ (idxs : List (Fin ids.length)) (p : Nat × K),
    p ∈ (addresses fs (idxs.map Fin.val)).zip (layout fs (idxs.map fun i => ids[i]) v) →
    ∃ i ∈ idxs, ∃ j : Fin fs, p = (i.val * fs + j, v ids[i] j)
  | [], p, h => by simp [addresses] at h
  | i :: idxs, p, h => by
    have ea : addresses fs ((i :: idxs).map Fin.val) =
      (List.range fs).map (fun j => i.val * fs + j) ++ addresses fs (idxs.map Fin.val) := rfl
    have el : layout fs ((i :: idxs).map fun i => ids[i]) v =
      List.ofFn (v ids[i]) ++ layout fs (idxs.map fun i => ids[i]) v := rfl
    rw [ea, el, List.zip_append (by simp), List.mem_append] at h
    rcases h with h | h
    · obtain ⟨k, hk, hp⟩ := List.getElem_of_mem h
      simp at hk
      refine ⟨i, by simp, ⟨k, hk⟩, ?_⟩
      rw [← hp]; simp
    · obtain ⟨i', h1, j, h2⟩ := mem_zip_addresses v idxs p h
      exact ⟨i', by simp [h1], j, h2⟩

theorem unpack_layout [Inhabited K] {fs : Nat} {ids : List Int} (hn : ids.Nodup) (v w : Int → Fin fs → K)
    (idxs : List (Fin ids.length)) :
    unpack fs (idxs.map Fin.val) (layout fs (idxs.map fun i => ids[i]) v) (layout fs ids w) =
      some (layout fs ids fun g => if g ∈ idxs.map (fun i => ids[i]) then v g else w g) := by
  unfold unpack
  rw [if_pos (by rw [length_layout, length_addresses]; simp)]
  let F : Nat → K := fun a => if h : a / fs < ids.length ∧ 0 < fs then
    v (ids[a / fs]'h.1) ⟨a % fs, Nat.mod_lt _ h.2⟩ else default
  have hF : ∀ (i : Fin ids.length) (j : Fin fs), F (i.val * fs + j) = v ids[i] j := by
    intro i j
    have hfs : 0 < fs := lt_of_le_of_lt (Nat.zero_le _) j.2
    have h1 : (i.val * fs + j) / fs = i := by
      rw [Nat.mul_comm, Nat.mul_add_div hfs, Nat.div_eq_of_lt j.2]; omega
    have h2 : (i.val * fs + j) % fs = j := by
      rw [Nat.mul_comm, Nat.mul_add_mod, Nat.mod_eq_of_lt j.2]
    simp only [F, h1, h2, i.2, hfs, and_self, dif_pos]
    rfl
  obtain ⟨d, e1, e2, e3⟩ := storeAll_spec F
    ((addresses fs (idxs.map Fin.val)).zip (layout fs (idxs.map fun i => ids[i]) v)) (layout fs ids w) (by
      intro p hp
      obtain ⟨i, _, j, rfl⟩ := mem_zip_addresses v idxs p hp
      refine ⟨?_, (hF i j).symm⟩
      rw [length_layout]
      calc i.val * fs + j < i.val * fs + fs := by omega
        _ = (i.val + 1) * fs := by ring
        _ ≤ ids.length * fs := Nat.mul_le_mul_right _ i.2)
  rw [e1]
  congr 1
  apply layout_ext (n := ids.length) (by rw [e2, length_layout]) (length_layout ..)
  intro i hi j
  rw [getElem?_layout _ _ _ hi, e3 _ (by
    rw [length_layout]
    calc i * fs + j < i * fs + fs := by omega
      _ = (i + 1) * fs := by ring
      _ ≤ ids.length * fs := Nat.mul_le_mul_right _ hi)]
  rw [List.map_fst_zip (by rw [length_layout, length_addresses]; simp)]
  have hmem : i * fs + j.val ∈ addresses fs (idxs.map Fin.val) ↔ ids[i] ∈ idxs.map (fun i => ids[i]) := by
    unfold addresses
    simp only [List.mem_flatMap, List.mem_map, List.mem_range]
    constructor
    · rintro ⟨_, ⟨i', hi', rfl⟩, j', hj', he⟩
      have hfs : 0 < fs := lt_of_le_of_lt (Nat.zero_le _) j.2
      have h1 : (i'.val * fs + j') / fs = i' := by
        rw [Nat.mul_comm, Nat.mul_add_div hfs, Nat.div_eq_of_lt hj']; omega
      have h2 : (i * fs + j.val) / fs = i := by
        rw [Nat.mul_comm, Nat.mul_add_div hfs, Nat.div_eq_of_lt j.2]; omega
      refine ⟨i', hi', ?_⟩
      have : i'.val = i := by rw [← h1, ← h2, he]
      simp [this]
    · rintro ⟨i', hi', he⟩
      have : i'.val = i := (List.Nodup.getElem_inj_iff hn (hi := i'.2) (hj := hi)).1 he
      exact ⟨i, ⟨i', hi', this⟩, j, j.2, rfl⟩
  by_cases hm : ids[i] ∈ idxs.map (fun i => ids[i])
  · rw [if_pos (hmem.2 hm)]
    simp only [if_pos hm]
    rw [hF ⟨i, hi⟩ j]; rfl
  · rw [if_neg (fun h => hm (hmem.1 h)), getElem?_layout _ _ _ hi]
    simp only [if_neg hm]

/-- The all-reduce of aligned buffers delivers the aligned sums. -/
theorem allreduce_layout [AddCommMonoid K] {R fs : Nat} (members : Finset (Fin R)) (G : List Int)
    (val : Fin R → Int → Fin fs → K) (send : Fin R → Option (List K))
    (h : ∀ r ∈ members, send r = some (layout fs G (val r))) :
    allreduce members (G.length * fs) send = some (layout fs G fun g j => ∑ r ∈ members, val r g j) := by
  unfold allreduce
  rw [if_pos (by intro r hr; rw [h r hr]; simp [length_layout])]
  congr 1
  apply layout_ext (n := G.length) (by simp) (length_layout ..)
  intro i hi j
  rw [getElem?_layout _ _ _ hi, List.getElem?_map, List.getElem?_range (by
    calc i * fs + j < i * fs + fs := by omega
      _ = (i + 1) * fs := by ring
      _ ≤ G.length * fs := Nat.mul_le_mul_right _ hi)]
  simp only [Option.map_some, Option.some.injEq]
  apply Finset.sum_congr rfl
  intro r hr
  rw [h r hr, Option.bind_some, getElem?_layout _ _ _ hi]
  rfl

theorem swapRemove_perm (l : List Nat) (i : Nat) (h : i < l.length) : (swapRemove l i).Perm (l.eraseIdx i) := by
  rcases List.eq_nil_or_concat l with rfl | ⟨l', b, rfl⟩
  · simp at h
  · rw [List.concat_eq_append] at *
    unfold swapRemove
    simp only [List.getLast?_append, List.getLast?_singleton, Option.some_or]
    by_cases hi : i < l'.length
    · rw [List.set_append_left _ _ hi, List.dropLast_concat, List.eraseIdx_append_of_lt_length hi]
      exact (List.set_perm_cons_eraseIdx hi b).trans (List.perm_append_singleton b _).symm
    · have : i = l'.length := by simp at h; omega
      subst this
      rw [List.set_append_right _ _ (le_refl _), List.eraseIdx_append_of_length_le (le_refl _)]
      simp

theorem mem_swapRemove {l : List Nat} {i : Nat} (h : i < l.length) (hn : l.Nodup) {x : Nat} :
    x ∈ swapRemove l i ↔ x ∈ l ∧ x ≠ l[i] := by
  rw [(swapRemove_perm l i h).mem_iff]
  have hp := List.getElem_cons_eraseIdx_perm h
  have hn' : (l[i] :: l.eraseIdx i).Nodup := hp.nodup_iff.2 hn
  rw [← hp.mem_iff, List.mem_cons]
  rw [List.nodup_cons] at hn'
  constructor
  · intro hx; exact ⟨Or.inr hx, fun e => hn'.1 (e ▸ hx)⟩
  · rintro ⟨rfl | hx, hne⟩
    · exact absurd rfl hne
    · exact hx

theorem nodup_swapRemove {l : List Nat} {i : Nat} (h : i < l.length) (hn : l.Nodup) : (swapRemove l i).Nodup := by
  rw [(swapRemove_perm l i h).nodup_iff]
  exact hn.sublist (List.eraseIdx_sublist ..)

theorem length_swapRemove {l : List Nat} {i : Nat} (h : i < l.length) : (swapRemove l i).length + 1 = l.length := by
  rw [(swapRemove_perm l i h).length_eq, List.length_eraseIdx_of_lt h]; omega

end NimbleSM.Mpi
