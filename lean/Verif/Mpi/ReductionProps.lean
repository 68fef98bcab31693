import Verif.Mpi.ReductionProof
import Mathlib.Data.Fin.VecNotation
import Mathlib.Order.Fin.Basic
import Mathlib.Data.Finset.Max

/-!
# Properties C01, C02, C61: parallel vector reduction
-/

open scoped BigOperators

namespace NimbleSM.Mpi

variable {K : Type*} {R : Nat}

/-! ## Specification -/

/-- Component `j` of the node with global id `g` in the node-major array `data` of a rank whose local node list is `ids`. -/
def nodeValue [Zero K] (fs : Nat) (ids : List Int) (data : List K) (g : Int) (j : Nat) : K :=
  (data[ids.idxOf g * fs + j]?).getD 0

/-- `st` occurs in some execution of the polling loop of rank `r` on input `data`, for some completion schedule. -/
def Reachable [AddCommMonoid K] (fs : Nat) (cl : Fin R → List Clique) (data : Fin R → List K) (r : Fin R)
    (st : ReduceState K) : Prop :=
  Relation.ReflTransGen (ReduceStep fs (cl r) (delivered fs cl data r)) (ReduceState.start (cl r) (data r)) st

/-! ## C02 -/

/-- C02. Same clique number iff same set of ranks; numbers `1..R` are the ids held by one rank only; 0 is never assigned to a held id;
all numbers are below the returned count. -/
theorem clique_numbering_spec (ids : Fin R → List Int) (hn : ∀ r, (ids r).Nodup) :
    (∀ g g', (fillCliqueLookup (List.ofFn ids)).lookup g = (fillCliqueLookup (List.ofFn ids)).lookup g' ↔
        ∀ r, (g ∈ ids r ↔ g' ∈ ids r)) ∧
    (∀ g (r : Fin R), (fillCliqueLookup (List.ofFn ids)).lookup g = r + 1 ↔ (g ∈ ids r ∧ ∀ r', g ∈ ids r' → r' = r)) ∧
    (∀ g, (fillCliqueLookup (List.ofFn ids)).lookup g = 0 ↔ ∀ r, g ∉ ids r) ∧
    (∀ g, (fillCliqueLookup (List.ofFn ids)).lookup g < (fillCliqueLookup (List.ofFn ids)).counter) :=
  ⟨lookup_same ids hn, lookup_single ids hn, lookup_zero ids hn, lookup_lt_counter ids hn⟩

/-- The hypothesis "no duplicates" is needed: a rank that lists the id 7 twice makes the ids 7 (ranks {0}) look shared. -/
example : (fillCliqueLookup [[7, 7], []]).lookup 7 = 3 := by decide

/-- non-vacuity: three ranks sharing nodes -/
example : ∃ ids : Fin 3 → List Int, (∀ r, (ids r).Nodup) ∧
    (List.map (fillCliqueLookup (List.ofFn ids)).lookup [10, 11, 12, 13]) = [5, 5, 4, 3] :=
  ⟨![[10, 11, 12], [10, 11, 12], [10, 11, 13]], by decide, by decide⟩

/-! ## C01 -/

theorem data_eq_layout [AddCommMonoid K] {fs : Nat} {ids : List Int} (hn : ids.Nodup) {d : List K}
    (hd : d.length = ids.length * fs) : d = layout fs ids (fun g j => nodeValue fs ids d g j) := by
  apply layout_ext (n := ids.length) hd (length_layout ..)
  intro i hi j
  have hlt : i * fs + j < d.length := by
    rw [hd]
    calc i * fs + j < i * fs + fs := by omega
      _ = (i + 1) * fs := by ring
      _ ≤ _ := Nat.mul_le_mul_right _ hi
  rw [getElem?_layout _ _ _ hi, nodeValue, hn.idxOf_getElem i hi, List.getElem?_eq_getElem hlt]; rfl

theorem fs_le {fs : Nat} (h : fieldSizeOk fs = true) : fs ≤ 3 := by
  simp only [fieldSizeOk, Bool.or_eq_true, beq_iff_eq] at h; omega

section
variable [AddCommMonoid K] {fs : Nat} {ids : Fin R → List Int} {data : Fin R → List K} {cl : Fin R → List Clique}

theorem cl_eq (hn : ∀ r, (ids r).Nodup) (hcl : ∀ r, generateReductionInfo ids r = some (cl r)) :
    cl = fun r => cliqueList R (fillCliqueLookup (List.ofFn ids)) (ids r) := by
  funext r
  have := generate_eq ids hn r
  rw [hcl r] at this
  exact Option.some.inj this

theorem reachable_inv (hfs : fieldSizeOk fs = true) (hn : ∀ r, (ids r).Nodup)
    (hd : ∀ r, (data r).length = (ids r).length * fs) (hcl : ∀ r, generateReductionInfo ids r = some (cl r))
    {r : Fin R} {st : ReduceState K} (h : Reachable fs cl data r st) :
    LoopInv ids (fun r g (j : Fin fs) => nodeValue fs (ids r) (data r) g j) r st := by
  have hdl : data = fun r => layout fs (ids r) (fun g j => nodeValue fs (ids r) (data r) g j) :=
    funext fun r => data_eq_layout (hn r) (hd r)
  have hcl' := cl_eq hn hcl
  unfold Reachable at h
  induction h with
  | refl =>
    have := loopInv_start ids (fun r g (j : Fin fs) => nodeValue fs (ids r) (data r) g j) r
    rw [← data_eq_layout (hn r) (hd r)] at this
    rw [show cl r = cliqueList R (fillCliqueLookup (List.ofFn ids)) (ids r) by rw [hcl']]; exact this
  | tail _ hs ih =>
    refine loopInv_step ids hn (fs_le hfs) _ r _ _ ih ?_
    rw [← hdl, ← hcl', show cliqueList R (fillCliqueLookup (List.ofFn ids)) (ids r) = cl r by rw [hcl']]
    exact hs

/-- C01, set-up: with pairwise distinct ids on every rank the construction of the reduction data aborts on no rank. -/
theorem initialize_succeeds (ids : Fin R → List Int) (hn : ∀ r, (ids r).Nodup) :
    ∃ cl : Fin R → List Clique, ∀ r, generateReductionInfo ids r = some (cl r) :=
  ⟨_, generate_eq ids hn⟩

/-- C01, result: whatever the completion order, when the loop of a rank ends each component of each of its nodes is the sum, over
exactly the ranks that hold the node, of the values before the call; the array keeps its length. -/
theorem vector_reduction_sums (hfs : fieldSizeOk fs = true) (hn : ∀ r, (ids r).Nodup)
    (hd : ∀ r, (data r).length = (ids r).length * fs) (hcl : ∀ r, generateReductionInfo ids r = some (cl r))
    (r : Fin R) (st : ReduceState K) (hst : Reachable fs cl data r st) (hend : st.unfinished = []) :
    st.data.length = (data r).length ∧
    ∀ (i : Nat) (hi : i < (ids r).length) (j : Nat), j < fs →
      st.data[i * fs + j]? = some (∑ r' with (ids r)[i] ∈ ids r', nodeValue fs (ids r') (data r') (ids r)[i] j) := by
  have inv := reachable_inv hfs hn hd hcl hst
  have hf := final_data ids hn _ r st inv hend
  rw [hf]
  refine ⟨by rw [length_layout, hd r], ?_⟩
  intro i hi j hj
  rw [show i * fs + j = i * fs + (⟨j, hj⟩ : Fin fs) from rfl, getElem?_layout _ _ _ hi]

/-- C01, corollary: a node held by this rank only is unchanged. -/
theorem vector_reduction_unshared (hfs : fieldSizeOk fs = true) (hn : ∀ r, (ids r).Nodup)
    (hd : ∀ r, (data r).length = (ids r).length * fs) (hcl : ∀ r, generateReductionInfo ids r = some (cl r))
    (r : Fin R) (st : ReduceState K) (hst : Reachable fs cl data r st) (hend : st.unfinished = [])
    (i : Nat) (hi : i < (ids r).length) (hone : ∀ r', (ids r)[i] ∈ ids r' → r' = r) (j : Nat) (hj : j < fs) :
    st.data[i * fs + j]? = (data r)[i * fs + j]? := by
  rw [(vector_reduction_sums hfs hn hd hcl r st hst hend).2 i hi j hj]
  have : Finset.univ.filter (fun r' => (ids r)[i] ∈ ids r') = {r} := by
    ext r'
    simp only [Finset.mem_filter, Finset.mem_univ, true_and, Finset.mem_singleton]
    exact ⟨hone r', by rintro rfl; exact List.getElem_mem hi⟩
  rw [this, Finset.sum_singleton, nodeValue, (hn r).idxOf_getElem i hi]
  have hlt : i * fs + j < (data r).length := by
    rw [hd r]
    calc i * fs + j < i * fs + fs := by omega
      _ = (i + 1) * fs := by ring
      _ ≤ _ := Nat.mul_le_mul_right _ hi
  rw [List.getElem?_eq_getElem hlt]; rfl

/-- C01, no failure: in every reachable state, if the polled request has completed, the program can unpack it without any
out-of-range access or size mismatch, and it then has one clique fewer to wait for. -/
theorem vector_reduction_completes_poll (hfs : fieldSizeOk fs = true) (hn : ∀ r, (ids r).Nodup)
    (hd : ∀ r, (data r).length = (ids r).length * fs) (hcl : ∀ r, generateReductionInfo ids r = some (cl r))
    (r : Fin R) (st : ReduceState K) (hst : Reachable fs cl data r st) (hi : st.i < st.unfinished.length) :
    ∃ st', Reachable fs cl data r st' ∧ ReduceStep fs (cl r) (delivered fs cl data r) st st' ∧
      st'.unfinished.length + 1 = st.unfinished.length := by
  have hdl : data = fun r => layout fs (ids r) (fun g j => nodeValue fs (ids r) (data r) g j) :=
    funext fun r => data_eq_layout (hn r) (hd r)
  have hcl' := cl_eq hn hcl
  obtain ⟨c, buf, d, h1, h2, h3, -⟩ := loopInv_complete ids hn (fs_le hfs) _ r st (reachable_inv hfs hn hd hcl hst) hi
  rw [← hdl, ← hcl'] at h2
  have hs : ReduceStep fs (cl r) (delivered fs cl data r) st _ :=
    ReduceStep.complete st hi c buf d (by rw [hcl']; exact h1) h2 h3
  refine ⟨_, hst.tail hs, hs, ?_⟩
  have hne : st.unfinished ≠ [] := by intro h; simp [h] at hi
  have hl : 0 < st.unfinished.length := by omega
  simp only [swapRemove]
  rw [List.getLast?_eq_some_getLast hne]
  simp only [List.length_dropLast, List.length_set]
  omega

/-- C01, progress: from every reachable state the loop can finish. -/
theorem vector_reduction_can_finish (hfs : fieldSizeOk fs = true) (hn : ∀ r, (ids r).Nodup)
    (hd : ∀ r, (data r).length = (ids r).length * fs) (hcl : ∀ r, generateReductionInfo ids r = some (cl r))
    (r : Fin R) (st : ReduceState K) (hst : Reachable fs cl data r st) :
    ∃ st', Relation.ReflTransGen (ReduceStep fs (cl r) (delivered fs cl data r)) st st' ∧ st'.unfinished = [] := by
  generalize hm : st.unfinished.length = m
  induction m generalizing st with
  | zero => exact ⟨st, .refl, List.length_eq_zero_iff.1 hm⟩
  | succ m ih =>
    have hne : st.unfinished ≠ [] := by intro h; simp [h] at hm
    -- first make the loop variable valid
    obtain ⟨s0, h0, hs0, hu0⟩ : ∃ s0, Relation.ReflTransGen (ReduceStep fs (cl r) (delivered fs cl data r)) st s0 ∧
        s0.i < s0.unfinished.length ∧ s0.unfinished = st.unfinished := by
      by_cases hi : st.i < st.unfinished.length
      · exact ⟨st, .refl, hi, rfl⟩
      · exact ⟨_, .single (.restart st hi hne), by dsimp only; omega, rfl⟩
    obtain ⟨s1, hr1, hs1, hl1⟩ := vector_reduction_completes_poll hfs hn hd hcl r s0 (hst.trans h0) hs0
    obtain ⟨s2, h2, hend⟩ := ih s1 hr1 (by rw [hu0] at hl1; omega)
    exact ⟨s2, (h0.tail hs1).trans h2, hend⟩

end

/-- C01, rejected field sizes: only 1, 2 and 3 are accepted. -/
theorem field_size_accepted_iff (fs : Nat) : fieldSizeOk fs = true ↔ 1 ≤ fs ∧ fs ≤ 3 := by
  simp only [fieldSizeOk, Bool.or_eq_true, beq_iff_eq]; omega

/-- C01, rejected field sizes, lower level: a clique with a shared node sends a buffer for at most three numbers per node. -/
theorem sendBuffer_wide_refused {K : Type*} (fs : Nat) (cliques : List Clique) (data : List K) (k : Nat)
    (hne : ∀ c ∈ cliques, c.indices ≠ []) (h : sendBuffer fs cliques data k ≠ none) : fs ≤ 3 := by
  unfold sendBuffer at h
  cases hf : cliques.find? (fun c => c.comm == k) with
  | none => rw [hf] at h; exact absurd rfl h
  | some c =>
    rw [hf, Option.bind_some] at h
    by_contra hfs
    have hpos : 0 < c.indices.length := List.length_pos_of_ne_nil (hne c (List.mem_of_find?_eq_some hf))
    exact h (if_pos (Nat.mul_lt_mul_of_pos_right (by omega) hpos))

/-- non-vacuity: two ranks sharing node 5 (local index 0 on rank 0, 1 on rank 1). The hypotheses hold, a terminal state is reachable
and the shared node ends up with `1 + 20`. -/
example : ∃ (ids : Fin 2 → List Int) (data : Fin 2 → List Int) (cl : Fin 2 → List Clique) (st : ReduceState Int),
    (∀ r, (ids r).Nodup) ∧ (∀ r, (data r).length = (ids r).length * 1) ∧
    (∀ r, generateReductionInfo ids r = some (cl r)) ∧ Reachable 1 cl data 0 st ∧ st.unfinished = [] ∧ st.data[0]? = some 21 := by
  have hn : ∀ r : Fin 2, ((![[5, 6], [4, 5]] : Fin 2 → List Int) r).Nodup := by decide
  have hd : ∀ r : Fin 2, ((![[1, 2], [10, 20]] : Fin 2 → List Int) r).length =
    ((![[5, 6], [4, 5]] : Fin 2 → List Int) r).length * 1 := by decide
  obtain ⟨cl, hcl⟩ := initialize_succeeds _ hn
  obtain ⟨st, h1, h2⟩ := vector_reduction_can_finish (fs := 1) rfl hn hd hcl 0 _ Relation.ReflTransGen.refl
  refine ⟨_, _, cl, st, hn, hd, hcl, h1, h2, ?_⟩
  have := (vector_reduction_sums (fs := 1) rfl hn hd hcl 0 st h1 h2).2 0 (by decide) 0 (by decide)
  rw [show 0 * 1 + 0 = 0 from rfl] at this
  rw [this]
  decide

/-! ## C61 -/

section
variable {ids : Fin R → List Int} {cl : Fin R → List Clique}

theorem minMember_spec (k : Nat) (m : Fin R) :
    minMember cl k = some m ↔ m ∈ commMembers cl k ∧ ∀ r ∈ commMembers cl k, m ≤ r := by
  unfold minMember
  have hs : (List.finRange R).Pairwise (· < ·) := List.pairwise_lt_finRange R
  have key : ∀ l : List (Fin R), l.Pairwise (· < ·) →
      (l.find? (fun r => decide (r ∈ commMembers cl k)) = some m ↔
        m ∈ l ∧ m ∈ commMembers cl k ∧ ∀ r ∈ l, r ∈ commMembers cl k → m ≤ r) := by
    intro l hl
    induction l with
    | nil => simp
    | cons a l ih =>
      rw [List.pairwise_cons] at hl
      rw [List.find?_cons]
      by_cases ha : a ∈ commMembers cl k
      · simp only [ha, decide_true, Option.some.injEq]
        constructor
        · rintro rfl
          refine ⟨List.mem_cons_self, ha, ?_⟩
          intro r hr _
          rcases List.mem_cons.1 hr with rfl | hr
          · exact le_refl _
          · exact (hl.1 r hr).le
        · rintro ⟨hm, hmm, hle⟩
          rcases List.mem_cons.1 hm with rfl | hm
          · rfl
          · exact absurd (hle a List.mem_cons_self ha) (not_le.2 (hl.1 m hm))
      · simp only [ha, decide_false]
        rw [ih hl.2]
        constructor
        · rintro ⟨h1, h2, h3⟩
          refine ⟨List.mem_cons_of_mem _ h1, h2, ?_⟩
          intro r hr hrc
          rcases List.mem_cons.1 hr with rfl | hr
          · exact absurd hrc ha
          · exact h3 r hr hrc
        · rintro ⟨h1, h2, h3⟩
          rcases List.mem_cons.1 h1 with rfl | h1
          · exact absurd h2 ha
          · exact ⟨h1, h2, fun r hr => h3 r (List.mem_cons_of_mem _ hr)⟩
  rw [key _ hs]
  simp

end

/-- C61. `GetPartitionBoundaryNodeLocalIds` succeeds and lists a local index exactly if its node is held by at least two ranks,
paired with the smallest rank holding it, and lists no index twice. -/
theorem partition_boundary_spec (ids : Fin R → List Int) (hn : ∀ r, (ids r).Nodup) (cl : Fin R → List Clique)
    (hcl : ∀ r, generateReductionInfo ids r = some (cl r)) (r : Fin R) :
    ∃ out, getAllIndices cl r = some out ∧ (out.map Prod.fst).Nodup ∧
      ∀ (i : Nat) (m : Fin R), (i, m) ∈ out ↔
        ∃ h : i < (ids r).length, (∃ r', r' ≠ r ∧ (ids r)[i] ∈ ids r') ∧ (ids r)[i] ∈ ids m ∧
          ∀ r', (ids r)[i] ∈ ids r' → m ≤ r' := by
  have hcl' := cl_eq hn hcl
  set s := fillCliqueLookup (List.ofFn ids) with hs
  have hex : ∀ c ∈ cliqueIds s (ids r), ∃ m, minMember cl c = some m := by
    intro c hc
    have hmem : r ∈ commMembers cl c := by
      rw [hcl', commMembers_eq]; simpa using hc
    obtain ⟨m, hm, hmin⟩ := (commMembers cl c).exists_min_image id ⟨r, hmem⟩
    exact ⟨m, (minMember_spec c m).2 ⟨hm, hmin⟩⟩
  classical
  let mm : Nat → Fin R := fun c => if h : ∃ m, minMember cl c = some m then h.choose else r
  have hmm : ∀ c ∈ cliqueIds s (ids r), minMember cl c = some (mm c) := by
    intro c hc
    have h := hex c hc
    simp only [mm, dif_pos h]
    exact h.choose_spec
  have hout : getAllIndices cl r = some ((cliqueIds s (ids r)).flatMap fun c =>
      ((sortedIndexList R s (ids r) c).map Fin.val).map fun i => (i, mm c)) := by
    unfold getAllIndices
    have : cl r = (cliqueIds s (ids r)).map (mkClique R s (ids r)) := by rw [hcl']; rfl
    rw [this, List.mapM_map]
    have hgen : ∀ l : List Nat, (∀ c ∈ l, minMember cl c = some (mm c)) →
        l.mapM (((fun c : Clique => (minMember cl c.comm).map fun m => c.indices.map fun i => (i, m))) ∘ mkClique R s (ids r)) =
          some (l.map fun c => ((sortedIndexList R s (ids r) c).map Fin.val).map fun i => (i, mm c)) := by
      intro l hl
      induction l with
      | nil => rfl
      | cons a l ih =>
        rw [List.mapM_cons, ih (fun c hc => hl c (List.mem_cons_of_mem _ hc))]
        have : minMember cl (mkClique R s (ids r) a).comm = some (mm a) := hl a List.mem_cons_self
        simp only [Function.comp_apply, this]
        rfl
    rw [hgen _ hmm, Option.map_some, List.flatMap_def]
  refine ⟨_, hout, ?_, ?_⟩
  · have : (List.map Prod.fst ((cliqueIds s (ids r)).flatMap fun c =>
        ((sortedIndexList R s (ids r) c).map Fin.val).map fun i => (i, mm c))) =
        ((cliqueIds s (ids r)).flatMap fun c => (sortedIndexList R s (ids r) c)).map Fin.val := by
      rw [List.map_flatMap, List.map_flatMap]
      apply List.flatMap_congr
      intro c _
      rw [List.map_map]
      conv_rhs => rw [← List.map_id (List.map Fin.val _)]
      rfl
    rw [this, List.nodup_map_iff Fin.val_injective, List.nodup_flatMap]
    constructor
    · intro c _
      exact (List.mergeSort_perm _ _).nodup_iff.2 ((List.nodup_finRange _).filter _)
    · exact (pairwise_cliqueIds s (ids r)).imp (fun {a b} hab => by
        intro i h1 h2
        rw [mem_sortedIndexList] at h1 h2
        exact hab.ne (h1.2.symm.trans h2.2))
  · intro i m
    simp only [List.mem_flatMap, List.mem_map, Prod.mk.injEq]
    constructor
    · rintro ⟨c, hc, i', ⟨k, hk, rfl⟩, rfl, rfl⟩
      obtain ⟨hRc, hlk⟩ := mem_sortedIndexList.1 hk
      have hgm : (ids r)[k] ∈ ids r := List.getElem_mem _
      have hmemiff : ∀ r', r' ∈ commMembers cl c ↔ (ids r)[k] ∈ ids r' := by
        intro r'
        rw [hcl', commMembers_eq]
        simp only [Finset.mem_filter, Finset.mem_univ, true_and]
        exact ⟨fun h => mem_of_lookup ids hn h hlk, fun h => mem_cliqueIds.2 ⟨_, h, hlk⟩⟩
      obtain ⟨h1, h2⟩ := (minMember_spec c _).1 (hmm c hc)
      refine ⟨k.2, ?_, (hmemiff _).1 h1, fun r' h => h2 r' ((hmemiff r').2 h)⟩
      by_contra hno
      push Not at hno
      have := (lookup_single ids hn (ids r)[k] r).2 ⟨hgm, fun r' h => by
        by_contra hne; exact hno r' hne h⟩
      rw [← hs] at this
      have h3 : s.lookup (ids r)[k] = c := hlk
      have := r.2
      omega
    · rintro ⟨hi, ⟨r', hne, hr'⟩, hm, hmin⟩
      have hgm : (ids r)[i] ∈ ids r := List.getElem_mem _
      have hc : s.lookup (ids r)[i] ∈ cliqueIds s (ids r) := mem_cliqueIds.2 ⟨_, hgm, rfl⟩
      refine ⟨_, hc, i, ⟨⟨i, hi⟩, mem_sortedIndexList.2 ⟨?_, rfl⟩, rfl⟩, rfl, ?_⟩
      · by_contra hle
        have h0 : s.lookup (ids r)[i] ≠ 0 := fun h => (lookup_zero ids hn _).1 h r hgm
        have hlt : s.lookup (ids r)[i] - 1 < R := by omega
        have hsing := (lookup_single ids hn (ids r)[i] ⟨_, hlt⟩).1 (by rw [← hs]; dsimp only; omega)
        exact hne ((hsing.2 r' hr').trans (hsing.2 r hgm).symm)
      · have hmemiff : ∀ r', r' ∈ commMembers cl (s.lookup (ids r)[i]) ↔ (ids r)[i] ∈ ids r' := by
          intro r'
          rw [hcl', commMembers_eq]
          simp only [Finset.mem_filter, Finset.mem_univ, true_and]
          exact ⟨fun h => mem_of_lookup ids hn h rfl, fun h => mem_cliqueIds.2 ⟨_, h, rfl⟩⟩
        have : minMember cl (s.lookup (ids r)[i]) = some m :=
          (minMember_spec _ _).2 ⟨(hmemiff m).2 hm, fun r' h => hmin r' ((hmemiff r').1 h)⟩
        have h2 := hmm _ hc
        rw [this] at h2
        exact (Option.some.inj h2).symm

/-- non-vacuity -/
example : ∃ (ids : Fin 2 → List Int), (∀ r, (ids r).Nodup) ∧ (∃ i, ∃ h : i < (ids 1).length, (ids 1)[i] ∈ ids 0) :=
  ⟨![[5, 6], [4, 5]], by decide, 1, by decide, by decide⟩

end NimbleSM.Mpi
