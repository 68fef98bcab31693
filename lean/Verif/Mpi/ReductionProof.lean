import Verif.Mpi.ReductionLemmas
import Mathlib.Logic.Relation

open scoped BigOperators

namespace NimbleSM.Mpi

variable {K : Type*}

/-- The clique of number `c` on a rank with ids `ids`. -/
def mkClique (R : Nat) (s : CliqueState) (ids : List Int) (c : Nat) : Clique :=
  { indices := (sortedIndexList R s ids c).map Fin.val, comm := c }

def cliqueList (R : Nat) (s : CliqueState) (ids : List Int) : List Clique :=
  (cliqueIds s ids).map (mkClique R s ids)

section
variable {R : Nat} (ids : Fin R → List Int) (hn : ∀ r, (ids r).Nodup)
include hn

theorem outerInv_ofFn : OuterInv R (List.ofFn ids) (fillCliqueLookup (List.ofFn ids)) := by
  have := outerInv_fill (List.ofFn ids) (by
    intro l hl
    obtain ⟨r, rfl⟩ := (List.mem_ofFn' _ _).1 hl
    exact hn r)
  simpa using this

theorem lookup_lt_counter (g : Int) : (fillCliqueLookup (List.ofFn ids)).lookup g < (fillCliqueLookup (List.ofFn ids)).counter := by
  have h := outerInv_ofFn ids hn
  have h1 := h.range g
  have h2 := h.cnt
  rw [List.length_ofFn] at h1
  omega

theorem lookup_same (g g' : Int) :
    (fillCliqueLookup (List.ofFn ids)).lookup g = (fillCliqueLookup (List.ofFn ids)).lookup g' ↔
      ∀ r, (g ∈ ids r ↔ g' ∈ ids r) := by
  rw [(outerInv_ofFn ids hn).same g g']
  simp [List.mem_ofFn']

theorem lookup_zero (g : Int) :
    (fillCliqueLookup (List.ofFn ids)).lookup g = 0 ↔ ∀ r, g ∉ ids r := by
  rw [(outerInv_ofFn ids hn).zero g]
  simp [List.mem_ofFn']

theorem lookup_single (g : Int) (r : Fin R) :
    (fillCliqueLookup (List.ofFn ids)).lookup g = r + 1 ↔ g ∈ ids r ∧ ∀ r', g ∈ ids r' → r' = r := by
  rw [(outerInv_ofFn ids hn).single g r r.2]
  constructor
  · rintro ⟨h, h1, h2⟩
    refine ⟨by simpa using h1, ?_⟩
    intro r' hr'
    exact Fin.ext (h2 r' (by simp) (by simpa using hr'))
  · rintro ⟨h1, h2⟩
    refine ⟨by simp, by simpa using h1, ?_⟩
    intro r' h' hm
    have := h2 ⟨r', by simpa using h'⟩ (by simpa using hm)
    rw [← this]

theorem generate_eq (r : Fin R) :
    generateReductionInfo ids r = some (cliqueList R (fillCliqueLookup (List.ofFn ids)) (ids r)) := by
  unfold generateReductionInfo
  exact reductionInfo_eq (fun g _ => lookup_lt_counter ids hn g)

theorem mem_of_lookup {r : Fin R} {c : Nat} (hc : c ∈ cliqueIds (fillCliqueLookup (List.ofFn ids)) (ids r)) {g : Int}
    (hg : (fillCliqueLookup (List.ofFn ids)).lookup g = c) : g ∈ ids r := by
  obtain ⟨g0, h0, h1⟩ := mem_cliqueIds.1 hc
  exact ((lookup_same ids hn g g0).1 (hg.trans h1.symm) r).2 h0

omit hn in
theorem commMembers_eq (k : Nat) :
    commMembers (fun r => cliqueList R (fillCliqueLookup (List.ofFn ids)) (ids r)) k =
      Finset.univ.filter fun r => k ∈ cliqueIds (fillCliqueLookup (List.ofFn ids)) (ids r) := by
  unfold commMembers
  ext r
  simp only [Finset.mem_filter, Finset.mem_univ, true_and, cliqueList, List.any_map, List.any_eq_true, Function.comp_apply,
    mkClique, beq_iff_eq, exists_eq_right]

omit hn in
theorem find?_cliqueList (R : Nat) (s : CliqueState) (l : List Int) (k : Nat) : ∀ (cs : List Nat), k ∈ cs →
    (cs.map (mkClique R s l)).find? (fun c => c.comm == k) = some (mkClique R s l k)
  | [], h => by simp at h
  | a :: cs, h => by
    rw [List.map_cons, List.find?_cons]
    by_cases ha : a = k
    · subst ha; simp [mkClique]
    · have : ((mkClique R s l a).comm == k) = false := by simpa [mkClique] using ha
      rw [this]
      exact find?_cliqueList R s l k cs (by simpa [Ne.symm ha] using h)

variable [AddCommMonoid K] {fs : Nat} (hfs : fs ≤ 3) (val : Fin R → Int → Fin fs → K)

include hfs in
theorem delivered_eq (r : Fin R) (q c : Nat) (hq : (cliqueIds (fillCliqueLookup (List.ofFn ids)) (ids r))[q]? = some c) :
    delivered fs (fun r => cliqueList R (fillCliqueLookup (List.ofFn ids)) (ids r)) (fun r => layout fs (ids r) (val r)) r q =
      some (layout fs (cliqueGids R (fillCliqueLookup (List.ofFn ids)) (ids r) c) fun g j =>
        ∑ r' with c ∈ cliqueIds (fillCliqueLookup (List.ofFn ids)) (ids r'), val r' g j) := by
  unfold delivered
  have hcl : (cliqueList R (fillCliqueLookup (List.ofFn ids)) (ids r))[q]? =
      some (mkClique R (fillCliqueLookup (List.ofFn ids)) (ids r) c) := by
    unfold cliqueList; rw [List.getElem?_map, hq]; rfl
  have hcr : c ∈ cliqueIds (fillCliqueLookup (List.ofFn ids)) (ids r) := List.mem_of_getElem? hq
  rw [hcl, Option.bind_some]
  have hcomm : (mkClique R (fillCliqueLookup (List.ofFn ids)) (ids r) c).comm = c := rfl
  have hlen : (mkClique R (fillCliqueLookup (List.ofFn ids)) (ids r) c).indices.length =
      (cliqueGids R (fillCliqueLookup (List.ofFn ids)) (ids r) c).length := by
    simp [mkClique, cliqueGids]
  rw [hcomm, hlen, commMembers_eq]
  apply allreduce_layout
  intro r' hr'
  rw [Finset.mem_filter] at hr'
  unfold sendBuffer
  have hf := find?_cliqueList R (fillCliqueLookup (List.ofFn ids)) (ids r') c _ hr'.2
  show (((cliqueIds _ (ids r')).map (mkClique R _ (ids r'))).find? _).bind _ = _
  rw [hf, Option.bind_some, if_neg (by
    have := Nat.mul_le_mul_right (mkClique R (fillCliqueLookup (List.ofFn ids)) (ids r') c).indices.length hfs
    omega)]
  have : Inhabited K := ⟨0⟩
  have hp := pack_layout (ids := ids r') (val r') (sortedIndexList R (fillCliqueLookup (List.ofFn ids)) (ids r') c)
  rw [show (mkClique R (fillCliqueLookup (List.ofFn ids)) (ids r') c).indices =
    (sortedIndexList R (fillCliqueLookup (List.ofFn ids)) (ids r') c).map Fin.val from rfl, hp]
  congr 2
  exact cliqueGids_eq (hn r') (hn r) (fun g hg => mem_of_lookup ids hn hr'.2 hg) (fun g hg => mem_of_lookup ids hn hcr hg)

/-- The polling-loop invariant: entries of finished cliques hold the sums over all ranks owning the node, the others are
untouched. -/
structure LoopInv (r : Fin R) (st : ReduceState K) : Prop where
  nodup : st.unfinished.Nodup
  bound : ∀ q ∈ st.unfinished, q < (cliqueIds (fillCliqueLookup (List.ofFn ids)) (ids r)).length
  data : st.data = layout fs (ids r) (fun g => by
    classical exact
    if ∃ q c, q ∉ st.unfinished ∧ (cliqueIds (fillCliqueLookup (List.ofFn ids)) (ids r))[q]? = some c ∧
        g ∈ cliqueGids R (fillCliqueLookup (List.ofFn ids)) (ids r) c
    then fun j => ∑ r' with g ∈ ids r', val r' g j else val r g)

omit hn in
theorem loopInv_start (r : Fin R) : LoopInv ids val r
    (ReduceState.start (cliqueList R (fillCliqueLookup (List.ofFn ids)) (ids r)) (layout fs (ids r) (val r))) := by
  constructor
  · exact List.nodup_range
  · intro q hq; simpa [ReduceState.start, cliqueList] using hq
  · unfold ReduceState.start
    dsimp only
    congr 1
    funext g
    rw [if_neg]
    rintro ⟨q, c, h1, h2, _⟩
    apply h1
    obtain ⟨h, _⟩ := List.getElem?_eq_some_iff.1 h2
    simpa [cliqueList] using h

theorem members_of_gid {r : Fin R} {c : Nat} {g : Int}
    (hg : g ∈ cliqueGids R (fillCliqueLookup (List.ofFn ids)) (ids r) c) (r' : Fin R) :
    c ∈ cliqueIds (fillCliqueLookup (List.ofFn ids)) (ids r') ↔ g ∈ ids r' := by
  obtain ⟨h1, h2, h3⟩ := mem_cliqueGids.1 hg
  constructor
  · intro h; exact mem_of_lookup ids hn h h3
  · intro h; exact mem_cliqueIds.2 ⟨g, h, h3⟩

include hfs in
/-- When a poll reports completion, the unpack succeeds and keeps the invariant. -/
theorem loopInv_complete (r : Fin R) (st : ReduceState K) (inv : LoopInv ids val r st)
    (hi : st.i < st.unfinished.length) :
    ∃ c buf d, (cliqueList R (fillCliqueLookup (List.ofFn ids)) (ids r))[st.unfinished[st.i]]? = some c ∧
      delivered fs (fun r => cliqueList R (fillCliqueLookup (List.ofFn ids)) (ids r)) (fun r => layout fs (ids r) (val r)) r
        st.unfinished[st.i] = some buf ∧
      unpack fs c.indices buf st.data = some d ∧
      LoopInv ids val r { unfinished := swapRemove st.unfinished st.i, i := st.i, data := d } := by
  have hq := inv.bound _ (List.getElem_mem hi)
  set q := st.unfinished[st.i] with hqdef
  set s := fillCliqueLookup (List.ofFn ids) with hs
  let c := (cliqueIds s (ids r))[q]
  have hqc : (cliqueIds s (ids r))[q]? = some c := List.getElem?_eq_getElem hq
  have hd := delivered_eq ids hn hfs val r q c hqc
  rw [← hs] at hd
  have : Inhabited K := ⟨0⟩
  classical
  have hu := unpack_layout (hn r) (fun g j => ∑ r' with c ∈ cliqueIds s (ids r'), val r' g j)
    (fun g => if ∃ q c, q ∉ st.unfinished ∧ (cliqueIds s (ids r))[q]? = some c ∧ g ∈ cliqueGids R s (ids r) c
      then fun j => ∑ r' with g ∈ ids r', val r' g j else val r g) (sortedIndexList R s (ids r) c)
  refine ⟨mkClique R s (ids r) c, _, layout fs (ids r) (fun g => if g ∈ cliqueGids R s (ids r) c
      then fun j => ∑ r' with c ∈ cliqueIds s (ids r'), val r' g j
      else if ∃ q c, q ∉ st.unfinished ∧ (cliqueIds s (ids r))[q]? = some c ∧ g ∈ cliqueGids R s (ids r) c
      then fun j => ∑ r' with g ∈ ids r', val r' g j else val r g), ?_, hd, ?_, ?_⟩
  · unfold cliqueList; rw [List.getElem?_map, hqc]; rfl
  · rw [inv.data]; exact hu
  · constructor
    · exact nodup_swapRemove hi inv.nodup
    · intro q' hq'
      exact inv.bound q' ((mem_swapRemove hi inv.nodup).1 hq').1
    · dsimp only
      congr 1
      funext g
      by_cases hg : g ∈ cliqueGids R s (ids r) c
      · rw [if_pos hg, if_pos ⟨q, c, by
          rw [mem_swapRemove hi inv.nodup]; rintro ⟨_, h⟩; exact h rfl, hqc, hg⟩]
        funext j
        apply Finset.sum_congr _ (fun _ _ => rfl)
        ext r'
        simp only [Finset.mem_filter, Finset.mem_univ, true_and]
        exact members_of_gid ids hn hg r'
      · rw [if_neg hg]
        congr 1
        apply propext
        constructor
        · rintro ⟨q', c', h1, h2, h3⟩
          exact ⟨q', c', fun h => h1 ((mem_swapRemove hi inv.nodup).1 h).1, h2, h3⟩
        · rintro ⟨q', c', h1, h2, h3⟩
          refine ⟨q', c', fun h => ?_, h2, h3⟩
          by_cases hqq : q' = q
          · rw [hqq, hqc] at h2
            simp only [Option.some.injEq] at h2
            rw [← h2] at h3; exact hg h3
          · exact h1 ((mem_swapRemove hi inv.nodup).2 ⟨h, hqq⟩)

include hfs in
theorem loopInv_step (r : Fin R) (st st' : ReduceState K) (inv : LoopInv ids val r st)
    (h : ReduceStep fs (cliqueList R (fillCliqueLookup (List.ofFn ids)) (ids r))
      (delivered fs (fun r => cliqueList R (fillCliqueLookup (List.ofFn ids)) (ids r))
        (fun r => layout fs (ids r) (val r)) r) st st') : LoopInv ids val r st' := by
  cases h with
  | pending h => exact ⟨inv.nodup, inv.bound, inv.data⟩
  | complete h c buf d hc hb hd =>
    obtain ⟨c', buf', d', h1, h2, h3, h4⟩ := loopInv_complete ids hn hfs val r st inv h
    rw [hc] at h1; rw [hb] at h2
    simp only [Option.some.injEq] at h1 h2
    subst h1; subst h2
    rw [hd] at h3
    simp only [Option.some.injEq] at h3
    subst h3
    exact h4
  | restart h hne => exact ⟨inv.nodup, inv.bound, inv.data⟩

omit [AddCommMonoid K] in
theorem exists_val (r : Fin R) (d : List K) (hd : d.length = (ids r).length * fs) :
    ∃ w : Int → Fin fs → Option K, d.map some = layout fs (ids r) w := by
  refine ⟨fun g j => d[(ids r).idxOf g * fs + j]?, ?_⟩
  apply layout_ext (n := (ids r).length) (by simpa using hd) (length_layout ..)
  intro i hi j
  rw [getElem?_layout _ _ _ hi, (hn r).idxOf_getElem i hi, List.getElem?_map]
  have hlt : i * fs + j < d.length := by
    rw [hd]
    calc i * fs + j < i * fs + fs := by omega
      _ = (i + 1) * fs := by ring
      _ ≤ _ := Nat.mul_le_mul_right _ hi
  rw [List.getElem?_eq_getElem hlt]; rfl

/-- At the end of the loop every node holds its sum. -/
theorem final_data (r : Fin R) (st : ReduceState K) (inv : LoopInv ids val r st) (hend : st.unfinished = []) :
    st.data = layout fs (ids r) (fun g j => ∑ r' with g ∈ ids r', val r' g j) := by
  rw [inv.data]
  apply layout_ext (length_layout ..) (length_layout ..)
  intro i hi j
  rw [getElem?_layout _ _ _ hi, getElem?_layout _ _ _ hi]
  congr 1
  set s := fillCliqueLookup (List.ofFn ids) with hs
  set g := (ids r)[i]
  have hg : g ∈ ids r := List.getElem_mem hi
  split
  · rfl
  · rename_i hno
    have hlow : s.lookup g ≤ R := by
      by_contra hgt
      apply hno
      have hc : s.lookup g ∈ cliqueIds s (ids r) := mem_cliqueIds.2 ⟨g, hg, rfl⟩
      obtain ⟨q, hq, he⟩ := List.getElem_of_mem hc
      exact ⟨q, _, by simp [hend], by rw [List.getElem?_eq_getElem hq, he], mem_cliqueGids.2 ⟨hg, by omega, rfl⟩⟩
    have h0 : s.lookup g ≠ 0 := fun h => (lookup_zero ids hn g).1 h r hg
    have hr0 : s.lookup g - 1 < R := by omega
    have hsing := (lookup_single ids hn g ⟨s.lookup g - 1, hr0⟩).1 (by rw [← hs]; dsimp only; omega)
    have : Finset.univ.filter (fun r' => g ∈ ids r') = {r} := by
      ext r'
      simp only [Finset.mem_filter, Finset.mem_univ, true_and, Finset.mem_singleton]
      constructor
      · intro h; rw [hsing.2 r' h, hsing.2 r hg]
      · rintro rfl; exact hg
    rw [this, Finset.sum_singleton]

end

end NimbleSM.Mpi
