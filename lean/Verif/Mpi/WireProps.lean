import Verif.Mpi.Wire
import Verif.Mpi.UtilsLemmas
import Verif.Mpi.ReductionProps

/-!
# C138, C139, C140: data exchange between ranks and array views
-/

namespace NimbleSM.Mpi

variable {α : Type*}

/-! ## C140: array views -/

theorem read_middle (p l q : List α) : ArrayView.read ⟨p.length, l.length⟩ (p ++ l ++ q) = some l := by
  unfold ArrayView.read
  rw [if_pos (by simp), List.append_assoc, List.drop_left, List.take_left]

/-- **C140, partition.**  Cutting an array according to a list of counts gives views of consecutive sections: reading them gives
back the parts the array was put together from. -/
theorem partition_views (parts : List (List α)) (rest : List α) :
    (partitionIntoArrayviews (parts.map List.length)).mapM (fun v => v.read (parts.flatten ++ rest)) = some parts := by
  have key : ∀ (parts : List (List α)) (p : List α),
      (partitionLoop p.length (parts.map List.length)).mapM (fun v => v.read (p ++ parts.flatten ++ rest)) = some parts := by
    intro parts
    induction parts with
    | nil => intro p; rfl
    | cons l parts ih =>
      intro p
      rw [List.map_cons, partitionLoop, List.mapM_cons]
      have h1 : ArrayView.read (.ofStartCount p.length l.length) (p ++ (l :: parts).flatten ++ rest) = some l := by
        have := read_middle p l (parts.flatten ++ rest)
        rw [List.flatten_cons, List.append_assoc, List.append_assoc]
        rw [List.append_assoc] at this
        exact this
      have h2 := ih (p ++ l)
      rw [List.length_append] at h2
      have e : p ++ (l :: parts).flatten ++ rest = p ++ l ++ parts.flatten ++ rest := by
        rw [List.flatten_cons]; simp [List.append_assoc]
      rw [h1, Option.bind_eq_bind, Option.bind_some, e, h2]
      rfl
  have := key parts []
  simp only [List.length_nil, List.nil_append] at this
  exact this

/-- **C140, partition, bounds.**  All sections lie in the array iff the counts do not add up to more than its length. -/
theorem partition_in_bounds (counts : List Nat) (a : List α) :
    ((partitionIntoArrayviews counts).mapM (fun (v : ArrayView) => v.read a)).isSome = true ↔ counts.sum ≤ a.length := by
  have key : ∀ (counts : List Nat) (d : Nat), d ≤ a.length →
      (((partitionLoop d counts).mapM (fun (v : ArrayView) => v.read a)).isSome = true ↔ d + counts.sum ≤ a.length) := by
    intro counts
    induction counts with
    | nil => intro d hd; simpa [partitionLoop] using hd
    | cons c cs ih =>
      intro d _
      rw [partitionLoop, List.mapM_cons, List.sum_cons]
      by_cases h : d + c ≤ a.length
      · have hr : ArrayView.read (.ofStartCount d c) a = some ((a.drop d).take c) := if_pos h
        rw [hr, Option.bind_eq_bind, Option.bind_some, ← Nat.add_assoc, ← ih (d + c) h]
        cases (partitionLoop (d + c) cs).mapM (fun (v : ArrayView) => v.read a) <;> simp
      · have hr : ArrayView.read (.ofStartCount d c) a = none := if_neg h
        rw [hr]
        simp only [Option.bind_eq_bind, Option.bind_none, Option.isSome_none, Bool.false_eq_true, false_iff]
        omega
  simpa [partitionIntoArrayviews] using key counts 0 (Nat.zero_le _)

/-- **C140, partition, no overlap.**  Different views of a partition have no element in common. -/
theorem partition_disjoint (counts : List Nat) :
    (partitionIntoArrayviews counts).Pairwise fun v w => v.start + v.count ≤ w.start := by
  have key : ∀ (counts : List Nat) (d : Nat), (∀ w ∈ partitionLoop d counts, d ≤ w.start) ∧
      (partitionLoop d counts).Pairwise fun v w => v.start + v.count ≤ w.start := by
    intro counts
    induction counts with
    | nil => intro d; simp [partitionLoop]
    | cons c cs ih =>
      intro d
      obtain ⟨h1, h2⟩ := ih (d + c)
      rw [partitionLoop]
      refine ⟨?_, List.pairwise_cons.mpr ⟨fun w hw => h1 w hw, h2⟩⟩
      intro w hw
      rcases List.mem_cons.mp hw with rfl | hw
      · exact le_refl d
      · have := h1 w hw; omega
  exact (key counts 0).2

/-- **C140, whole arrays.**  The view of an array shows all of it. -/
theorem ofVector_read (a : List α) : (ArrayView.ofVector a).read a = some a := by
  unfold ArrayView.read ArrayView.ofVector
  simp

/-- **C140, `sub`.**  A view of a view. -/
theorem sub_read (v : ArrayView) (start count : Nat) (a l : List α) (h : v.read a = some l) (hc : start + count ≤ l.length) :
    (v.sub start count).read a = some ((l.drop start).take count) := by
  unfold ArrayView.read at h
  split at h
  · rename_i hb
    rw [Option.some.injEq] at h
    subst h
    rw [List.length_take, List.length_drop] at hc
    unfold ArrayView.read ArrayView.sub
    rw [if_pos (by dsimp only; omega)]
    dsimp only
    rw [List.drop_take, List.take_take, List.drop_drop, min_eq_left (by omega)]
  · cases h

/-- **C140, `copy_from`.**  Elements of the array that start at or after the view, or lie entirely before it, are copied; all
others are left as they are. -/
theorem copy_from_spec (v : ArrayView) (src : Nat) (a : List α) (hv : v.start + v.count ≤ a.length)
    (hs : src + v.count ≤ a.length) (hov : v.start ≤ src ∨ src + v.count ≤ v.start) :
    ∃ b, v.copyFrom src a = some b ∧ b.length = a.length ∧
      (∀ i < v.count, b[v.start + i]? = a[src + i]?) ∧ ∀ k, k < v.start ∨ v.start + v.count ≤ k → b[k]? = a[k]? := by
  obtain ⟨dst, n⟩ := v
  unfold ArrayView.copyFrom
  dsimp only at *
  induction n generalizing dst src a with
  | zero => exact ⟨a, rfl, rfl, by simp, fun _ _ => rfl⟩
  | succ n ih =>
    have hsrc : src < a.length := by omega
    rw [copyLoop, List.getElem?_eq_getElem hsrc]
    dsimp only
    rw [if_pos (by omega)]
    obtain ⟨b, h1, h2, h3, h4⟩ := ih (src + 1) (a.set dst a[src]) (dst + 1) (by simp; omega) (by simp; omega) (by omega)
    refine ⟨b, h1, by rw [h2, List.length_set], ?_, ?_⟩
    · intro i hi
      rcases Nat.eq_zero_or_pos i with rfl | hpos
      · rw [Nat.add_zero, Nat.add_zero, h4 dst (by omega), List.getElem?_set_self (by omega), List.getElem?_eq_getElem hsrc]
      · have := h3 (i - 1) (by omega)
        rw [show dst + 1 + (i - 1) = dst + i by omega, show src + 1 + (i - 1) = src + i by omega] at this
        rw [this, List.getElem?_set_ne (by omega)]
    · intro k hk
      rw [h4 k (by omega), List.getElem?_set_ne (by omega)]

/-- **C140, full statement**: a view made from two pointers into an array of elements of any size shows the elements between
them. -/
def PointersShowRange : Prop :=
  ∀ (elemSize base first last : Nat) (a : List Nat), 0 < elemSize → first ≤ last → last ≤ a.length →
    (ArrayView.ofPointers elemSize base first last).read a = some ((a.drop first).take (last - first))

/-- **C140, exactly.**  It shows `elemSize` times as many, wherever the array lies. -/
theorem pointers_count (elemSize base first last : Nat) (h : first ≤ last) :
    ArrayView.ofPointers elemSize base first last = ⟨first, elemSize * (last - first)⟩ := by
  unfold ArrayView.ofPointers
  congr 1
  rw [Nat.mul_sub]
  omega

/-- **C140, proved part**: right for elements of one byte, and for empty ranges. -/
theorem pointers_partial (elemSize base first last : Nat) (a : List α) (h0 : 0 < elemSize) (h : first ≤ last)
    (hl : last ≤ a.length) :
    (ArrayView.ofPointers elemSize base first last).read a = some ((a.drop first).take (last - first)) ↔
      elemSize = 1 ∨ first = last := by
  rw [pointers_count _ _ _ _ h]
  unfold ArrayView.read
  dsimp only
  constructor
  · intro hr
    split at hr
    · rename_i hb
      rw [Option.some.injEq] at hr
      have := congrArg List.length hr
      rw [List.length_take, List.length_take, List.length_drop] at this
      by_contra hne
      push Not at hne
      obtain ⟨h1, h2⟩ := hne
      have h3 : 2 * (last - first) ≤ elemSize * (last - first) := Nat.mul_le_mul_right _ (by omega)
      omega
    · cases hr
  · rintro (rfl | rfl)
    · rw [if_pos (by omega), Nat.one_mul]
    · rw [if_pos (by simp; omega)]; simp

/-- **C140, refuted**: two of the four `int`s of an array. -/
theorem pointers_refuted : ¬ PointersShowRange := by
  intro h
  have := (pointers_partial 4 0 0 1 [7, 8, 9, 10] (by omega) (by omega) (by simp)).mp
    (h 4 0 0 1 [7, 8, 9, 10] (by omega) (by omega) (by simp))
  omega

example : (partitionIntoArrayviews [2, 0, 1]).mapM (fun v => v.read [5, 6, 7, 8]) = some [[5, 6], [], [7]] := by decide

example : (ArrayView.ofStartCount 0 2).copyFrom 1 [1, 2, 3] = some [2, 3, 3] := by decide

/-! ## C138: exchange of clique numbers -/

theorem countLoop_eq (cs : List Nat) : ∀ (d : List Nat) (acc mx : Nat),
    countLoop cs (d, acc, mx) = (d ++ (formatDispls 0 acc cs).1, acc + cs.sum, cs.foldl max mx) := by
  induction cs with
  | nil => intro d acc mx; simp [countLoop, formatDispls]
  | cons c cs ih =>
    intro d acc mx
    rw [countLoop, ih]
    refine Prod.ext ?_ (Prod.ext ?_ ?_)
    · simp [formatDispls]
    · simp; omega
    · have : (if c > mx then c else mx) = max mx c := by
        by_cases h : c > mx
        · rw [if_pos h, max_eq_right (by omega)]
        · rw [if_neg h, max_eq_left (by omega)]
      simp [this]

theorem scatterv_parts (parts : List (List α)) (p q : List α) :
    ((formatDispls 0 p.length (parts.map List.length)).1.zip (parts.map List.length)).mapM
      (fun c => ArrayView.read ⟨c.1, c.2⟩ (p ++ parts.flatten ++ q)) = some parts := by
  induction parts generalizing p with
  | nil => rfl
  | cons l parts ih =>
    rw [List.map_cons, formatDispls]
    simp only [List.zip_cons_cons, List.mapM_cons]
    have h1 : ArrayView.read ⟨p.length, l.length⟩ (p ++ (l :: parts).flatten ++ q) = some l := by
      have := read_middle p l (parts.flatten ++ q)
      rw [List.flatten_cons, List.append_assoc, List.append_assoc]
      rw [List.append_assoc] at this
      exact this
    have h2 := ih (p ++ l)
    rw [List.length_append] at h2
    have e : p ++ (l :: parts).flatten ++ q = p ++ l ++ parts.flatten ++ q := by
      rw [List.flatten_cons]; simp [List.append_assoc]
    rw [h1, Option.bind_eq_bind, Option.bind_some, Nat.zero_add, e, h2]
    rfl

/-- **C138, assignments.**  For any number of ranks and any node lists, the exchange succeeds; rank `r` ends up with the clique
numbers of its own nodes, in their order, and all with the number of cliques. -/
theorem exchange_cliques (ids : List (List Int)) (h : ids ≠ []) :
    exchangeCliques ids = some (ids.map fun l => l.map (fillCliqueLookup ids).lookup, (fillCliqueLookup ids).counter) := by
  unfold exchangeCliques
  simp only [countLoop_eq, List.nil_append, Nat.zero_add]
  have hg : gatherv (List.replicate (ids.map List.length).sum 0) ids (ids.map List.length)
      (formatDispls 0 0 (ids.map List.length)).1 = some ids.flatten := by
    have := gatherv_concat (0 : Int) ids h _ rfl
    obtain ⟨s, ss, rfl⟩ := List.exists_cons_of_ne_nil h
    rw [List.map_cons] at this ⊢
    rw [displacements_eq] at this
    exact this
  have hp : (partitionIntoArrayviews (ids.map List.length)).mapM (fun v => v.read ids.flatten) = some ids := by
    have := partition_views ids []
    rwa [List.append_nil] at this
  rw [hg, Option.bind_some, hp, Option.bind_some]
  have hl : ids.map List.length = (ids.map fun l => l.map (fillCliqueLookup ids).lookup).map List.length := by
    simp
  have hm : ids.flatten.map (fillCliqueLookup ids).lookup = (ids.map fun l => l.map (fillCliqueLookup ids).lookup).flatten := by
    rw [List.map_flatten]
  unfold scatterv
  rw [if_pos ⟨rfl, by rw [formatDispls_len]⟩, hm, hl]
  have := scatterv_parts (ids.map fun l => l.map (fillCliqueLookup ids).lookup) [] []
  simp only [List.length_nil, List.nil_append, List.append_nil] at this
  rw [this]
  rfl

/-- The index lists the constructor collects. -/
theorem assignIndices_eq (R : Nat) (a : List Nat) : ∀ (index : Nat) (m : Nat → List Nat) (c : Nat),
    assignIndices R index a m c = m c ++ ((List.range' index a.length).filter fun i =>
      decide (R < c ∧ a[i - index]? = some c)) := by
  induction a with
  | nil => intro index m c; simp [assignIndices]
  | cons x a ih =>
    intro index m c
    rw [assignIndices, ih]
    have hrest : (List.range' (index + 1) a.length).filter (fun i => decide (R < c ∧ a[i - (index + 1)]? = some c)) =
        (List.range' (index + 1) a.length).filter (fun i => decide (R < c ∧ (x :: a)[i - index]? = some c)) := by
      apply List.filter_congr
      intro i hi
      rw [List.mem_range'] at hi
      obtain ⟨k, hk, rfl⟩ := hi
      congr 2
      rw [show index + 1 + 1 * k - (index + 1) = k by omega, show index + 1 + 1 * k - index = k + 1 by omega,
        List.getElem?_cons_succ]
    rw [hrest, List.length_cons, List.range'_succ, List.filter_cons]
    have hx : ((x :: a)[index - index]? = some c) ↔ x = c := by simp
    by_cases hR : R < x
    · rw [if_pos hR]
      by_cases hc : x = c
      · subst hc
        rw [Function.update_self, if_pos (by simp [hR]), List.append_assoc]
        rfl
      · rw [Function.update_of_ne (fun e => hc e.symm), if_neg (by simp [hc])]
    · rw [if_neg hR]
      rw [if_neg (by
        simp only [hx, decide_eq_true_eq, not_and]
        rintro h rfl
        exact hR h)]

theorem indices_eq (R : Nat) (s : CliqueState) (ids : List Int) (c : Nat) :
    (assignIndices R 0 (ids.map s.lookup) (fun _ => []) c).mergeSort (fun a b => decide (¬ ids.getD b 0 < ids.getD a 0)) =
      (sortedIndexList R s ids c).map Fin.val := by
  unfold sortedIndexList
  rw [List.map_mergeSort (s := fun a b => decide (¬ ids.getD b 0 < ids.getD a 0)) (fun a _ b _ => by
    have ha : ids.getD (a : Nat) 0 = ids[a] := by simp [List.getD_eq_getElem?_getD]
    have hb : ids.getD (b : Nat) 0 = ids[b] := by simp [List.getD_eq_getElem?_getD]
    rw [ha, hb])]
  congr 1
  rw [assignIndices_eq, List.nil_append]
  unfold indexList
  have hr : List.range' 0 (ids.map s.lookup).length = (List.finRange ids.length).map Fin.val := by
    rw [List.length_map, ← List.range_eq_range', List.map_coe_finRange_eq_range]
  rw [hr, List.filter_map]
  congr 1
  apply List.filter_congr
  intro i _
  simp only [Function.comp, Nat.sub_zero]
  congr 2
  have : (ids.map s.lookup)[(i : Nat)]? = some (s.lookup ids[i]) := by
    simp
  rw [this, Option.some.injEq]

/-- **C138, constructor.**  What a rank builds from the numbers it received is what `Verif.Mpi.Reduction` says. -/
theorem reductionInfoOf_eq (R : Nat) (s : CliqueState) (ids : List Int) :
    reductionInfoOf R s.counter (ids.map s.lookup) ids = reductionInfo R s ids := by
  unfold reductionInfoOf reductionInfo
  show (cliqueColors s.counter (cliqueIds s ids)).bind _ = (cliqueColors s.counter (cliqueIds s ids)).bind _
  congr 1
  funext colors
  by_cases h : (comms colors).length ≠ (cliqueIds s ids).length
  · exact (if_pos h).trans (if_pos h).symm
  · refine (if_neg h).trans (Eq.trans ?_ (if_neg h).symm)
    refine congrArg some (List.map_congr_left fun p _ => ?_)
    rw [indices_eq]

/-- **C138.**  The set-up over the wire gives every rank the reduction information of the model in which each rank reads the
root's table: all that is proved of the reductions (C01) holds of the data that really travels. -/
theorem set_up_over_wire {R : Nat} (ids : Fin R → List Int) (hR : 0 < R) :
    generateOverWire (List.ofFn ids) = some (List.ofFn fun r => generateReductionInfo ids r) := by
  unfold generateOverWire
  rw [exchange_cliques _ (by
    intro e
    have := congrArg List.length e
    simp at this
    omega), Option.map_some]
  congr 1
  apply List.ext_getElem
  · simp
  · intro i h1 h2
    simp only [List.length_map, List.length_zip, List.length_ofFn] at h1
    simp only [List.getElem_map, List.getElem_zip, List.getElem_ofFn, List.length_ofFn]
    rw [reductionInfoOf_eq]
    rfl

/-- Non-vacuity: three ranks, one of them without nodes. -/
example : exchangeCliques [[7, 5], [], [5, 9]] = some ([[1, 4], [], [4, 3]], 5) := by decide

/-! ## C139: scatter -/

/-- **C139, full statement**: with one vector per rank, `scatter` gives each rank its vector. -/
def ScatterDelivers : Prop :=
  ∀ (objects : List Int) (root : Nat) (source : List (List Int)), root < source.length →
    scatter objects source.length root source = some source

/-- **C139, exactly.**  Every rank but the root receives as many `int`s as its vector has, but they are taken from the
representation of the vector objects. -/
theorem scatter_delivers_objects (parts : List (List Int)) (rest : List Int) (root : Nat) (source : List (List Int))
    (hne : source ≠ []) (hlen : parts.map List.length = source.map List.length) :
    scatter (parts.flatten ++ rest) source.length root source = some (parts.set root []) := by
  unfold scatter
  rw [if_neg (by omega), List.take_length]
  obtain ⟨s, ss, rfl⟩ := List.exists_cons_of_ne_nil hne
  have hd : displacements ((s :: ss).map List.length) = (formatDispls 0 0 ((s :: ss).map List.length)).1 := by
    rw [List.map_cons, displacements_eq]
  simp only
  rw [hd]
  unfold scatterv
  rw [if_pos ⟨rfl, by rw [formatDispls_len]⟩, ← hlen]
  have := scatterv_parts parts [] rest
  simp only [List.length_nil, List.nil_append] at this
  rw [this]
  rfl

theorem scatterv_out_of_bounds (a : List α) (cs : List Nat) (c : Nat) : ∀ d : Nat, a.length < d + (c :: cs).sum →
    ((formatDispls 0 d (c :: cs)).1.zip (c :: cs)).mapM (fun p => ArrayView.read ⟨p.1, p.2⟩ a) = none := by
  induction cs generalizing c with
  | nil =>
    intro d h
    simp only [List.sum_cons, List.sum_nil, Nat.add_zero] at h
    simp only [formatDispls, List.zip_cons_cons, List.mapM_cons]
    have : ArrayView.read ⟨d, c⟩ a = none := if_neg (by dsimp only; omega)
    rw [this]; rfl
  | cons c' cs ih =>
    intro d h
    rw [formatDispls]
    simp only [List.zip_cons_cons, List.mapM_cons]
    rw [Nat.zero_add, ih c' (d + c) (by simp only [List.sum_cons] at h ⊢; omega)]
    cases ArrayView.read ⟨d, c⟩ a <;> rfl

/-- **C139, too much data.**  When the vectors hold more `int`s in total than the vector objects themselves consist of, memory
outside is read. -/
theorem scatter_overreads (objects : List Int) (root : Nat) (source : List (List Int)) (hne : source ≠ [])
    (h : objects.length < (source.map List.length).sum) : scatter objects source.length root source = none := by
  unfold scatter
  rw [if_neg (by omega), List.take_length]
  obtain ⟨s, ss, rfl⟩ := List.exists_cons_of_ne_nil hne
  simp only
  have hd : displacements ((s :: ss).map List.length) = (formatDispls 0 0 ((s :: ss).map List.length)).1 := by
    rw [List.map_cons, displacements_eq]
  rw [hd]
  unfold scatterv
  rw [if_pos ⟨rfl, by rw [formatDispls_len]⟩, List.map_cons,
    scatterv_out_of_bounds objects (ss.map List.length) s.length 0 (by simpa using h)]
  rfl

/-- **C139, the root.**  The root never receives its part. -/
theorem scatter_root_empty (objects : List Int) (n root : Nat) (source r : List (List Int))
    (h : scatter objects n root source = some r) : r.getD root [] = [] := by
  unfold scatter at h
  split at h
  · cases h
  · simp only at h
    rw [Option.map_eq_some_iff] at h
    obtain ⟨x, _, rfl⟩ := h
    rw [List.getD_eq_getElem?_getD]
    by_cases hr : root < x.length
    · rw [List.getElem?_set_self hr]; rfl
    · rw [List.getElem?_eq_none (by rw [List.length_set]; omega)]; rfl

/-- **C139, contents do not matter.**  What is delivered depends on the lengths of the vectors and on the objects only. -/
theorem scatter_ignores_contents (objects : List Int) (n root : Nat) (source source' : List (List Int))
    (h : source.map List.length = source'.map List.length) : scatter objects n root source = scatter objects n root source' := by
  have hl : source.length = source'.length := by simpa using congrArg List.length h
  unfold scatter
  rw [hl, List.map_take, List.map_take, h]

/-- **C139, refuted for every shape**: whatever the objects are, for any vectors with one that is not empty on a rank there is
a choice of their contents for which `scatter` does not deliver. -/
theorem scatter_refuted_all (objects : List Int) (root : Nat) (source : List (List Int))
    (hne : ∃ l ∈ source, l ≠ []) : ∃ source' : List (List Int), source'.map List.length = source.map List.length ∧
      scatter objects source.length root source' ≠ some source' := by
  by_cases h : scatter objects source.length root source = some source
  · refine ⟨source.map fun l => l.map (· + 1), by simp, ?_⟩
    intro e
    rw [scatter_ignores_contents objects source.length root (source.map fun l => l.map (· + 1)) source (by simp), h,
      Option.some.injEq] at e
    obtain ⟨l, hl, hln⟩ := hne
    obtain ⟨k, hk, rfl⟩ := List.getElem_of_mem hl
    have e1 : source[k] = source[k].map (· + 1) := by
      have := congrArg (fun s => s[k]?) e
      simpa [hk] using this
    obtain ⟨x, xs, hx⟩ := List.exists_cons_of_ne_nil hln
    rw [hx, List.map_cons, List.cons.injEq] at e1
    omega
  · exact ⟨source, rfl, h⟩

theorem scatter_refuted : ¬ ScatterDelivers := by
  intro h
  obtain ⟨s', hs, hn⟩ := scatter_refuted_all [] 0 [[1], [2]] ⟨[1], by simp, by simp⟩
  have hl : s'.length = 2 := by simpa using congrArg List.length hs
  exact hn (by
    have := h [] 0 s' (by omega)
    rw [hl] at this
    exact this)

/-- **C139, proved part**: it works when there is nothing to deliver. -/
theorem scatter_empty_partial (objects : List Int) (root : Nat) (source : List (List Int)) (hne : source ≠ [])
    (h : ∀ l ∈ source, l = []) : scatter objects source.length root source = some source := by
  have := scatter_delivers_objects source objects root source hne rfl
  have hf : source.flatten = [] := List.flatten_eq_nil_iff.mpr h
  rw [hf, List.nil_append] at this
  rw [this]
  congr 1
  apply List.ext_getElem?
  intro k
  by_cases hk : root = k
  · subst hk
    by_cases hr : root < source.length
    · rw [List.getElem?_set_self hr, List.getElem?_eq_getElem hr, h _ (List.getElem_mem hr)]
    · rw [List.getElem?_eq_none (by rw [List.length_set]; omega), List.getElem?_eq_none (by omega)]
  · rw [List.getElem?_set_ne hk]

/-- Non-vacuity: two ranks, root 0, twelve words in the two vector objects: rank 1 is meant to get `[2, 3]`. -/
example : scatter [10, 11, 12, 13, 14, 15, 16, 17, 18, 19, 20, 21] 2 0 [[1], [2, 3]] = some [[], [11, 12]] := by decide

/-! ## C138: receiving, and the ids of all ranks -/

/-- **C138, point to point.**  Each receiving function returns the length of the message and leaves the message at the beginning of
the buffer; the vector is exactly the message (`recv`) or keeps its tail (`recv_avoid_resize`). -/
theorem receive_spec (data message : List Int) :
    recvVector data message = (message.length, message) ∧
    (recvAvoidResize data message).1 = message.length ∧
    (recvAvoidResize data message).2.take message.length = message ∧
    (recvAvoidResize data message).2.length = max data.length message.length ∧
    ∀ k, message.length ≤ k → (recvAvoidResize data message).2[k]? = data[k]? := by
  refine ⟨rfl, rfl, ?_, ?_, ?_⟩
  · unfold recvAvoidResize
    simp
  · unfold recvAvoidResize
    simp only
    by_cases h : message.length > data.length
    · rw [if_pos h]; simp; omega
    · rw [if_neg h]; simp; omega
  · intro k hk
    unfold recvAvoidResize
    simp only
    rw [List.getElem?_append_right hk, List.getElem?_drop, show message.length + (k - message.length) = k by omega]
    by_cases h : message.length > data.length
    · rw [if_pos h, List.getElem?_append_right (by omega), List.getElem?_eq_none (by simp; omega),
        List.getElem?_eq_none (by omega)]
    · rw [if_neg h]

/-- **C138, point to point, fixed buffer.** -/
theorem receive_buffer_spec (data message : List Int) (maxSize : Nat) (hm : maxSize ≤ data.length) :
    (recvBuffer data message maxSize).isSome = decide (message.length ≤ maxSize) ∧
    ∀ n d, recvBuffer data message maxSize = some (n, d) → n = message.length ∧ d.take n = message ∧ d.length = data.length := by
  unfold recvBuffer
  by_cases h : message.length ≤ maxSize
  · rw [if_pos ⟨h, by omega⟩]
    refine ⟨by simp [h], ?_⟩
    rintro n d e
    rw [Option.some.injEq, Prod.mk.injEq] at e
    obtain ⟨rfl, rfl⟩ := e
    exact ⟨rfl, by simp, by simp; omega⟩
  · rw [if_neg (fun h' => h h'.1)]
    simp [h]

theorem maxElement_spec (l : List Int) (m : Int) : maxElement l = some m ↔ m ∈ l ∧ ∀ x ∈ l, x ≤ m := by
  have key : ∀ (l : List Int) (x : Int), let f := l.foldl (fun m y => if m < y then y else m) x
      f ∈ x :: l ∧ ∀ y ∈ x :: l, y ≤ f := by
    intro l
    induction l with
    | nil => intro x; simp
    | cons a l ih =>
      intro x
      obtain ⟨h1, h2⟩ := ih (if x < a then a else x)
      simp only [List.foldl_cons]
      constructor
      · rcases List.mem_cons.mp h1 with h1 | h1
        · rw [h1]
          by_cases h : x < a
          · rw [if_pos h]; simp
          · rw [if_neg h]; simp
        · simp [h1]
      · intro y hy
        have h0 := h2 (if x < a then a else x) (by simp)
        have hge : x ≤ (if x < a then a else x) ∧ a ≤ (if x < a then a else x) := by
          by_cases h : x < a
          · rw [if_pos h]; omega
          · rw [if_neg h]; omega
        rcases List.mem_cons.mp hy with rfl | hy
        · omega
        · rcases List.mem_cons.mp hy with rfl | hy
          · omega
          · exact h2 y (by simp [hy])
  cases l with
  | nil => simp [maxElement]
  | cons x l =>
    obtain ⟨h1, h2⟩ := key l x
    rw [maxElement, Option.some.injEq]
    constructor
    · rintro rfl; exact ⟨h1, h2⟩
    · rintro ⟨h3, h4⟩
      exact le_antisymm (h4 _ h1) (h2 _ h3)

/-- **C138, largest id.**  `GetMaximumNodeId` returns `m` on every rank iff `m` is the largest id of all and no rank is without
nodes (on such a rank memory outside is read). -/
theorem maximum_node_id (ids : List (List Int)) (m : Int) :
    getMaximumNodeId ids = some m ↔ (∀ l ∈ ids, l ≠ []) ∧ (∃ l ∈ ids, m ∈ l) ∧ ∀ l ∈ ids, ∀ x ∈ l, x ≤ m := by
  have hmap : ∀ (ids : List (List Int)) (ms : List Int), ids.mapM maxElement = some ms →
      (∀ l ∈ ids, l ≠ []) ∧ (∀ a, a ∈ ms → ∃ l ∈ ids, a ∈ l) ∧ (∀ l ∈ ids, ∃ a ∈ ms, ∀ x ∈ l, x ≤ a) := by
    intro ids
    induction ids with
    | nil => intro ms h; cases h; simp
    | cons l ids ih =>
      intro ms h
      rw [List.mapM_cons] at h
      cases hl : maxElement l with
      | none => rw [hl] at h; cases h
      | some a =>
        rw [hl] at h
        cases hi : ids.mapM maxElement with
        | none => rw [hi] at h; cases h
        | some as =>
          rw [hi] at h
          cases h
          obtain ⟨h1, h2, h3⟩ := ih as hi
          obtain ⟨h4, h5⟩ := (maxElement_spec l a).mp hl
          refine ⟨?_, ?_, ?_⟩
          · intro l' hl'
            rcases List.mem_cons.mp hl' with rfl | hl'
            · rintro rfl; cases hl
            · exact h1 l' hl'
          · intro b hb
            rcases List.mem_cons.mp hb with rfl | hb
            · exact ⟨l, by simp, h4⟩
            · obtain ⟨l', hl', hb'⟩ := h2 b hb
              exact ⟨l', by simp [hl'], hb'⟩
          · intro l' hl'
            rcases List.mem_cons.mp hl' with rfl | hl'
            · exact ⟨a, by simp, h5⟩
            · obtain ⟨b, hb, hx⟩ := h3 l' hl'
              exact ⟨b, by simp [hb], hx⟩
  have hsome : ∀ ids : List (List Int), (∀ l ∈ ids, l ≠ []) → ∃ ms, ids.mapM maxElement = some ms := by
    intro ids
    induction ids with
    | nil => intro _; exact ⟨[], rfl⟩
    | cons l ids ih =>
      intro h
      obtain ⟨ms, hms⟩ := ih fun l' hl' => h l' (by simp [hl'])
      obtain ⟨x, xs, rfl⟩ := List.exists_cons_of_ne_nil (h l (by simp))
      exact ⟨(xs.foldl (fun m y => if m < y then y else m) x) :: ms, by rw [List.mapM_cons, hms]; rfl⟩
  unfold getMaximumNodeId
  constructor
  · intro h
    cases hm : ids.mapM maxElement with
    | none => rw [hm] at h; cases h
    | some ms =>
      rw [hm, Option.bind_some, maxElement_spec] at h
      obtain ⟨h1, h2, h3⟩ := hmap ids ms hm
      refine ⟨h1, h2 m h.1, ?_⟩
      intro l hl x hx
      obtain ⟨a, ha, hxa⟩ := h3 l hl
      exact le_trans (hxa x hx) (h.2 a ha)
  · rintro ⟨h1, ⟨l, hl, hml⟩, h3⟩
    obtain ⟨ms, hms⟩ := hsome ids h1
    obtain ⟨-, h4, h5⟩ := hmap ids ms hms
    rw [hms, Option.bind_some, maxElement_spec]
    have hle : ∀ a ∈ ms, a ≤ m := fun a ha => by
      obtain ⟨l', hl', ha'⟩ := h4 a ha
      exact h3 l' hl' a ha'
    obtain ⟨a, ha, hxa⟩ := h5 l hl
    have : a = m := le_antisymm (hle a ha) (hxa m hml)
    exact ⟨this ▸ ha, hle⟩

example : getMaximumNodeId [[3, 9], [-1]] = some 9 := by decide

/-- **C138, sizes.** -/
theorem number_of_nodes (ids : List (List Int)) (r : Nat) (hr : r < ids.length) :
    (getNumberOfNodes ids)[r]? = some (ids[r].length) := by
  simp [getNumberOfNodes, hr]

end NimbleSM.Mpi
