import Verif.Mpi.UtilsLemmas
import Mathlib.Data.List.Flatten
import Mathlib.Data.Finset.Card
import Mathlib.Data.List.Chain

/-!
# Properties C03, C04, C06, C07: MPI helper functions
-/

namespace NimbleSM.Mpi

/-! ## C03 -/

/-- C03. If the receive buffer is large enough for every rank's list, `PackIDSpace` succeeds and there is one renumbering `f`, the
same for all ranks, which is injective on the raw ids in use and whose values on them are exactly `0 .. m-1`, `m` being the number
of distinct raw ids. -/
theorem packIDSpace_spec (maxNodes : Nat) (root : List Int) (others : List (List Int))
    (hl : ∀ l ∈ others, l.length ≤ maxNodes) :
    ∃ f : Int → Nat,
      packIDSpace maxNodes root others = some ((root :: others).map (List.map f)) ∧
      (∀ g ∈ (root :: others).flatten, ∀ g' ∈ (root :: others).flatten, f g = f g' → g = g') ∧
      (∀ k, (∃ g ∈ (root :: others).flatten, f g = k) ↔ k < (root :: others).flatten.toFinset.card) := by
  have h0 := packInv_fold packInv_init root
  have h1 := packInv_fold h0 others.flatten
  set s := others.flatten.foldl packNode (root.foldl packNode { table := [], next := 0 }) with hs
  rw [List.nil_append] at h1
  have hsome : ∀ g ∈ (root :: others).flatten, ∃ k, s.table.lookup g = some k := fun g hg => (h1.mem g).2 (by simpa using hg)
  let f : Int → Nat := fun g => (s.table.lookup g).getD 0
  have hf : ∀ g ∈ (root :: others).flatten, s.table.lookup g = some (f g) := by
    intro g hg
    obtain ⟨k, hk⟩ := hsome g hg
    simp only [f, hk, Option.getD_some]
  have hinj : ∀ g ∈ (root :: others).flatten, ∀ g' ∈ (root :: others).flatten, f g = f g' → g = g' := by
    intro g hg g' hg' he
    exact h1.inj g g' _ (hf g hg) (by rw [he]; exact hf g' hg')
  have himg : ∀ k, (∃ g ∈ (root :: others).flatten, f g = k) ↔ k < s.next := by
    intro k
    constructor
    · rintro ⟨g, hg, rfl⟩; exact h1.lt _ _ (hf g hg)
    · intro hk
      obtain ⟨g, hg⟩ := h1.surj k hk
      have hm : g ∈ (root :: others).flatten := by simpa using (h1.mem g).1 ⟨k, hg⟩
      refine ⟨g, hm, ?_⟩
      have := hf g hm
      rw [hg] at this
      exact (Option.some.inj this).symm
  have hcard : (root :: others).flatten.toFinset.card = s.next := by
    rw [← Finset.card_image_of_injOn (f := f) (s := (root :: others).flatten.toFinset)]
    · have : Finset.image f (root :: others).flatten.toFinset = Finset.range s.next := by
        ext k
        rw [Finset.mem_image, Finset.mem_range, ← himg k]
        simp only [List.mem_toFinset]
      rw [this, Finset.card_range]
    · intro g hg g' hg' he
      exact hinj g (by simpa using hg) g' (by simpa using hg') he
  refine ⟨f, ?_, hinj, ?_⟩
  · unfold packIDSpace
    dsimp only
    rw [packOthers_eq h0 hl]
    rfl
  · rw [hcard]; exact himg

/-- non-vacuity, and a concrete run -/
example : (∀ l ∈ [[7, 3], [3, 9]], l.length ≤ 2) ∧
    packIDSpace 2 [5, 7, 5] [[7, 3], [3, 9]] = some [[0, 1, 0], [1, 2], [2, 3]] := by decide

/-- C03, error branch: a message longer than the receive buffer is not accepted. -/
theorem packIDSpace_overflow (maxNodes : Nat) (root l : List Int) (others : List (List Int))
    (hl : maxNodes < l.length) : packIDSpace maxNodes root (l :: others) = none := by
  unfold packIDSpace packOthers packMessage
  simp [hl]

/-! ## C04 -/

/-- C04. `GroupConsecutive` never leaves its arrays; expanding its result gives back the list; no group is empty; adjacent groups
have different keys. -/
theorem groupConsecutive_spec {κ ν : Type*} [DecidableEq κ] (lst : List (κ × ν)) :
    ∃ groups, groupConsecutive lst = some groups ∧
      groups.flatMap (fun g => g.2.map fun v => (g.1, v)) = lst ∧
      (∀ g ∈ groups, g.2 ≠ []) ∧
      groups.IsChain (fun a b => a.1 ≠ b.1) := by
  cases lst with
  | nil => exact ⟨[], rfl, rfl, by simp, .nil⟩
  | cons p rest =>
    refine ⟨_, groupConsecutive_eq p rest, ?_, runs_ne_nil _ _ (by simp) _, runs_chain _ _ _⟩
    rw [runs_expand]; simp

/-- C04, uniqueness: these three conditions determine the result. -/
theorem groups_unique {κ ν : Type*} (g₁ g₂ : List (κ × List ν))
    (he : g₁.flatMap (fun g => g.2.map fun v => (g.1, v)) = g₂.flatMap (fun g => g.2.map fun v => (g.1, v)))
    (h₁ : ∀ g ∈ g₁, g.2 ≠ []) (h₂ : ∀ g ∈ g₂, g.2 ≠ [])
    (c₁ : g₁.IsChain (fun a b => a.1 ≠ b.1)) (c₂ : g₂.IsChain (fun a b => a.1 ≠ b.1)) : g₁ = g₂ := by
  -- the length of the first run is determined: compare the two expansions
  have key : ∀ (k : κ) (v₁ v₂ : List ν) (r₁ r₂ : List (κ × ν)), (∀ p ∈ r₁.head?, p.1 ≠ k) → (∀ p ∈ r₂.head?, p.1 ≠ k) →
      (v₁.map fun v => (k, v)) ++ r₁ = (v₂.map fun v => (k, v)) ++ r₂ → v₁ = v₂ ∧ r₁ = r₂ := by
    intro k v₁
    induction v₁ with
    | nil =>
      intro v₂ r₁ r₂ hr₁ hr₂ h
      cases v₂ with
      | nil => exact ⟨rfl, by simpa using h⟩
      | cons b v₂ =>
        simp only [List.map_nil, List.nil_append, List.map_cons, List.cons_append] at h
        rw [h] at hr₁
        exact absurd rfl (hr₁ (k, b) (by simp))
    | cons a v₁ ih =>
      intro v₂ r₁ r₂ hr₁ hr₂ h
      cases v₂ with
      | nil =>
        simp only [List.map_nil, List.nil_append, List.map_cons, List.cons_append] at h
        rw [← h] at hr₂
        exact absurd rfl (hr₂ (k, a) (by simp))
      | cons b v₂ =>
        simp only [List.map_cons, List.cons_append, List.cons.injEq, Prod.mk.injEq, true_and] at h
        obtain ⟨rfl, h⟩ := h
        obtain ⟨rfl, rfl⟩ := ih v₂ r₁ r₂ hr₁ hr₂ h
        exact ⟨rfl, rfl⟩
  have hd : ∀ (k : κ) (t : List (κ × List ν)), (∀ g ∈ t, g.2 ≠ []) → (∀ g ∈ t.head?, k ≠ g.1) →
      ∀ p ∈ (t.flatMap fun g => g.2.map fun v => (g.1, v)).head?, p.1 ≠ k := by
    intro k t ht hk p hp
    cases t with
    | nil => simp at hp
    | cons g t =>
      obtain ⟨w, ws, hw⟩ := List.exists_cons_of_ne_nil (ht g (by simp))
      rw [List.flatMap_cons, hw] at hp
      simp only [List.map_cons, List.cons_append, List.head?_cons, Option.mem_def, Option.some.injEq] at hp
      subst hp
      exact (hk g (by simp)).symm
  induction g₁ generalizing g₂ with
  | nil =>
    cases g₂ with
    | nil => rfl
    | cons g t =>
      obtain ⟨w, ws, hw⟩ := List.exists_cons_of_ne_nil (h₂ g (by simp))
      simp [hw] at he
  | cons a t₁ ih =>
    obtain ⟨w, ws, hw⟩ := List.exists_cons_of_ne_nil (h₁ a (by simp))
    cases g₂ with
    | nil => simp [hw] at he
    | cons b t₂ =>
      obtain ⟨x, xs, hx⟩ := List.exists_cons_of_ne_nil (h₂ b (by simp))
      have hab : a.1 = b.1 := by
        rw [List.flatMap_cons, List.flatMap_cons, hw, hx] at he
        simp only [List.map_cons, List.cons_append, List.cons.injEq, Prod.mk.injEq] at he
        exact he.1.1
      rw [List.flatMap_cons, List.flatMap_cons, ← hab] at he
      rw [List.isChain_cons] at c₁ c₂
      obtain ⟨hv, hr⟩ := key a.1 a.2 b.2 _ _ (hd _ t₁ (fun g hg => h₁ g (by simp [hg])) (fun g hg => c₁.1 g hg))
        (hd _ t₂ (fun g hg => h₂ g (by simp [hg])) (fun g hg => by rw [hab]; exact c₂.1 g hg)) he
      have := ih t₂ hr (fun g hg => h₁ g (by simp [hg])) (fun g hg => h₂ g (by simp [hg])) c₁.2 c₂.2
      rw [this, Prod.ext hab hv]

example : groupConsecutive [(1, 'a'), (1, 'b'), (2, 'c'), (1, 'd')] = some [(1, ['a', 'b']), (2, ['c']), (1, ['d'])] := by
  decide

/-! ## C06 -/

/-- C06. `catenate_gatherv` on any positive number of ranks returns the concatenation in rank order (and never writes outside). -/
theorem catenateGatherv_spec (strs : List (List Char)) (h : strs ≠ []) : catenateGatherv strs = some strs.flatten := by
  obtain ⟨s, ss, rfl⟩ := List.exists_cons_of_ne_nil h
  unfold catenateGatherv
  dsimp only
  obtain ⟨d, l, h1, h2, h3⟩ := formatDispls_last 0 0 s.length (ss.map List.length)
  rw [← displacements_eq] at h1
  rw [List.map_cons, h1, h2, Option.bind_some, Option.bind_some]
  refine gatherv_concat ' ' (s :: ss) h (d + l) ?_
  rw [h3, List.map_map]
  simp [Function.comp_def]

/-- C06. `catenate_gatherv_format` returns `start`, the strings in rank order separated by `separator`, then `stop`. -/
theorem catenateGathervFormat_spec (strs : List (List Char)) (h : strs ≠ []) (start separator stop : List Char) :
    catenateGathervFormat strs start separator stop = some (start ++ (strs.intersperse separator).flatten ++ stop) := by
  obtain ⟨s, ss, rfl⟩ := List.exists_cons_of_ne_nil h
  have hjoin : ∀ (s : List Char) (ss : List (List Char)),
      ((s :: ss).intersperse separator).flatten = s ++ ss.flatMap fun t => separator ++ t := by
    intro s ss
    induction ss generalizing s with
    | nil => simp
    | cons t ss ih => simp [List.intersperse_cons_cons, ih]
  unfold catenateGathervFormat
  dsimp only
  have hacc := formatDispls_acc separator.length start.length ((s :: ss).map List.length)
  have hlen : (formatDispls separator.length start.length ((s :: ss).map List.length)).2 + stop.length - separator.length =
      start.length + (s.length + (ss.map fun t => separator.length + t.length).sum + stop.length) := by
    rw [hacc, List.map_cons, List.map_cons, List.sum_cons, List.map_map]
    simp only [Function.comp_def]
    omega
  rw [hlen, List.replicate_add]
  have hg := gatherv_format ' ' separator.length stop.length (List.replicate start.length ' ') s ss
  rw [List.length_replicate] at hg
  rw [hg, Option.bind_some]
  have hw := writeAt_mid ([] : List Char) (List.replicate start.length ' ')
    (s ++ ss.flatMap (fun t => List.replicate separator.length ' ' ++ t) ++ List.replicate stop.length ' ') start (by simp)
  simp only [List.nil_append, List.length_nil] at hw
  rw [show List.replicate start.length ' ' ++ s ++ ss.flatMap (fun t => List.replicate separator.length ' ' ++ t) ++
      List.replicate stop.length ' ' = List.replicate start.length ' ' ++
      (s ++ ss.flatMap (fun t => List.replicate separator.length ' ' ++ t) ++ List.replicate stop.length ' ') by simp,
    hw, Option.bind_some]
  have hsep := write_separators separator (List.replicate separator.length ' ') (by simp) start s ss
    (List.replicate stop.length ' ') (formatDispls separator.length start.length ((s :: ss).map List.length)).1
    ((s :: ss).map List.length) 0 (by simp) (by simp)
  have hr : (List.range (((s :: ss).map List.length).length - 1)) = List.range' 0 ss.length := by
    rw [List.range_eq_range']; simp
  rw [hr, show start ++ (s ++ ss.flatMap (fun t => List.replicate separator.length ' ' ++ t) ++ List.replicate stop.length ' ') =
    start ++ s ++ ss.flatMap (fun t => List.replicate separator.length ' ' ++ t) ++ List.replicate stop.length ' ' by simp, hsep,
    Option.bind_some]
  obtain ⟨d, l, h1, h2, h3⟩ := formatDispls_last separator.length start.length s.length (ss.map List.length)
  rw [← List.map_cons] at h1 h2
  rw [h1, h2, Option.bind_some, Option.bind_some]
  have hpos : d + l = (start ++ s ++ ss.flatMap (fun t => separator ++ t)).length := by
    rw [h3, List.map_map]
    simp [List.length_flatMap, Function.comp_def, Nat.add_assoc]
  rw [hpos]
  have := writeAt_mid (start ++ s ++ ss.flatMap (fun t => separator ++ t)) (List.replicate stop.length ' ') [] stop (by simp)
  rw [List.append_nil, List.append_nil] at this
  rw [this, hjoin]
  simp

example : catenateGathervFormat ["ab".toList, [], "c".toList] "<".toList ", ".toList ">".toList =
    some "<ab, , c>".toList := by decide

/-! ## C07 -/

section
variable {α : Type*} [Inhabited α]

omit [Inhabited α] in
theorem sliceLoop_lengths (dest : List α) (start stop : Nat) (cs : List Nat) (r : List (List α))
    (h : sliceLoop dest start stop cs = some r) :
    r.map List.length = (cs.zip ((stop - start) :: cs)).map Prod.snd := by
  induction cs generalizing start stop r with
  | nil => simp only [sliceLoop, Option.some.injEq] at h; subst h; rfl
  | cons c cs ih =>
    rw [sliceLoop] at h
    split at h
    · rename_i hb
      rw [Option.map_eq_some_iff] at h
      obtain ⟨r', hr', rfl⟩ := h
      rw [List.map_cons, ih _ _ _ hr']
      simp only [List.zip_cons_cons, List.map_cons, List.cons.injEq]
      refine ⟨by simp; omega, ?_⟩
      rw [Nat.add_sub_cancel_left]
    · simp at h

omit [Inhabited α] in
theorem sliceLoop_equal (n : Nat) (p : List α) (ls : List (List α)) (q : List α) (hl : ∀ l ∈ ls, l.length = n) :
    sliceLoop (p ++ ls.flatten ++ q) p.length (p.length + n) (ls.map List.length) = some ls := by
  induction ls generalizing p with
  | nil => rfl
  | cons l ls ih =>
    have hn := hl l (by simp)
    rw [List.map_cons, sliceLoop, if_pos ⟨by omega, by simp; omega⟩]
    have := ih (p ++ l) (fun x hx => hl x (by simp [hx]))
    rw [List.length_append, hn] at this
    rw [hn, show p ++ (l :: ls).flatten ++ q = p ++ l ++ ls.flatten ++ q by simp, this, Option.map_some]
    simp only [Option.some.injEq, List.cons.injEq, and_true]
    simp only [List.append_assoc]
    rw [List.drop_left, Nat.add_sub_cancel_left, ← hn, List.take_left]

theorem gather_eq (src : List (List α)) (h : src ≠ []) :
    gather src = sliceLoop src.flatten 0 ((src.map List.length).headD 0) (src.map List.length) := by
  unfold gather
  dsimp only
  rw [gatherv_concat default src h _ rfl, Option.bind_some]
  obtain ⟨s, ss, rfl⟩ := List.exists_cons_of_ne_nil h
  simp

/-- C07, exact characterisation of what `mpicontext::gather` guarantees: the root obtains the vectors of the ranks iff all ranks
contribute vectors of the same length. (The full property, without the length condition, is refuted below.) -/
theorem gather_correct_iff_equal_lengths_partial (src : List (List α)) (h : src ≠ []) :
    gather src = some src ↔ ∀ a ∈ src, ∀ b ∈ src, a.length = b.length := by
  constructor
  · intro hg
    rw [gather_eq src h] at hg
    have hlen := sliceLoop_lengths _ _ _ _ _ hg
    obtain ⟨s, ss, rfl⟩ := List.exists_cons_of_ne_nil h
    simp only [List.map_cons, List.headD_cons, Nat.sub_zero, List.zip_cons_cons, List.cons.injEq, true_and] at hlen
    have key : ∀ (a : Nat) (cs : List Nat), cs = (cs.zip (a :: cs)).map Prod.snd → ∀ c ∈ cs, c = a := by
      intro a cs
      induction cs generalizing a with
      | nil => simp
      | cons c cs ih =>
        intro hc x hx
        simp only [List.zip_cons_cons, List.map_cons, List.cons.injEq] at hc
        obtain ⟨rfl, hc⟩ := hc
        rcases List.mem_cons.1 hx with rfl | hx
        · rfl
        · exact ih _ hc x hx
    have hall : ∀ l ∈ s :: ss, l.length = s.length := by
      intro l hl
      rcases List.mem_cons.1 hl with rfl | hl
      · rfl
      · exact key _ _ hlen _ (List.mem_map_of_mem hl)
    intro a ha b hb
    rw [hall a ha, hall b hb]
  · intro hl
    rw [gather_eq src h]
    obtain ⟨s, ss, rfl⟩ := List.exists_cons_of_ne_nil h
    have := sliceLoop_equal s.length [] (s :: ss) [] (fun l hm => hl l hm s (by simp))
    simpa using this

end

/-- C07 is false of the code: with ranks contributing `[1]` and `[2,3]` the root does not get `[[1],[2,3]]` back. -/
theorem gather_not_correct : ¬ ∀ src : List (List Nat), src ≠ [] → gather src = some src := by
  intro h
  have := h [[1], [2, 3]] (by simp)
  revert this
  decide

/-- ... the second rank's vector is truncated; and the slice can even leave the receive buffer. -/
example : gather [[1], [2, 3]] = some [[1], [2]] ∧ gather [[1, 2], [3]] = none := by decide

end NimbleSM.Mpi
