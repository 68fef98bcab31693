import Verif.Mpi.Utils
import Mathlib.Data.List.Nodup
import Mathlib.Tactic.Ring
import Mathlib.Data.List.Dedup

namespace NimbleSM.Mpi

/-! ### PackIDSpace -/

/-- Table invariant: the keys are exactly the ids seen so far, in order of first appearance reversed, numbered 0,1,... -/
structure PackInv (seen : List Int) (s : PackState) : Prop where
  mem : ∀ g, (∃ k, s.table.lookup g = some k) ↔ g ∈ seen
  inj : ∀ g g' k, s.table.lookup g = some k → s.table.lookup g' = some k → g = g'
  lt : ∀ g k, s.table.lookup g = some k → k < s.next
  surj : ∀ k < s.next, ∃ g, s.table.lookup g = some k

theorem packInv_init : PackInv [] { table := [], next := 0 } := by
  constructor <;> simp

theorem lookup_cons_ne {g g' : Int} {k : Nat} {t : List (Int × Nat)} :
    List.lookup g ((g', k) :: t) = if g = g' then some k else List.lookup g t := by
  rw [List.lookup_cons]
  by_cases h : g = g'
  · simp [h]
  · have : (g == g') = false := by simpa using h
    simp [h, this]

theorem packInv_node {seen s} (h : PackInv seen s) (g : Int) : PackInv (seen ++ [g]) (packNode s g) := by
  unfold packNode
  split
  · rename_i k hk
    refine ⟨?_, h.inj, h.lt, h.surj⟩
    intro g'
    rw [h.mem g', List.mem_append, List.mem_singleton]
    constructor
    · exact Or.inl
    · rintro (h' | rfl)
      · exact h'
      · exact (h.mem _).1 ⟨k, hk⟩
  · rename_i hk
    constructor
    · intro g'
      simp only [lookup_cons_ne, List.mem_append, List.mem_singleton]
      by_cases hg : g' = g
      · simp [hg]
      · simp only [hg, if_false, or_false]; exact h.mem g'
    · intro g1 g2 k h1 h2
      simp only [lookup_cons_ne] at h1 h2
      split at h1 <;> split at h2
      · rename_i a b; rw [a, b]
      · have := h.lt _ _ h2; simp only [Option.some.injEq] at h1; omega
      · have := h.lt _ _ h1; simp only [Option.some.injEq] at h2; omega
      · exact h.inj _ _ _ h1 h2
    · intro g' k hk'
      simp only [lookup_cons_ne] at hk'
      dsimp only
      split at hk'
      · simp only [Option.some.injEq] at hk'; omega
      · have := h.lt _ _ hk'; omega
    · intro k hk'
      dsimp only at hk'
      by_cases hkn : k = s.next
      · exact ⟨g, by simp [hkn]⟩
      · obtain ⟨g', hg'⟩ := h.surj k (by omega)
        refine ⟨g', ?_⟩
        simp only [lookup_cons_ne]
        rw [if_neg, hg']
        rintro rfl; rw [hg'] at hk; simp at hk

/-- Entries are never changed. -/
theorem packNode_mono {s : PackState} {g g' : Int} {k : Nat} (h : s.table.lookup g' = some k) :
    (packNode s g).table.lookup g' = some k := by
  unfold packNode
  split
  · exact h
  · rename_i hk
    simp only [lookup_cons_ne]
    rw [if_neg, h]
    rintro rfl; rw [h] at hk; simp at hk

theorem packFold_mono {s : PackState} {g' : Int} {k : Nat} (ids : List Int) (h : s.table.lookup g' = some k) :
    (ids.foldl packNode s).table.lookup g' = some k := by
  induction ids generalizing s with
  | nil => exact h
  | cons a l ih => exact ih (packNode_mono h)

theorem packInv_fold {seen s} (h : PackInv seen s) (ids : List Int) : PackInv (seen ++ ids) (ids.foldl packNode s) := by
  induction ids generalizing seen s with
  | nil => simpa using h
  | cons a l ih => simpa using ih (packInv_node h a)

theorem packMessage_fold {seen s} (h : PackInv seen s) (ids : List Int) (acc : List Nat) :
    ids.foldl (fun (p : PackState × List Nat) node =>
      let s' := packNode p.1 node
      (s', p.2 ++ [(s'.table.lookup node).getD 0])) (s, acc) =
    (ids.foldl packNode s, acc ++ ids.map fun g => (((ids.foldl packNode s).table.lookup g).getD 0)) := by
  induction ids generalizing seen s acc with
  | nil => simp
  | cons a l ih =>
    have h' := packInv_node h a
    rw [List.foldl_cons, ih h']
    obtain ⟨k, hk⟩ := (h'.mem a).2 (by simp)
    simp only [List.foldl_cons, List.map_cons, hk, packFold_mono l hk, Option.getD_some, List.append_assoc,
      List.cons_append, List.nil_append]

theorem packMessage_eq {seen s} (h : PackInv seen s) {maxNodes : Nat} {ids : List Int} (hl : ids.length ≤ maxNodes) :
    packMessage maxNodes s ids =
      some (ids.foldl packNode s, ids.map fun g => (((ids.foldl packNode s).table.lookup g).getD 0)) := by
  unfold packMessage
  rw [if_neg (by omega), packMessage_fold h]
  simp

theorem packOthers_eq {seen s} (h : PackInv seen s) {maxNodes : Nat} {others : List (List Int)}
    (hl : ∀ l ∈ others, l.length ≤ maxNodes) :
    packOthers maxNodes s others =
      some (others.flatten.foldl packNode s,
        others.map fun l => l.map fun g => ((others.flatten.foldl packNode s).table.lookup g).getD 0) := by
  induction others generalizing seen s with
  | nil => rfl
  | cons a l ih =>
    have h' := packInv_fold h a
    rw [packOthers, packMessage_eq h (hl a (by simp)), Option.bind_some, ih h' (fun x hx => hl x (by simp [hx]))]
    simp only [Option.map_some, List.flatten_cons, List.foldl_append, List.map_cons, Option.some.injEq, Prod.mk.injEq, true_and,
      List.cons.injEq, and_true]
    apply List.map_congr_left
    intro g hg
    obtain ⟨k, hk⟩ := (h'.mem g).2 (by simp [hg])
    rw [packFold_mono _ hk, hk]

/-! ### GroupConsecutive -/

section
variable {κ ν : Type*} [DecidableEq κ]

/-- The remaining groups when the current group has key `k` and values `c`. -/
def runs : κ → List ν → List (κ × ν) → List (κ × List ν)
  | k, c, [] => [(k, c)]
  | k, c, p :: rest => if p.1 ≠ k then (k, c) :: runs p.1 [p.2] rest else runs k (c ++ [p.2]) rest

theorem groupLoop_eq (lst done cur rest : List (κ × ν)) (k : κ) (m : Nat) (ids : List Nat) (g0 : List (κ × List ν))
    (hl : lst = done ++ cur ++ rest) (hk : ∀ p ∈ cur, p.1 = k) (hne : cur ≠ [])
    (hids : ids.drop (done.length + cur.length) = (keyIds k m rest).1 ++ [(keyIds k m rest).2 + 1]) :
    ((List.range' (done.length + cur.length) (rest.length + 1)).foldlM (groupStep lst ids)
      { prev := m, size := cur.length, groups := g0 }).map GroupState.groups = some (g0 ++ runs k (cur.map Prod.snd) rest) := by
  have hlast : lst[done.length + cur.length - 1]? = some (cur.getLast hne) := by
    rw [hl, List.append_assoc, List.getElem?_append_right (by
      have := List.length_pos_iff.2 hne; omega), List.getElem?_append_left (by
      have := List.length_pos_iff.2 hne; omega)]
    rw [show done.length + cur.length - 1 - done.length = cur.length - 1 by
      have := List.length_pos_iff.2 hne; omega]
    rw [← List.getLast?_eq_getElem?, List.getLast?_eq_some_getLast hne]
  have hid0 : ∀ x, ids[done.length + cur.length + x]? = ((keyIds k m rest).1 ++ [(keyIds k m rest).2 + 1])[x]? := by
    intro x; rw [← hids, List.getElem?_drop]
  have hsl : (lst.drop (done.length + cur.length - cur.length)).take cur.length = cur := by
    rw [hl, Nat.add_sub_cancel, List.append_assoc, List.drop_left, List.take_left]
  have hkl : (cur.getLast hne).1 = k := hk _ (List.getLast_mem hne)
  have hi0 := hid0 0
  induction rest generalizing done cur k m g0 with
  | nil =>
    simp only [List.length_nil, List.range'_succ, List.range'_zero, List.foldlM_cons, List.foldlM_nil]
    simp only [keyIds, List.nil_append, Nat.add_zero, List.getElem?_cons_zero] at hi0
    unfold groupStep
    rw [hi0, Option.bind_some, if_pos (by dsimp only; omega), hlast, Option.bind_some, if_pos ⟨by dsimp only; omega, by
      rw [hl]; simp⟩]
    rw [hsl, hkl]
    rfl
  | cons p rest ih =>
    rw [List.length_cons, List.range'_succ, List.foldlM_cons]
    by_cases hp : p.1 ≠ k
    · have hkeq : keyIds k m (p :: rest) = ((m + 1) :: (keyIds p.1 (m + 1) rest).1, (keyIds p.1 (m + 1) rest).2) := by
        rw [keyIds, if_pos hp]
      rw [hkeq] at hids hi0
      simp only [List.cons_append, Nat.add_zero, List.getElem?_cons_zero] at hi0
      have hstep : groupStep lst ids { prev := m, size := cur.length, groups := g0 } (done.length + cur.length) =
          some { prev := m + 1, size := 1, groups := g0 ++ [(k, cur.map Prod.snd)] } := by
        unfold groupStep
        rw [hi0, Option.bind_some, if_pos (by dsimp only; omega), hlast, Option.bind_some, if_pos ⟨by dsimp only; omega, by
          rw [hl]; simp⟩]
        simp only [hsl, hkl]
      rw [hstep]
      have hids' : ids.drop ((done ++ cur).length + [p].length) =
          (keyIds p.1 (m + 1) rest).1 ++ [(keyIds p.1 (m + 1) rest).2 + 1] := by
        rw [List.length_append, List.length_singleton, ← List.drop_drop, hids]; rfl
      have := ih (done ++ cur) [p] p.1 (m + 1) (g0 ++ [(k, cur.map Prod.snd)]) (by simp [hl]) (by simp) (by simp) hids'
        (by
          have e : (done ++ cur).length + [p].length - 1 = (done ++ cur).length := by simp
          rw [e, hl, List.getElem?_append_right (le_refl _)]; simp)
        (by intro x; rw [← hids', List.getElem?_drop])
        (by simp [hl])
        (by simp) (by rw [← hids', List.getElem?_drop])
      simp only [List.length_append, List.length_singleton] at this
      rw [Option.bind_eq_bind, Option.bind_some, this, runs, if_pos hp]
      simp
    · have hpk : p.1 = k := not_not.1 hp
      have hkeq : keyIds k m (p :: rest) = (m :: (keyIds k m rest).1, (keyIds k m rest).2) := by
        rw [keyIds, if_neg hp]
      rw [hkeq] at hids hi0
      simp only [List.cons_append, Nat.add_zero, List.getElem?_cons_zero] at hi0
      have hstep : groupStep lst ids { prev := m, size := cur.length, groups := g0 } (done.length + cur.length) =
          some { prev := m, size := (cur ++ [p]).length, groups := g0 } := by
        unfold groupStep
        rw [hi0, Option.bind_some, if_neg (by simp)]
        simp
      rw [hstep]
      have hids' : ids.drop (done.length + (cur ++ [p]).length) =
          (keyIds k m rest).1 ++ [(keyIds k m rest).2 + 1] := by
        rw [List.length_append, List.length_singleton, ← Nat.add_assoc, ← List.drop_drop, hids]; rfl
      have := ih done (cur ++ [p]) k m g0 (by simp [hl]) (by
          intro q hq
          rcases List.mem_append.1 hq with hq | hq
          · exact hk q hq
          · rw [List.mem_singleton.1 hq, hpk]) (by simp) hids'
        (by
          rw [hl, List.length_append, List.length_singleton, ← Nat.add_assoc, Nat.add_sub_cancel, List.getElem?_append_right (by simp)]
          simp)
        (by intro x; rw [← hids', List.getElem?_drop])
        (by
          rw [Nat.add_sub_cancel, hl, List.append_assoc, List.drop_left]
          rw [show cur ++ p :: rest = (cur ++ [p]) ++ rest by simp, List.take_left])
        (by simp [hpk]) (by rw [← hids', List.getElem?_drop])
      rw [List.length_append, List.length_singleton, ← Nat.add_assoc] at this
      rw [Option.bind_eq_bind, Option.bind_some, runs, if_neg hp]
      rw [List.length_append, List.length_singleton]
      rw [this]
      simp

theorem runs_expand (k : κ) (c : List ν) (rest : List (κ × ν)) :
    (runs k c rest).flatMap (fun g => g.2.map fun v => (g.1, v)) = (c.map fun v => (k, v)) ++ rest := by
  induction rest generalizing k c with
  | nil => simp [runs]
  | cons p rest ih =>
    rw [runs]
    split
    · simp [ih]
    · rename_i hp
      rw [ih]
      have : p = (k, p.2) := by rw [← not_not.1 hp]
      simp [← this]

theorem runs_ne_nil (k : κ) (c : List ν) (hc : c ≠ []) (rest : List (κ × ν)) : ∀ g ∈ runs k c rest, g.2 ≠ [] := by
  induction rest generalizing k c with
  | nil => simpa [runs] using hc
  | cons p rest ih =>
    rw [runs]
    split
    · intro g hg
      rcases List.mem_cons.1 hg with rfl | hg
      · exact hc
      · exact ih _ _ (by simp) g hg
    · exact ih _ _ (by simp)

theorem runs_head (k : κ) (c : List ν) (rest : List (κ × ν)) : ∃ c' t, runs k c rest = (k, c') :: t := by
  induction rest generalizing k c with
  | nil => exact ⟨c, [], rfl⟩
  | cons p rest ih =>
    rw [runs]
    split
    · exact ⟨_, _, rfl⟩
    · exact ih _ _

theorem runs_chain (k : κ) (c : List ν) (rest : List (κ × ν)) :
    (runs k c rest).IsChain (fun a b => a.1 ≠ b.1) := by
  induction rest generalizing k c with
  | nil => simp [runs]
  | cons p rest ih =>
    rw [runs]
    split
    · rename_i hp
      obtain ⟨c', t, h⟩ := runs_head p.1 [p.2] rest
      have := ih p.1 [p.2]
      rw [h] at this ⊢
      exact List.IsChain.cons_cons (Ne.symm hp) this
    · exact ih _ _

theorem groupConsecutive_eq (p : κ × ν) (rest : List (κ × ν)) :
    groupConsecutive (p :: rest) = some (runs p.1 [p.2] rest) := by
  have := groupLoop_eq (p :: rest) [] [p] rest p.1 0
    ((keyIds p.1 0 (p :: rest)).1 ++ [(keyIds p.1 0 (p :: rest)).2 + 1]) [] (by simp) (by simp) (by simp) (by
      rw [show keyIds p.1 0 (p :: rest) = (0 :: (keyIds p.1 0 rest).1, (keyIds p.1 0 rest).2) by
        rw [keyIds, if_neg (by simp)]]
      simp)
  simpa [groupConsecutive] using this

end

/-! ### Gathers -/

section
variable {α : Type*}

theorem writeAt_mid (a b c l : List α) (h : b.length = l.length) :
    writeAt (a ++ b ++ c) a.length l = some (a ++ l ++ c) := by
  unfold writeAt
  rw [if_pos (by simp [← h])]
  congr 1
  have h1 : List.take a.length (a ++ b ++ c) = a := by rw [List.append_assoc, List.take_left]
  have h2 : List.drop (a.length + l.length) (a ++ b ++ c) = c := by rw [← h, ← List.length_append, List.drop_left]
  rw [h1, h2]

theorem formatDispls_len (sep acc : Nat) (cs : List Nat) : (formatDispls sep acc cs).1.length = cs.length := by
  induction cs generalizing acc with
  | nil => rfl
  | cons c cs ih => simp [formatDispls, ih]

theorem formatDispls_ge (sep acc : Nat) (cs : List Nat) : ∀ p ∈ (formatDispls sep acc cs).1.zip cs, acc ≤ p.1 := by
  induction cs generalizing acc with
  | nil => simp [formatDispls]
  | cons c cs ih =>
    intro p hp
    simp only [formatDispls, List.zip_cons_cons, List.mem_cons] at hp
    rcases hp with rfl | hp
    · exact le_refl _
    · have := ih _ p hp; omega

theorem formatDispls_pairwise (sep acc : Nat) (cs : List Nat) :
    ((formatDispls sep acc cs).1.zip cs).Pairwise (fun a b => a.1 + a.2 ≤ b.1) := by
  induction cs generalizing acc with
  | nil => simp [formatDispls]
  | cons c cs ih =>
    simp only [formatDispls, List.zip_cons_cons, List.pairwise_cons]
    refine ⟨?_, ih _⟩
    intro b hb
    have := formatDispls_ge sep _ cs b hb
    omega

/-- The acc at the end. -/
theorem formatDispls_acc (sep acc : Nat) (cs : List Nat) :
    (formatDispls sep acc cs).2 = acc + (cs.map fun c => sep + c).sum := by
  induction cs generalizing acc with
  | nil => simp [formatDispls]
  | cons c cs ih => simp [formatDispls, ih]; omega

/-- Filling the sections: gaps of length `sep` remain untouched (`g i` holds what is in the gaps). -/
theorem fill_sections (x : α) (sep e : Nat) (p : List α) (s : List α) (ss : List (List α)) :
    ((formatDispls sep p.length ((s :: ss).map List.length)).1.zip (s :: ss)).foldlM (fun d q => writeAt d q.1 q.2)
      (p ++ List.replicate (s.length + (ss.map fun t => sep + t.length).sum + e) x) =
    some (p ++ s ++ ss.flatMap (fun t => List.replicate sep x ++ t) ++ List.replicate e x) := by
  induction ss generalizing p s with
  | nil =>
    simp only [List.map_cons, List.map_nil, formatDispls, List.zip_cons_cons, List.zip_nil_right, List.foldlM_cons,
      List.foldlM_nil, List.sum_nil, Nat.add_zero, List.flatMap_nil, List.append_nil]
    rw [List.replicate_add, ← List.append_assoc, writeAt_mid _ _ _ _ (by simp)]
    rfl
  | cons t ss ih =>
    rw [List.map_cons (a := s)]
    conv_lhs => rw [formatDispls]
    simp only [List.zip_cons_cons, List.foldlM_cons]
    rw [Nat.add_assoc, List.replicate_add, ← List.append_assoc, writeAt_mid _ _ _ _ (by simp), Option.bind_eq_bind, Option.bind_some]
    have h1 : p.length + (sep + s.length) = (p ++ s ++ List.replicate sep x).length := by simp; omega
    rw [h1]
    have h2 : p ++ s ++ List.replicate ((List.map (fun t => sep + t.length) (t :: ss)).sum + e) x =
        (p ++ s ++ List.replicate sep x) ++
          List.replicate (t.length + (ss.map fun t => sep + t.length).sum + e) x := by
      rw [List.map_cons, List.sum_cons, show sep + t.length + (ss.map fun t => sep + t.length).sum + e =
        sep + (t.length + (ss.map fun t => sep + t.length).sum + e) by omega, List.replicate_add]
      simp
    rw [h2, ih]
    simp

theorem partialSums_eq (acc : Nat) (cs : List Nat) (c : Nat) :
    acc :: partialSums acc (c :: cs).dropLast = (formatDispls 0 acc (c :: cs)).1 := by
  induction cs generalizing acc c with
  | nil => simp [partialSums, formatDispls]
  | cons d cs ih =>
    rw [List.dropLast_cons_cons, partialSums, ih, formatDispls.eq_def 0 acc]
    simp

theorem displacements_eq (c : Nat) (cs : List Nat) : displacements (c :: cs) = (formatDispls 0 0 (c :: cs)).1 :=
  partialSums_eq 0 cs c

theorem gatherv_format (x : α) (sep e : Nat) (p : List α) (s : List α) (ss : List (List α)) :
    gatherv (p ++ List.replicate (s.length + (ss.map fun t => sep + t.length).sum + e) x) (s :: ss)
      ((s :: ss).map List.length) (formatDispls sep p.length ((s :: ss).map List.length)).1 =
    some (p ++ s ++ ss.flatMap (fun t => List.replicate sep x ++ t) ++ List.replicate e x) := by
  unfold gatherv
  rw [if_pos ⟨rfl, by rw [formatDispls_len]; simp, formatDispls_pairwise _ _ _⟩, fill_sections]

/-- Gathering with prefix-sum displacements concatenates. -/
theorem gatherv_concat (x : α) (strs : List (List α)) (h : strs ≠ []) (n : Nat) (hn : n = (strs.map List.length).sum) :
    gatherv (List.replicate n x) strs (strs.map List.length) (displacements (strs.map List.length)) =
      some strs.flatten := by
  obtain ⟨s, ss, rfl⟩ := List.exists_cons_of_ne_nil h
  have := gatherv_format x 0 0 [] s ss
  rw [List.map_cons, displacements_eq, hn]
  simp only [List.map_cons, List.sum_cons]
  simp only [List.nil_append, List.length_nil, Nat.add_zero, List.replicate_zero, List.append_nil,
    List.map_cons, Nat.zero_add, List.append_nil] at this
  rw [this]
  simp [List.flatMap_id']

theorem formatDispls_last (sep acc c : Nat) (cs : List Nat) : ∃ d l,
    (formatDispls sep acc (c :: cs)).1.getLast? = some d ∧ (c :: cs).getLast? = some l ∧
      d + l = acc + c + (cs.map fun c => sep + c).sum := by
  induction cs generalizing acc c with
  | nil => exact ⟨acc, c, by simp [formatDispls], by simp, by simp⟩
  | cons d cs ih =>
    obtain ⟨d', l', h1, h2, h3⟩ := ih (acc + (sep + c)) d
    refine ⟨d', l', ?_, by simpa using h2, ?_⟩
    · rw [formatDispls]
      have : (formatDispls sep (acc + (sep + c)) (d :: cs)).1 ≠ [] := by
        intro h; rw [h] at h1; simp at h1
      dsimp only
      rw [List.getLast?_cons]
      rw [h1]; rfl
    · rw [List.map_cons, List.sum_cons]; omega

/-- Writing the separators into the gaps. -/
theorem write_separators (sepr : List α) (g : List α) (hg : g.length = sepr.length) (p s : List α) (ss : List (List α)) (q : List α)
    (D C : List Nat) (k : Nat)
    (hD : D.drop k = (formatDispls sepr.length p.length ((s :: ss).map List.length)).1)
    (hC : C.drop k = (s :: ss).map List.length) :
    (List.range' k ss.length).foldlM (fun d i =>
      (D[i]?).bind fun di => (C[i]?).bind fun ci => writeAt d (di + ci) sepr)
      (p ++ s ++ ss.flatMap (fun t => g ++ t) ++ q) =
    some (p ++ s ++ ss.flatMap (fun t => sepr ++ t) ++ q) := by
  induction ss generalizing p s k with
  | nil => simp
  | cons t ss ih =>
    have hD0 : D[k]? = some p.length := by
      have := congrArg (·[0]?) hD
      simpa [List.getElem?_drop, formatDispls] using this
    have hC0 : C[k]? = some s.length := by
      have := congrArg (·[0]?) hC
      simpa [List.getElem?_drop] using this
    rw [List.length_cons, List.range'_succ, List.foldlM_cons, hD0, Option.bind_some, hC0, Option.bind_some,
      ← List.length_append, List.flatMap_cons]
    rw [show p ++ s ++ (g ++ t ++ ss.flatMap fun t => g ++ t) ++ q =
      (p ++ s) ++ g ++ (t ++ (ss.flatMap fun t => g ++ t) ++ q) by simp, writeAt_mid _ _ _ _ hg,
      Option.bind_eq_bind, Option.bind_some]
    have hD1 : D.drop (k + 1) = (formatDispls sepr.length (p ++ s ++ sepr).length ((t :: ss).map List.length)).1 := by
      have := congrArg (List.drop 1) hD
      rw [List.drop_drop] at this
      rw [this, List.map_cons, formatDispls]
      simp only [List.drop_succ_cons, List.drop_zero, List.length_append]
      congr 2
      omega
    have hC1 : C.drop (k + 1) = (t :: ss).map List.length := by
      have := congrArg (List.drop 1) hC
      rw [List.drop_drop] at this
      rw [this]; rfl
    have := ih (p ++ s ++ sepr) t (k + 1) hD1 hC1
    simp only [List.append_assoc] at this ⊢
    rw [this]
    simp

end
end NimbleSM.Mpi
