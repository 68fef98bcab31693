import Verif.Mpi.Clique
import Mathlib.Tactic.Ring
import Mathlib.Tactic.Linarith
import Mathlib.Data.List.Nodup

namespace NimbleSM.Mpi

/-- Inner-loop invariant after the ids in `p` (a prefix of the rank's list) have been processed. -/
structure InnerInv (L0 : Int → Nat) (c0 rp1 : Nat) (p : List Int) (s : CliqueState) : Prop where
  notin : ∀ g, g ∉ p → s.lookup g = L0 g
  fresh : ∀ g, g ∈ p → L0 g = 0 → s.lookup g = rp1
  old : ∀ g, g ∈ p → L0 g ≠ 0 → s.remap.lookup (L0 g) = some (s.lookup g)
  range : ∀ c v, s.remap.lookup c = some v → c0 ≤ v ∧ v < s.counter
  inj : ∀ c c' v, s.remap.lookup c = some v → s.remap.lookup c' = some v → c = c'
  le : c0 ≤ s.counter

theorem innerInv_step {L0 c0 rp1 p s id} (h : InnerInv L0 c0 rp1 p s) (hid : id ∉ p) :
    InnerInv L0 c0 rp1 (p ++ [id]) (cliqueStep rp1 s id) := by
  have hcur := h.notin id hid
  unfold cliqueStep
  split
  · rename_i h0
    constructor
    · intro g hg
      simp only [List.mem_append, List.mem_singleton, not_or] at hg
      simp only [Function.update_of_ne hg.2]
      exact h.notin g hg.1
    · intro g hg hL
      by_cases hgi : g = id
      · subst hgi; simp
      · simp only [Function.update_of_ne hgi]
        have : g ∈ p := by simpa [hgi] using hg
        exact h.fresh g this hL
    · intro g hg hL
      by_cases hgi : g = id
      · subst hgi; rw [← hcur] at hL; exact absurd h0 hL
      · simp only [Function.update_of_ne hgi]
        have : g ∈ p := by simpa [hgi] using hg
        exact h.old g this hL
    · exact h.range
    · exact h.inj
    · exact h.le
  · rename_i h0
    split
    · rename_i c hc
      constructor
      · intro g hg
        simp only [List.mem_append, List.mem_singleton, not_or] at hg
        simp only [Function.update_of_ne hg.2]
        exact h.notin g hg.1
      · intro g hg hL
        by_cases hgi : g = id
        · subst hgi; rw [← hcur] at hL; exact absurd hL h0
        · simp only [Function.update_of_ne hgi]
          have : g ∈ p := by simpa [hgi] using hg
          exact h.fresh g this hL
      · intro g hg hL
        by_cases hgi : g = id
        · subst hgi; simp only [Function.update_self]; rw [← hcur]; exact hc
        · simp only [Function.update_of_ne hgi]
          have : g ∈ p := by simpa [hgi] using hg
          exact h.old g this hL
      · exact h.range
      · exact h.inj
      · exact h.le
    · rename_i hc
      constructor
      · intro g hg
        simp only [List.mem_append, List.mem_singleton, not_or] at hg
        simp only [Function.update_of_ne hg.2]
        exact h.notin g hg.1
      · intro g hg hL
        by_cases hgi : g = id
        · subst hgi; rw [← hcur] at hL; exact absurd hL h0
        · simp only [Function.update_of_ne hgi]
          have : g ∈ p := by simpa [hgi] using hg
          exact h.fresh g this hL
      · intro g hg hL
        by_cases hgi : g = id
        · subst hgi; simp [hcur]
        · simp only [Function.update_of_ne hgi]
          have hgp : g ∈ p := by simpa [hgi] using hg
          have := h.old g hgp hL
          rw [List.lookup_cons]
          split
          · rename_i he
            simp only [beq_iff_eq] at he
            rw [he, hc] at this; simp at this
          · exact this
      · intro c v hv
        rw [List.lookup_cons] at hv
        split at hv
        · simp only [Option.some.injEq] at hv
          have := h.le
          dsimp only
          omega
        · have := h.range c v hv
          dsimp only
          omega
      · intro c c' v hv hv'
        rw [List.lookup_cons] at hv hv'
        split at hv <;> split at hv'
        · rename_i h1 _ h2
          simp only [beq_iff_eq] at h1 h2; rw [h1, h2]
        · have := h.range _ _ hv'; simp only [Option.some.injEq] at hv; omega
        · have := h.range _ _ hv; simp only [Option.some.injEq] at hv'; omega
        · exact h.inj _ _ _ hv hv'
      · have := h.le
        dsimp only
        omega

theorem innerInv_foldl {L0 c0 rp1} : ∀ (l p : List Int) (s : CliqueState), InnerInv L0 c0 rp1 p s → (p ++ l).Nodup →
    InnerInv L0 c0 rp1 (p ++ l) (l.foldl (cliqueStep rp1) s)
  | [], p, s, h, _ => by simpa using h
  | a :: l, p, s, h, hn => by
    have ha : a ∉ p := by
      intro hp
      rw [List.nodup_append] at hn
      exact hn.2.2 a hp a (by simp) rfl
    have := innerInv_foldl l (p ++ [a]) _ (innerInv_step h ha) (by simpa using hn)
    simpa using this

theorem innerInv_rank {s : CliqueState} {rp1 : Nat} {ids : List Int} (hn : ids.Nodup) :
    InnerInv s.lookup s.counter rp1 ids (cliqueRank rp1 s ids) := by
  have h0 : InnerInv s.lookup s.counter rp1 [] { s with remap := [] } := by
    constructor <;> simp
  exact innerInv_foldl ids [] _ h0 (by simpa using hn)

/-- Outer-loop invariant after the rank lists `done` have been processed, out of `n` ranks in total. -/
structure OuterInv (n : Nat) (done : List (List Int)) (s : CliqueState) : Prop where
  zero : ∀ g, s.lookup g = 0 ↔ ∀ l ∈ done, g ∉ l
  range : ∀ g, s.lookup g ≤ done.length ∨ (n + 1 ≤ s.lookup g ∧ s.lookup g < s.counter)
  same : ∀ g g', s.lookup g = s.lookup g' ↔ ∀ l ∈ done, (g ∈ l ↔ g' ∈ l)
  single : ∀ g r, r < n → (s.lookup g = r + 1 ↔ ∃ (h : r < done.length), g ∈ done[r] ∧
      ∀ r' (h' : r' < done.length), g ∈ done[r'] → r' = r)
  cnt : n + 1 ≤ s.counter

theorem outerInv_init (n : Nat) :
    OuterInv n [] { lookup := fun _ => 0, remap := [], counter := n + 1 } := by
  constructor <;> simp

theorem outerInv_step {n done s ids} (h : OuterInv n done s) (hd : done.length < n) (hn : ids.Nodup) :
    OuterInv n (done ++ [ids]) (cliqueRank (done.length + 1) s ids) := by
  have I := innerInv_rank (s := s) (rp1 := done.length + 1) hn
  have hc := h.cnt
  -- value ranges after the rank
  have hin : ∀ g, g ∈ ids → (cliqueRank (done.length + 1) s ids).lookup g = done.length + 1 ∧ s.lookup g = 0 ∨
      s.lookup g ≠ 0 ∧ s.counter ≤ (cliqueRank (done.length + 1) s ids).lookup g ∧
        (cliqueRank (done.length + 1) s ids).lookup g < (cliqueRank (done.length + 1) s ids).counter := by
    intro g hg
    by_cases h0 : s.lookup g = 0
    · exact Or.inl ⟨I.fresh g hg h0, h0⟩
    · exact Or.inr ⟨h0, I.range _ _ (I.old g hg h0)⟩
  have hle := I.le
  have hsame : ∀ g g', (cliqueRank (done.length + 1) s ids).lookup g = (cliqueRank (done.length + 1) s ids).lookup g' ↔
      (s.lookup g = s.lookup g' ∧ (g ∈ ids ↔ g' ∈ ids)) := by
    intro g g'
    by_cases hg : g ∈ ids <;> by_cases hg' : g' ∈ ids
    · simp only [hg, hg', and_true]
      rcases hin g hg with ⟨h1, h2⟩ | ⟨h1, h2, h3⟩ <;> rcases hin g' hg' with ⟨h1', h2'⟩ | ⟨h1', h2', h3'⟩
      · simp [h1, h2, h1', h2']
      · constructor
        · intro e; omega
        · intro e; omega
      · constructor
        · intro e; omega
        · intro e; omega
      · have o := I.old g hg h1
        have o' := I.old g' hg' h1'
        constructor
        · intro e; rw [e] at o; exact I.inj _ _ _ o o'
        · intro e; rw [e, o'] at o; simpa using o.symm
    · have e' := I.notin g' hg'
      simp only [hg, hg', iff_false, not_true, and_false]
      intro e
      have r' := h.range g'
      rcases hin g hg with ⟨h1, h2⟩ | ⟨h1, h2, h3⟩ <;> omega
    · have e' := I.notin g hg
      simp only [hg, hg', iff_true, and_false, iff_false]
      intro e
      have r' := h.range g
      rcases hin g' hg' with ⟨h1, h2⟩ | ⟨h1, h2, h3⟩ <;> omega
    · rw [I.notin g hg, I.notin g' hg']; simp [hg, hg']
  constructor
  · intro g
    by_cases hg : g ∈ ids
    · constructor
      · intro e
        rcases hin g hg with ⟨h1, h2⟩ | ⟨h1, h2, h3⟩ <;> omega
      · intro e; exact absurd hg (e ids (by simp))
    · rw [I.notin g hg, h.zero g]
      constructor
      · intro e l hl
        rcases List.mem_append.1 hl with hl | hl
        · exact e l hl
        · simp only [List.mem_singleton] at hl; rw [hl]; exact hg
      · intro e l hl; exact e l (by simp [hl])
  · intro g
    simp only [List.length_append, List.length_cons, List.length_nil]
    by_cases hg : g ∈ ids
    · rcases hin g hg with ⟨h1, h2⟩ | ⟨h1, h2, h3⟩ <;> omega
    · rw [I.notin g hg]
      rcases h.range g with h1 | h1 <;> omega
  · intro g g'
    rw [hsame, h.same]
    simp only [List.mem_append, List.mem_singleton]
    constructor
    · rintro ⟨h1, h2⟩ l (hl | rfl)
      · exact h1 l hl
      · exact h2
    · intro e; exact ⟨fun l hl => e l (Or.inl hl), e ids (Or.inr rfl)⟩
  · intro g r hr
    by_cases hg : g ∈ ids
    · have hz := h.zero g
      constructor
      · intro e
        rcases hin g hg with ⟨h1, h2⟩ | ⟨h1, h2, h3⟩
        · have : r = done.length := by omega
          subst this
          refine ⟨by simp, by simpa using hg, ?_⟩
          intro r' h' hm
          by_contra hne
          have hlt : r' < done.length := by simp at h'; omega
          rw [List.getElem_append_left hlt] at hm
          exact (hz.1 h2) _ (List.getElem_mem hlt) hm
        · omega
      · rintro ⟨hlen, hm, huniq⟩
        have e := huniq done.length (by simp) (by simpa using hg)
        subst e
        have h0 : s.lookup g = 0 := by
          rw [hz]
          intro l hl hgl
          obtain ⟨k, hk, rfl⟩ := List.getElem_of_mem hl
          have := huniq k (by simp; omega) (by rw [List.getElem_append_left hk]; exact hgl)
          omega
        exact I.fresh g hg h0
    · rw [I.notin g hg, h.single g r hr]
      constructor
      · rintro ⟨hlen, hm, huniq⟩
        refine ⟨by simp; omega, by rw [List.getElem_append_left hlen]; exact hm, ?_⟩
        intro r' h' hm'
        by_cases hr' : r' < done.length
        · rw [List.getElem_append_left hr'] at hm'; exact huniq r' hr' hm'
        · have : r' = done.length := by simp at h'; omega
          subst this
          simp at hm'; exact absurd hm' hg
      · rintro ⟨hlen, hm, huniq⟩
        have hr' : r < done.length := by
          by_contra hc'
          have : r = done.length := by simp at hlen; omega
          subst this
          simp at hm; exact absurd hm hg
        refine ⟨hr', by rw [List.getElem_append_left hr'] at hm; exact hm, ?_⟩
        intro r'' h'' hm''
        exact huniq r'' (by simp; omega) (by rw [List.getElem_append_left h'']; exact hm'')
  · omega

theorem outerInv_ranks {n} : ∀ (rest done : List (List Int)) (s : CliqueState), OuterInv n done s →
    done.length + rest.length = n → (∀ l ∈ rest, l.Nodup) →
    OuterInv n (done ++ rest) (cliqueRanks done.length s rest)
  | [], done, s, h, _, _ => by simpa [cliqueRanks] using h
  | l :: rest, done, s, h, hlen, hn => by
    have hs := outerInv_step h (by simp at hlen; omega) (hn l (by simp))
    have := outerInv_ranks rest (done ++ [l]) _ hs (by simp at hlen ⊢; omega) (fun l' hl' => hn l' (by simp [hl']))
    simpa [cliqueRanks] using this

theorem outerInv_fill (ids : List (List Int)) (hn : ∀ l ∈ ids, l.Nodup) :
    OuterInv ids.length ids (fillCliqueLookup ids) := by
  have := outerInv_ranks ids [] _ (outerInv_init ids.length) (by simp) hn
  simpa [fillCliqueLookup] using this

end NimbleSM.Mpi
