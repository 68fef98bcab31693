import Verif.Solver.Crs
import Mathlib.Tactic.Linarith
import Mathlib.Tactic.Ring
import Mathlib.Data.List.Lex
import Mathlib.Algebra.BigOperators.Group.List.Basic
import Mathlib.Algebra.BigOperators.Ring.Finset
import Mathlib.Algebra.BigOperators.Group.Finset.Basic

/-! Lemmas on the compressed-row container. -/

namespace NimbleSM.Solver

variable {K : Type*} [Field K]

/-- Row-major order: strictly smaller row, or the same row and a strictly smaller column. -/
def rowMajorLT (a b : ℕ × ℕ) : Prop := a.1 < b.1 ∨ (a.1 = b.1 ∧ a.2 < b.2)

/-- The sparsity patterns `AllocateNonzeros` is meant for: listed in strictly increasing row-major
order, and with no empty row below the last one. -/
structure Admissible (pairs : List (ℕ × ℕ)) : Prop where
  sorted : pairs.Pairwise rowMajorLT
  noEmptyRow : ∀ p ∈ pairs, ∀ r ≤ p.1, ∃ c, (r, c) ∈ pairs

section maxrow

theorem foldl_max_le (l : List ℕ) (a : ℕ) :
    a ≤ l.foldl (fun m i => if i > m then i else m) a ∧
      (∀ x ∈ l, x ≤ l.foldl (fun m i => if i > m then i else m) a) ∧
      (l.foldl (fun m i => if i > m then i else m) a = a ∨
        l.foldl (fun m i => if i > m then i else m) a ∈ l) := by
  induction l generalizing a with
  | nil => simp
  | cons x xs ih =>
    simp only [List.foldl_cons]
    obtain ⟨h1, h2, h3⟩ := ih (if x > a then x else a)
    by_cases hx : x > a
    · simp only [hx, if_true] at h1 h2 h3 ⊢
      refine ⟨by omega, ?_, ?_⟩
      · intro y hy
        rcases List.mem_cons.mp hy with rfl | hy
        · exact h1
        · exact h2 y hy
      · right
        rcases h3 with h3 | h3
        · rw [h3]; exact List.mem_cons_self
        · exact List.mem_cons_of_mem _ h3
    · simp only [hx, if_false] at h1 h2 h3 ⊢
      refine ⟨h1, ?_, ?_⟩
      · intro y hy
        rcases List.mem_cons.mp hy with rfl | hy
        · omega
        · exact h2 y hy
      · rcases h3 with h3 | h3
        · exact Or.inl h3
        · exact Or.inr (List.mem_cons_of_mem _ h3)

theorem le_maxRow {is : List ℕ} {x : ℕ} (h : x ∈ is) : x ≤ maxRow is := (foldl_max_le is 0).2.1 x h

theorem maxRow_mem {is : List ℕ} (h : is ≠ []) : maxRow is ∈ is := by
  rcases (foldl_max_le is 0).2.2 with h0 | h0
  · cases is with
    | nil => exact absurd rfl h
    | cons x xs =>
      have : x ≤ maxRow (x :: xs) := le_maxRow List.mem_cons_self
      have h0' : maxRow (x :: xs) = 0 := h0
      have : x = 0 := by omega
      rw [h0', this]; exact List.mem_cons_self
  · exact h0

end maxrow

theorem resize_length {A : Type*} (l : List A) (n : ℕ) (d : A) : (resize l n d).length = n := by
  simp [resize]; omega

/-! ### `row_first_index_` -/

/-- The rows are weakly increasing along an admissible pattern. -/
theorem Admissible.row_mono {pairs : List (ℕ × ℕ)} (h : Admissible pairs) {p q : ℕ}
    (hpq : p ≤ q) (hq : q < pairs.length) :
    (pairs[p]'(by omega)).1 ≤ (pairs[q]).1 := by
  rcases Nat.lt_or_eq_of_le hpq with hlt | rfl
  · have := List.pairwise_iff_getElem.mp h.sorted p q (by omega) hq hlt
    rcases this with h1 | ⟨h1, _⟩ <;> omega
  · exact le_rfl

theorem Admissible.col_lt {pairs : List (ℕ × ℕ)} (h : Admissible pairs) {p q : ℕ}
    (hpq : p < q) (hq : q < pairs.length) (hr : (pairs[p]'(by omega)).1 = (pairs[q]).1) :
    (pairs[p]'(by omega)).2 < (pairs[q]).2 := by
  have := List.pairwise_iff_getElem.mp h.sorted p q (by omega) hq hpq
  rcases this with h1 | ⟨_, h1⟩ <;> omega

/-- `p` is the position of the first entry of row `r`. -/
def FirstOf (pairs : List (ℕ × ℕ)) (r p : ℕ) : Prop :=
  ∃ h : p < pairs.length, pairs[p].1 = r ∧ ∀ q (hq : q < p), (pairs[q]'(by omega)).1 < r

theorem rowFirst_invariant {pairs : List (ℕ × ℕ)} (hA : Admissible pairs) (rf0 : List ℕ) (N : ℕ)
    (hN : ∀ p ∈ pairs, p.1 < N) (hrf : rf0.length = N + 1) :
    ∀ k ≤ pairs.length,
      let st := (((pairs.map Prod.fst).zipIdx).take k).foldl rowFirstStep (rf0, -1)
      st.1.length = N + 1 ∧
      (∀ hk : 0 < k, ∀ hk' : k - 1 < pairs.length, st.2 = ((pairs[k - 1]).1 : ℤ)) ∧
      (k = 0 → st.2 = -1) ∧
      (∀ r : ℕ, (r : ℤ) ≤ st.2 → ∃ p, st.1[r]? = some p ∧ FirstOf pairs r p) := by
  intro k
  induction k with
  | zero => intro _; refine ⟨by simpa using hrf, by intro h; omega, by simp, ?_⟩
            intro r hr; simp at hr; omega
  | succ k ih =>
    intro hk
    have hk' : k < pairs.length := by omega
    obtain ⟨h1, h2, h3, h4⟩ := ih (by omega)
    have htake : ((pairs.map Prod.fst).zipIdx).take (k + 1)
        = ((pairs.map Prod.fst).zipIdx).take k ++ [((pairs[k]).1, k)] := by
      rw [List.take_add_one]
      congr 1
      simp [List.getElem?_zipIdx, hk']
    simp only [htake, List.foldl_append, List.foldl_cons, List.foldl_nil]
    set st := (((pairs.map Prod.fst).zipIdx).take k).foldl rowFirstStep (rf0, -1) with hst
    have hrowk : (pairs[k]).1 < N := hN _ (List.getElem_mem hk')
    have hcur : ∀ q (hq : q < k), ((pairs[q]'(by omega)).1 : ℤ) ≤ st.2 := by
      intro q hq
      rw [h2 (by omega) (by omega)]
      exact_mod_cast hA.row_mono (by omega) (by omega)
    unfold rowFirstStep
    by_cases hc : ((pairs[k]).1 : ℤ) > st.2
    · simp only [hc, if_true]
      refine ⟨by simpa using h1, by simp, by simp, ?_⟩
      intro r hr
      by_cases hre : r = (pairs[k]).1
      · subst hre
        refine ⟨k, by simp [List.getElem?_set, h1]; omega, hk', rfl, ?_⟩
        intro q hq
        have := hcur q hq
        omega
      · have hr' : (r : ℤ) ≤ st.2 := by
          by_contra hcon
          -- row r occurs somewhere
          obtain ⟨c, hc'⟩ := hA.noEmptyRow _ (List.getElem_mem hk') r (by exact_mod_cast hr)
          obtain ⟨q, hq, hqe⟩ := List.getElem_of_mem hc'
          have hqr : (pairs[q]).1 = r := by rw [hqe]
          rcases Nat.lt_or_ge q k with hlt | hge
          · have := hcur q hlt; omega
          · have := hA.row_mono hge hq; omega
        obtain ⟨p, hp, hf⟩ := h4 r hr'
        refine ⟨p, ?_, hf⟩
        rw [List.getElem?_set_ne (by omega)]; exact hp
    · simp only [hc, if_false]
      refine ⟨h1, ?_, by omega, h4⟩
      intro _ _
      simp only [Nat.add_sub_cancel]
      rcases Nat.eq_zero_or_pos k with hk0 | hk0
      · have := h3 hk0; omega
      · have e := h2 hk0 (by omega)
        have := hA.row_mono (p := k - 1) (q := k) (by omega) hk'
        omega

variable {pairs : List (ℕ × ℕ)}

/-- The container after `AllocateNonzeros` on a pattern. -/
def allocated (old : Crs K) (pairs : List (ℕ × ℕ)) : Crs K :=
  old.allocateNonzeros (pairs.map Prod.fst) (pairs.map Prod.snd)

theorem row_lt_numRows (old : Crs K) {p : ℕ × ℕ} (h : p ∈ pairs) :
    p.1 < (allocated old pairs).numRows := by
  have : p.1 ≤ maxRow (pairs.map Prod.fst) := le_maxRow (List.mem_map_of_mem h)
  simp only [allocated, Crs.allocateNonzeros]; omega

theorem rowFirst_spec (old : Crs K) (hA : Admissible pairs) (hne : pairs ≠ []) :
    (allocated old pairs).rowFirst[(allocated old pairs).numRows]? = some pairs.length ∧
    (allocated old pairs).rowFirst.length = (allocated old pairs).numRows + 1 ∧
    ∀ r < (allocated old pairs).numRows, ∃ p,
      (allocated old pairs).rowFirst[r]? = some p ∧ FirstOf pairs r p := by
  set N := maxRow (pairs.map Prod.fst) + 1 with hN
  have hNr : (allocated old pairs).numRows = N := rfl
  have inv := rowFirst_invariant hA (resize old.rowFirst (N + 1) 0) N
    (fun p hp => by have := row_lt_numRows old hp; rw [hNr] at this; exact this)
    (resize_length _ _ _) pairs.length le_rfl
  have htk : ((pairs.map Prod.fst).zipIdx).take pairs.length = (pairs.map Prod.fst).zipIdx := by
    apply List.take_of_length_le; simp
  rw [htk] at inv
  obtain ⟨h1, h2, _, h4⟩ := inv
  have hrf : (allocated old pairs).rowFirst
      = (((pairs.map Prod.fst).zipIdx.foldl rowFirstStep (resize old.rowFirst (N + 1) 0, -1)).1).set N
          pairs.length := by
    simp only [allocated, Crs.allocateNonzeros, fillRowFirst, List.length_map, hN]
  have hlen : 0 < pairs.length := List.length_pos_of_ne_nil hne
  have hlast : ((pairs[pairs.length - 1]).1 : ℕ) + 1 = N := by
    have hm : maxRow (pairs.map Prod.fst) ∈ pairs.map Prod.fst := maxRow_mem (by simpa using hne)
    obtain ⟨a, ha, hae⟩ := List.mem_map.mp hm
    obtain ⟨q, hq, hqe⟩ := List.getElem_of_mem ha
    have h5 := hA.row_mono (p := q) (q := pairs.length - 1) (by omega) (by omega)
    have h6 : (pairs[pairs.length - 1]).1 ≤ maxRow (pairs.map Prod.fst) :=
      le_maxRow (List.mem_map_of_mem (List.getElem_mem _))
    rw [hqe] at h5
    omega
  rw [hrf, hNr]
  refine ⟨by simp [List.getElem?_set, h1], by simpa using h1, ?_⟩
  intro r hr
  obtain ⟨p, hp, hf⟩ := h4 r (by rw [h2 hlen (by omega)]; omega)
  exact ⟨p, by rw [List.getElem?_set_ne (by omega)]; exact hp, hf⟩

/-- The storage range of a row: exactly the positions of its entries. -/
theorem row_range (old : Crs K) (hA : Admissible pairs) (hne : pairs ≠ []) {r : ℕ}
    (hr : r < (allocated old pairs).numRows) :
    ∃ lo hi, (allocated old pairs).rowFirst[r]? = some lo ∧
      (allocated old pairs).rowFirst[r + 1]? = some hi ∧ lo < hi ∧ hi ≤ pairs.length ∧
      ∀ q (hq : q < pairs.length), (pairs[q]).1 = r ↔ lo ≤ q ∧ q < hi := by
  obtain ⟨hl, _, hf⟩ := rowFirst_spec old hA hne
  obtain ⟨lo, hlo, ⟨hlo', hlor, hlof⟩⟩ := hf r hr
  rcases Nat.lt_or_ge (r + 1) (allocated old pairs).numRows with h | h
  · obtain ⟨hi, hhi, ⟨hhi', hhir, hhif⟩⟩ := hf (r + 1) h
    refine ⟨lo, hi, hlo, hhi, ?_, by omega, ?_⟩
    · by_contra hcon
      have := hA.row_mono (p := hi) (q := lo) (by omega) hlo'
      omega
    · intro q hq
      constructor
      · intro e
        refine ⟨?_, ?_⟩
        · by_contra hcon
          have := hlof q (by omega); omega
        · by_contra hcon
          have := hA.row_mono (p := hi) (q := q) (by omega) hq
          omega
      · rintro ⟨h1, h2⟩
        have := hA.row_mono h1 hq
        have := hhif q h2
        omega
  · have e : r + 1 = (allocated old pairs).numRows := by omega
    refine ⟨lo, pairs.length, hlo, by rw [e]; exact hl, hlo', le_rfl, ?_⟩
    intro q hq
    constructor
    · intro e'
      refine ⟨?_, hq⟩
      by_contra hcon
      have := hlof q (by omega); omega
    · rintro ⟨h1, _⟩
      have h2 := hA.row_mono h1 hq
      have h3 := row_lt_numRows old (List.getElem_mem hq)
      omega

/-! ### The bisection -/

theorem bisect_found (js : List ℕ) (target p : ℕ) (hp : js[p]? = some target) :
    ∀ fuel min max, min ≤ p → p < max → max - min ≤ fuel → max ≤ js.length →
      (∀ a b, min ≤ a → a < b → (hb : b < max) → js.getD a 0 < js.getD b 0) →
      bisect js target fuel min max = .found p := by
  intro fuel
  induction fuel with
  | zero => intro min max h1 h2 h3; omega
  | succ n ih =>
    intro min max h1 h2 h3 h4 hs
    set t := (min + max) / 2 with ht
    have ht1 : min ≤ t := by omega
    have ht2 : t < max := by omega
    have hpd : js.getD p 0 = target := by simp [List.getD_eq_getElem?_getD, hp]
    have hjt : js[t]? = some (js.getD t 0) := by
      have : t < js.length := by omega
      simp [List.getD_eq_getElem?_getD, this]
    unfold bisect
    rw [← ht, hjt]
    simp only
    by_cases he : js.getD t 0 = target
    · rw [if_pos he]
      have : t = p := by
        rcases Nat.lt_trichotomy t p with h | h | h
        · have := hs t p ht1 h h2; omega
        · exact h
        · have := hs p t h1 h ht2; omega
      rw [this]
    · rw [if_neg he]
      by_cases hlt : js.getD t 0 < target
      · rw [if_pos hlt]
        have htp : t < p := by
          rcases Nat.lt_trichotomy t p with h | h | h
          · exact h
          · rw [h] at he; exact absurd hpd he
          · have := hs p t h1 h ht2; omega
        exact ih t max (by omega) h2 (by omega) h4 (fun a b ha hab hb => hs a b (by omega) hab hb)
      · rw [if_neg hlt]
        have htp : p < t := by
          rcases Nat.lt_trichotomy t p with h | h | h
          · have := hs t p ht1 h h2; omega
          · rw [h] at he; exact absurd hpd he
          · exact h
        exact ih min t h1 htp (by omega) (by omega)
          (fun a b ha hab hb => hs a b ha hab (by omega))

theorem bisect_throws (js : List ℕ) (target lo hi : ℕ) (hhi : hi ≤ js.length)
    (hno : ∀ q, lo ≤ q → q < hi → js[q]? ≠ some target) :
    ∀ fuel min max, lo ≤ min → min ≤ max → max ≤ hi → min < hi →
      bisect js target fuel min max = .throws := by
  intro fuel
  induction fuel with
  | zero =>
    intro min max h1 h2 h3 h4
    have ht : (min + max) / 2 < js.length := by omega
    unfold bisect
    simp [ht]
  | succ n ih =>
    intro min max h1 h2 h3 h4
    set t := (min + max) / 2 with ht
    have ht1 : t < hi := by omega
    have hjt : js[t]? = some (js.getD t 0) := by
      have : t < js.length := by omega
      simp [List.getD_eq_getElem?_getD, this]
    have hne : js.getD t 0 ≠ target := by
      intro h
      exact hno t (by omega) ht1 (by rw [hjt, h])
    unfold bisect
    rw [← ht, hjt]
    simp only [hne, if_false]
    split
    · exact ih t max (by omega) (by omega) h3 ht1
    · exact ih min t h1 (by omega) (by omega) h4

theorem findIndex_found (old : Crs K) (hA : Admissible pairs) (p : ℕ) (hp : p < pairs.length) :
    (allocated old pairs).findIndex (pairs[p]).1 (pairs[p]).2 = .found p := by
  have hne : pairs ≠ [] := by rintro rfl; simp at hp
  obtain ⟨lo, hi, h1, h2, h3, h4, h5⟩ := row_range old hA hne (row_lt_numRows old (List.getElem_mem hp))
  unfold Crs.findIndex
  rw [h1, h2]
  simp only
  obtain ⟨hlp, hph⟩ := (h5 p hp).mp rfl
  have hj : (allocated old pairs).jIdx = pairs.map Prod.snd := rfl
  rw [hj]
  refine bisect_found _ _ p (by simp [hp]) _ lo hi hlp hph le_rfl (by simpa using h4) ?_
  intro a b ha hab hb
  have hb' : b < pairs.length := by omega
  have ha' : a < pairs.length := by omega
  have ea := (h5 a ha').mpr ⟨ha, by omega⟩
  have eb := (h5 b hb').mpr ⟨by omega, hb⟩
  have := hA.col_lt hab hb' (by omega)
  simpa [List.getD_eq_getElem?_getD, ha', hb'] using this

theorem findIndex_throws (old : Crs K) (hA : Admissible pairs) {r c : ℕ}
    (hr : r < (allocated old pairs).numRows) (hne : pairs ≠ []) (hc : (r, c) ∉ pairs) :
    (allocated old pairs).findIndex r c = .throws := by
  obtain ⟨lo, hi, h1, h2, h3, h4, h5⟩ := row_range old hA hne hr
  unfold Crs.findIndex
  rw [h1, h2]
  simp only
  have hj : (allocated old pairs).jIdx = pairs.map Prod.snd := rfl
  rw [hj]
  refine bisect_throws _ _ lo hi (by simpa using h4) ?_ _ lo hi le_rfl h3.le le_rfl h3
  intro q hq1 hq2 h
  have hq : q < pairs.length := by omega
  have er := (h5 q hq).mpr ⟨hq1, hq2⟩
  simp only [List.getElem?_map, List.getElem?_eq_getElem hq, Option.map_some, Option.some.injEq] at h
  apply hc
  have : (r, c) = pairs[q] := by rw [← er, ← h]
  rw [this]; exact List.getElem_mem hq

end NimbleSM.Solver
