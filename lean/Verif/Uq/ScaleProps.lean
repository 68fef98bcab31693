import Verif.Uq.Uq
import Mathlib.Algebra.Ring.Rat
import Mathlib.Tactic.Ring
import Mathlib.Tactic.Linarith

/-!
# C52: the parameters of the samples
-/

namespace NimbleSM.Uq

open NimbleSM.Parse NimbleSM.Constitutive
open NimbleSM.Deck (Str atof atoi)

/-- The deviation a row of the sample file gives for a parameter: the sum of the entries in the columns of
that parameter (one column if the parameter was named once). -/
def deviation (order : List (ℤ × Str)) (row : List ℚ) (b : ℤ) (name : Str) : ℚ :=
  ((order.zip row).map fun p => if p.1 = (b, name) then p.2 else 0).sum

theorem scaleOne_spec (u : UqModel) (xi : List (List ℚ)) (i : ℕ) (blk : ℤ) (nm : Str) (s : ℕ) (t : Table)
    {d : DMap} {row : List ℚ} {x : ℚ} (hd : (t blk)[s]? = some d) (hrow : xi[s]? = some row) (hx : row[i]? = some x) :
    scaleOne u xi i blk nm s t = some (fun b => if b = blk then
      (t b).set s (fun n => if n = nm then some ((d nm).getD 0 + u.range blk nm * x) else d n) else t b) := by
  unfold scaleOne
  rw [hd, hrow]
  simp only [Option.bind_eq_bind, Option.bind_some, hx]

theorem scaleSamples_spec (u : UqModel) (xi : List (List ℚ)) (i : ℕ) (blk : ℤ) (nm : Str) (t : Table) (ns : ℕ)
    (hlen : (t blk).length = ns) (hxi : xi.length = ns) (hrow : ∀ row ∈ xi, i < row.length) : ∀ n, n ≤ ns →
    ∃ t', (List.range n).foldlM (fun t s => scaleOne u xi i blk nm s t) t = some t' ∧
      (∀ b, (t' b).length = (t b).length) ∧
      (∀ b s d, (b ≠ blk ∨ n ≤ s) → (t b)[s]? = some d → (t' b)[s]? = some d) ∧
      ∀ s d row, s < n → (t blk)[s]? = some d → xi[s]? = some row →
        (t' blk)[s]? = some (fun m => if m = nm then some ((d nm).getD 0 + u.range blk nm * row.getD i 0) else d m) := by
  intro n
  induction n with
  | zero => intro _; exact ⟨t, rfl, fun _ => rfl, fun _ _ _ _ h => h, fun s _ _ h => absurd h (by omega)⟩
  | succ n ih =>
    intro hn
    obtain ⟨t1, h1, hl1, hk1, hs1⟩ := ih (by omega)
    have hnb : n < (t blk).length := by omega
    have hd : (t blk)[n]? = some ((t blk)[n]) := List.getElem?_eq_getElem hnb
    have hnx : n < xi.length := by omega
    have hr : xi[n]? = some xi[n] := List.getElem?_eq_getElem hnx
    have hri := hrow xi[n] (List.getElem_mem hnx)
    have hx : xi[n][i]? = some xi[n][i] := List.getElem?_eq_getElem hri
    have hd1 := hk1 blk n _ (Or.inr (le_refl n)) hd
    refine ⟨_, by rw [List.range_succ, List.foldlM_append, h1]; simp only [Option.bind_eq_bind, Option.bind_some, List.foldlM_cons, List.foldlM_nil, scaleOne_spec u xi i blk nm n t1 hd1 hr hx]; rfl, ?_, ?_, ?_⟩
    · intro b
      by_cases hb : b = blk
      · subst hb; simp [hl1]
      · simp [hb, hl1]
    · intro b s d hbs hbd
      by_cases hb : b = blk
      · subst hb
        have hs : n + 1 ≤ s := by rcases hbs with h | h <;> [exact absurd rfl h; exact h]
        simp only [if_true]
        rw [List.getElem?_set_ne (by omega)]
        exact hk1 b s d (Or.inr (by omega)) hbd
      · simp only [hb, if_false]
        exact hk1 b s d (Or.inl hb) hbd
    · intro s d row hs hsd hsr
      simp only [if_true]
      by_cases hsn : s = n
      · subst hsn
        rw [List.getElem?_set_self (by rw [hl1]; exact hnb)]
        rw [hd] at hsd
        rw [hr] at hsr
        cases hsd
        cases hsr
        simp only [List.getD_eq_getElem?_getD, hx, Option.getD_some]
      · rw [List.getElem?_set_ne (by omega)]
        exact hs1 s d row (by omega) hsd hsr

theorem deviation_cons (e : ℤ × Str) (rest : List (ℤ × Str)) (row : List ℚ) (i : ℕ) (h : i < row.length) (b : ℤ) (name : Str) :
    deviation (e :: rest) (row.drop i) b name =
      (if e = (b, name) then row.getD i 0 else 0) + deviation rest (row.drop (i + 1)) b name := by
  unfold deviation
  conv_lhs => rw [List.drop_eq_getElem_cons h]
  simp only [List.zip_cons_cons, List.map_cons, List.sum_cons]
  simp [List.getD_eq_getElem?_getD, List.getElem?_eq_getElem h]

theorem deviation_absent {order : List (ℤ × Str)} {row : List ℚ} {b : ℤ} {name : Str} (h : (b, name) ∉ order) :
    deviation order row b name = 0 := by
  unfold deviation
  induction order generalizing row with
  | nil => simp
  | cons e order ih =>
    cases row with
    | nil => simp
    | cons x row =>
      simp only [List.mem_cons, not_or] at h
      simp only [List.zip_cons_cons, List.map_cons, List.sum_cons, ih h.2, add_zero]
      rw [if_neg (fun he => h.1 he.symm)]

theorem scaleLoop_spec (u : UqModel) (xi : List (List ℚ)) (ns : ℕ) (hxi : xi.length = ns) :
    ∀ (rest : List (ℤ × Str)) (i : ℕ) (t : Table), (∀ e ∈ rest, (t e.1).length = ns) →
      (∀ row ∈ xi, i + rest.length ≤ row.length) →
      ∃ t', scaleLoop u xi ns i rest t = some t' ∧ (∀ b, (t' b).length = (t b).length) ∧
        ∀ (b : ℤ) (s : ℕ) (d : DMap) (row : List ℚ), (t b)[s]? = some d → xi[s]? = some row → ∃ d' : DMap, (t' b)[s]? = some d' ∧
          ∀ name, d' name = if (b, name) ∈ rest then
            some ((d name).getD 0 + u.range b name * deviation rest (row.drop i) b name) else d name := by
  intro rest
  induction rest with
  | nil => intro i t _ _; exact ⟨t, rfl, fun _ => rfl, fun b s d row hd _ => ⟨d, hd, fun name => by simp⟩⟩
  | cons e rest ih =>
    obtain ⟨blk, nm⟩ := e
    intro i t ht hrow
    obtain ⟨t1, h1, hl1, hk1, hs1⟩ := scaleSamples_spec u xi i blk nm t ns (ht (blk, nm) (by simp)) hxi
      (fun row hr => by have := hrow row hr; simp at this; omega) ns le_rfl
    obtain ⟨t2, h2, hl2, hs2⟩ := ih (i + 1) t1 (fun e he => by rw [hl1]; exact ht e (by simp [he]))
      (fun row hr => by have := hrow row hr; simp at this; omega)
    refine ⟨t2, by simp only [scaleLoop, h1, Option.bind_eq_bind, Option.bind_some, h2], fun b => by rw [hl2, hl1], ?_⟩
    intro b s d row hd hr
    have hs : s < ns := by rw [← hxi]; exact (List.getElem?_eq_some_iff.1 hr).1
    have hir : i < row.length := by
      have := hrow row (List.mem_of_getElem? hr); simp at this; omega
    by_cases hb : b = blk
    · subst hb
      obtain ⟨d', hd', hv⟩ := hs2 b s _ row (hs1 s d row hs hd hr) hr
      refine ⟨d', hd', fun name => ?_⟩
      rw [hv name, deviation_cons (b, nm) rest row i hir b name]
      by_cases hn : name = nm
      · subst hn
        simp only [List.mem_cons, true_or, if_true, Option.getD_some]
        by_cases hm : (b, name) ∈ rest
        · simp only [hm, if_true, mul_add]
          congr 1
          ring
        · rw [if_neg hm, deviation_absent hm]
          simp
      · have hne : (b, nm) ≠ (b, name) := by simpa using fun h => hn h.symm
        simp only [if_neg hn, if_neg hne, zero_add, List.mem_cons]
        by_cases hm : (b, name) ∈ rest
        · simp only [hm, if_true, or_true]
        · rw [if_neg hm, if_neg]
          rintro (h | h)
          · exact hne h.symm
          · exact hm h
    · obtain ⟨d', hd', hv⟩ := hs2 b s d row (hk1 b s d (Or.inl hb) hd) hr
      refine ⟨d', hd', fun name => ?_⟩
      have hne : (blk, nm) ≠ (b, name) := by simp; intro h; exact absurd h.symm hb
      rw [hv name, deviation_cons (blk, nm) rest row i hir b name, if_neg hne, zero_add]
      simp only [List.mem_cons]
      by_cases hm : (b, name) ∈ rest
      · simp only [hm, if_true, or_true]
      · rw [if_neg hm, if_neg]
        rintro (h | h)
        · exact hne h.symm
        · exact hm h

/-- The shape of what `ReadSamples` stores. -/
structure Samples.Shape (r : Samples) (nparameters : ℕ) : Prop where
  samples : r.xi.length = r.nexact + r.napprox
  columns : ∀ row ∈ r.xi, row.length = nparameters
  coeffs : r.coeff.length = r.napprox
  coeffColumns : ∀ row ∈ r.coeff, row.length = r.nexact + 1

/-- **C52**, with repeated names allowed: each parameter of each sample is its nominal value plus its range
times the sum of the sample's entries in the columns of that parameter; parameters never named keep their
nominal value; a named parameter without a nominal value counts from zero. -/
theorem scaled_parameters (u : UqModel) (r : Samples) (hr : r.Shape u.order.length)
    (hnom : ∀ e ∈ u.order, (u.nominal e.1).isSome) :
    ∃ t, scaleParameters u r = some t ∧
      ∀ b d, u.nominal b = some d → ∀ s row, r.xi[s]? = some row →
        ∃ d', parameters t b s = some d' ∧ ∀ name, d' name =
          if (b, name) ∈ u.order then some ((d name).getD 0 + u.range b name * deviation u.order row b name) else d name := by
  have hxi : r.xi.length = r.napprox + r.nexact := by rw [hr.samples]; omega
  obtain ⟨t, ht, -, hv⟩ := scaleLoop_spec u r.xi (r.napprox + r.nexact) hxi u.order 0
    (initialTable u (r.napprox + r.nexact))
    (fun e he => by
      obtain ⟨d, hd⟩ := Option.isSome_iff_exists.1 (hnom e he)
      simp [initialTable, hd])
    (fun row hrow => by rw [hr.columns row hrow]; omega)
  refine ⟨t, ht, fun b d hd s row hrow => ?_⟩
  have hs : s < r.napprox + r.nexact := by rw [← hxi]; exact (List.getElem?_eq_some_iff.1 hrow).1
  obtain ⟨d', hd', hval⟩ := hv b s d row (by simp [initialTable, hd, hs]) hrow
  exact ⟨d', hd', by simpa using hval⟩

theorem deviation_unique {order : List (ℤ × Str)} (hn : order.Nodup) {row : List ℚ} {i : ℕ} {b : ℤ} {name : Str}
    {x : ℚ} (hi : order[i]? = some (b, name)) (hx : row[i]? = some x) : deviation order row b name = x := by
  induction order generalizing row i with
  | nil => simp at hi
  | cons e order ih =>
    cases row with
    | nil => simp at hx
    | cons y row =>
      have hcons : deviation (e :: order) (y :: row) b name = (if e = (b, name) then y else 0) + deviation order row b name := by
        simp [deviation]
      rw [hcons]
      rw [List.nodup_cons] at hn
      cases i with
      | zero =>
        simp only [List.getElem?_cons_zero, Option.some.injEq] at hi hx
        subst hi hx
        rw [if_pos rfl, deviation_absent hn.1, add_zero]
      | succ i =>
        simp only [List.getElem?_cons_succ] at hi hx
        have hm : (b, name) ∈ order := List.mem_of_getElem? hi
        rw [if_neg (by rintro rfl; exact hn.1 hm), zero_add, ih hn.2 hi hx]

/-- **C52.**  When no parameter is named twice, sample `s` of parameter number `i` is nominal plus range times
the entry in column `i`, and every parameter that is not named keeps its nominal value. -/
theorem scaled_parameters_distinct (u : UqModel) (r : Samples) (hr : r.Shape u.order.length)
    (hnom : ∀ e ∈ u.order, (u.nominal e.1).isSome) (hdist : u.order.Nodup) :
    ∃ t, scaleParameters u r = some t ∧
      ∀ b d, u.nominal b = some d → ∀ s row, r.xi[s]? = some row →
        ∃ d', parameters t b s = some d' ∧
          (∀ (i : ℕ) (name : Str) (x p0 : ℚ), u.order[i]? = some (b, name) → row[i]? = some x → d name = some p0 →
            d' name = some (p0 + u.range b name * x)) ∧
          ∀ name, (∀ i : ℕ, u.order[i]? ≠ some (b, name)) → d' name = d name := by
  obtain ⟨t, ht, h⟩ := scaled_parameters u r hr hnom
  refine ⟨t, ht, fun b d hd s row hrow => ?_⟩
  obtain ⟨d', hd', hv⟩ := h b d hd s row hrow
  refine ⟨d', hd', fun i name x p0 hi hx hp => ?_, fun name hi => ?_⟩
  · rw [hv name, if_pos (List.mem_of_getElem? hi), deviation_unique hdist hi hx, hp]
    rfl
  · rw [hv name, if_neg]
    intro hm
    obtain ⟨i, hi'⟩ := List.mem_iff_getElem?.1 hm
    exact hi i hi'

/-- The names must be distinct: named twice, with ranges 1 and 3, a parameter moves by three times the sum
of both columns. -/
theorem repeated_parameter :
    (match parseRanges 1 (split "k 1 k 3".toList) { nominal := fun _ => some fun _ => some 100 } with
      | .ok u => ((scaleParameters u ⟨1, 0, [[10, 20]], []⟩).bind fun t => parameters t 1 0).bind fun d => d "k".toList
      | _ => none) = some (100 + 3 * (10 + 20)) := by decide +kernel

/-- Two blocks, three parameters, two samples: the hypotheses can be met. -/
def demoModel : UqModel where
  order := [(1, "k".toList), (1, "g".toList), (2, "k".toList)]
  range := fun b n => if b = 1 then (if n = "k".toList then 2 else 3) else 5
  nominal := fun b => if b = 1 then some fun _ => some 100 else if b = 2 then some fun _ => some 200 else none

def demoSamples : Samples := ⟨1, 1, [[1, 2, 3], [-1, 0, 1 / 2]], [[1/2, 1/2]]⟩

example : demoSamples.Shape demoModel.order.length ∧ (∀ e ∈ demoModel.order, (demoModel.nominal e.1).isSome) ∧
    demoModel.order.Nodup := by
  refine ⟨⟨rfl, ?_, rfl, ?_⟩, ?_, by decide⟩
  · intro row h; simp [demoSamples] at h; rcases h with rfl | rfl <;> rfl
  · intro row h; simp [demoSamples] at h; subst h; rfl
  · intro e h; simp [demoModel] at h; rcases h with rfl | rfl | rfl <;> simp [demoModel]

example : ((scaleParameters demoModel demoSamples).bind fun t => parameters t 2 1).bind (fun d => d "k".toList) = some (405 / 2) := by
  decide +kernel

end NimbleSM.Uq
