import Verif.Tensor.LULemmas
import Mathlib.Data.Rat.Defs
import Mathlib.Algebra.Order.Ring.Rat
import Mathlib.Algebra.Order.Field.Rat
import Mathlib.Tactic.NormNum
import Mathlib.Tactic.FinCases

/-!
# C16 / C17: LU factorisation and solve

`IsSolution n A x b` is the specification: `A x = b`, row by row.  `LU_Decompose` writes only
indices below `n`, so everything is stated for rows and columns `< n`.
-/

namespace NimbleSM.LU

open Finset

set_option linter.unusedSectionVars false

variable {K : Type*} [Field K] [LinearOrder K] [IsStrictOrderedRing K]

/-- Specification: `x` solves the `n × n` system `A x = b`. -/
def IsSolution (n : ℕ) (A : ℕ → ℕ → K) (x b : ℕ → K) : Prop :=
  ∀ r, r < n → ∑ c ∈ range n, A r c * x c = b r

/-- Specification: `A` is a nonsingular `n × n` matrix. -/
def Nonsingular (n : ℕ) (A : ℕ → ℕ → K) : Prop :=
  (Matrix.of fun (r c : Fin n) => A r c).det ≠ 0

theorem forward_spec (n : ℕ) (m : ℕ → ℕ → K) (index : ℕ → ℕ) (b : ℕ → K)
    (hidx : ∀ c, c < n → c ≤ index c ∧ index c < n) (i : ℕ) (hi : i ≤ n) :
    let v := (List.range i).foldl (forwardStep m index) b
    (∀ k, k < i → v k + ∑ l ∈ range k, m k l * v l = b (perm index i k)) ∧
    (∀ k, i ≤ k → v k = b (perm index i k)) := by
  induction i with
  | zero => simp [perm]
  | succ i ih =>
    obtain ⟨h1, h2⟩ := ih (by omega)
    rw [List.range_succ, List.foldl_append]
    simp only [List.foldl_cons, List.foldl_nil]
    generalize (List.range i).foldl (forwardStep m index) b = v at *
    obtain ⟨hge, hlt⟩ := hidx i (by omega)
    have hsum : (List.range i).foldl
        (fun sum j => sum - m i j * set1 v (index i) (v i) j) (v (index i))
        = v (index i) - ∑ l ∈ range i, m i l * v l := by
      rw [foldl_sub_eq (fun j => m i j * set1 v (index i) (v i) j)]
      congr 1
      apply sum_congr rfl
      intro l hl
      have hl' := mem_range.mp hl
      simp only [set1]; rw [if_neg (by omega)]
    have hsmall : ∀ l, l < i → forwardStep m index v i l = v l := by
      intro l hl
      simp only [forwardStep, set1]; rw [if_neg (by omega), if_neg (by omega)]
    have hself : forwardStep m index v i i = v (index i) - ∑ l ∈ range i, m i l * v l := by
      simp only [forwardStep]
      rw [hsum]; simp [set1]
    have hbig : ∀ k, i < k → forwardStep m index v i k = v (Equiv.swap i (index i) k) := by
      intro k hk
      simp only [forwardStep, set1]
      rw [if_neg (by omega)]
      split
      · rename_i h; rw [h]; simp
      · rename_i h; rw [Equiv.swap_apply_of_ne_of_ne (by omega) h]
    constructor
    · intro k hk
      simp only [perm, Equiv.Perm.mul_apply]
      rcases Nat.lt_or_ge k i with hki | hki
      · rw [hsmall k hki, Equiv.swap_apply_of_ne_of_ne (by omega) (by omega), ← h1 k hki]
        congr 1
        apply sum_congr rfl
        intro l hl
        have hl' := mem_range.mp hl
        rw [hsmall l (by omega)]
      · have : k = i := by omega
        subst this
        rw [hself, Equiv.swap_apply_left, ← h2 (index k) hge]
        have : ∑ l ∈ range k, m k l * forwardStep m index v k l = ∑ l ∈ range k, m k l * v l := by
          apply sum_congr rfl
          intro l hl
          rw [hsmall l (mem_range.mp hl)]
        rw [this]; ring
    · intro k hk
      simp only [perm, Equiv.Perm.mul_apply]
      rw [hbig k (by omega), h2]
      by_cases h : k = index i
      · rw [h]; simp
      · rw [Equiv.swap_apply_of_ne_of_ne (by omega) h]; omega

theorem back_spec (n : ℕ) (m : ℕ → ℕ → K) (y : ℕ → K) (hp : ∀ c, c < n → m c c ≠ 0)
    (c : ℕ) (hc : c ≤ n) (v : ℕ → K)
    (h1 : ∀ k, c ≤ k → k < n → y k = ∑ l ∈ Ico k n, m k l * v l)
    (h2 : ∀ k, k < c → v k = y k) :
    ∀ k, k < n → y k = ∑ l ∈ Ico k n, m k l * ((List.range c).reverse.foldl (backStep n m) v) l := by
  induction c generalizing v with
  | zero => intro k hk; simpa using h1 k (Nat.zero_le _) hk
  | succ c ih =>
    rw [List.range_succ, List.reverse_append]
    simp only [List.reverse_cons, List.reverse_nil, List.nil_append, List.singleton_append,
      List.foldl_cons]
    have hother : ∀ k, k ≠ c → backStep n m v c k = v k := by
      intro k hk; simp [backStep, set1, hk]
    have hself : backStep n m v c c
        = (v c - ∑ l ∈ Ico (c + 1) n, m c l * v l) / m c c := by
      simp only [backStep, set1, if_true]
      rw [foldl_sub_range' (fun j => m c j * v j), sum_Ico_eq_sum_range]
    apply ih (by omega)
    · intro k hk hkn
      rcases Nat.lt_or_ge c k with hck | hck
      · rw [h1 k (by omega) hkn]
        apply sum_congr rfl
        intro l hl
        have := mem_Ico.mp hl
        rw [hother l (by omega)]
      · have : k = c := by omega
        subst this
        rw [sum_eq_sum_Ico_succ_bot hkn, hself]
        have e : ∑ l ∈ Ico (k + 1) n, m k l * backStep n m v k l
            = ∑ l ∈ Ico (k + 1) n, m k l * v l := by
          apply sum_congr rfl
          intro l hl
          have := mem_Ico.mp hl
          rw [hother l (by omega)]
        rw [e, mul_div_cancel₀ _ (hp k hkn), h2 k (by omega)]
        ring
    · intro k hk
      rw [hother k (by omega), h2 k (by omega)]

/-- The factors and the permutation of a finished factorisation reproduce the matrix, hence the
solve is exact. -/
theorem solve_of_inv (n : ℕ) (A : ℕ → ℕ → K) (s : State K) (I : Inv n A n s) (b : ℕ → K) :
    IsSolution n A (luSolve n s.m b s.index) b := by
  obtain ⟨f1, -⟩ := forward_spec n s.m s.index b (fun c hc => I.index_ge c hc) n le_rfl
  have hb := back_spec n s.m ((List.range n).foldl (forwardStep s.m s.index) b)
    (fun c hc => I.pivot c hc) n le_rfl ((List.range n).foldl (forwardStep s.m s.index) b)
    (fun k hk hkn => by omega) (fun k _ => rfl)
  change ∀ k, k < n → _ = ∑ l ∈ Ico k n, s.m k l * (luSolve n s.m b s.index) l at hb
  generalize luSolve n s.m b s.index = x at *
  generalize (List.range n).foldl (forwardStep s.m s.index) b = y at *
  intro r hr
  set i := (perm s.index n).symm r with hi_def
  have hri : perm s.index n i = r := by simp [hi_def]
  have hi : i < n := by
    rw [← perm_lt n s.index n le_rfl (fun c hc => (I.index_ge c hc).2) i, hri]; exact hr
  rw [← hri, ← f1 i hi]
  -- product of the factors
  let L : ℕ → K := fun k => if k < i then s.m i k else if k = i then 1 else 0
  have hA : ∀ c, c < n → A (perm s.index n i) c
      = ∑ k ∈ range n, L k * (if k ≤ c then s.m k c else 0) := by
    intro c hc
    have cut : ∀ d, d ≤ n → (∀ k, d ≤ k → k < n → L k * (if k ≤ c then s.m k c else 0) = 0) →
        ∑ k ∈ range n, L k * (if k ≤ c then s.m k c else 0)
          = ∑ k ∈ range d, L k * (if k ≤ c then s.m k c else 0) := by
      intro d hd hz
      symm
      apply sum_subset (by intro x hx; simp at hx ⊢; omega)
      intro k hk hk'
      simp at hk hk'
      exact hz k hk' hk
    rcases Nat.lt_or_ge c i with hci | hci
    · rw [I.lower i c hi hc hci, cut (c + 1) (by omega) (fun k hk _ => by
          rw [if_neg (by omega), mul_zero]), sum_range_succ, if_pos le_rfl]
      have : L c = s.m i c := by simp [L, hci]
      rw [this]
      congr 1
      apply sum_congr rfl
      intro k hk
      have hk' := mem_range.mp hk
      have : L k = s.m i k := by simp only [L]; rw [if_pos (by omega)]
      rw [if_pos (by omega), this]
    · rw [I.upper i c hi hc hci, cut (i + 1) (by omega) (fun k hk _ => by
          have : L k = 0 := by simp only [L]; rw [if_neg (by omega), if_neg (by omega)]
          rw [this, zero_mul]), sum_range_succ, if_pos hci]
      have : L i = 1 := by simp [L]
      rw [this, one_mul]
      congr 1
      apply sum_congr rfl
      intro k hk
      have hk' := mem_range.mp hk
      have : L k = s.m i k := by simp only [L]; rw [if_pos (by omega)]
      rw [if_pos (by omega), this]
  calc ∑ c ∈ range n, A (perm s.index n i) c * x c
      = ∑ c ∈ range n, (∑ k ∈ range n, L k * (if k ≤ c then s.m k c else 0)) * x c := by
        apply sum_congr rfl
        intro c hc
        rw [hA c (mem_range.mp hc)]
    _ = ∑ k ∈ range n, L k * ∑ c ∈ range n, (if k ≤ c then s.m k c else 0) * x c := by
        simp only [sum_mul, mul_sum]
        rw [sum_comm]
        apply sum_congr rfl; intro k _
        apply sum_congr rfl; intro c _
        ring
    _ = ∑ k ∈ range n, L k * y k := by
        apply sum_congr rfl
        intro k hk
        have hk' := mem_range.mp hk
        rw [hb k hk']
        congr 1
        rw [range_eq_Ico, ← sum_Ico_consecutive _ (Nat.zero_le k) hk'.le]
        have z : ∑ c ∈ Ico 0 k, (if k ≤ c then s.m k c else 0) * x c = 0 := by
          apply sum_eq_zero
          intro c hc
          have := mem_Ico.mp hc
          rw [if_neg (by omega), zero_mul]
        rw [z, zero_add]
        apply sum_congr rfl
        intro c hc
        have := mem_Ico.mp hc
        rw [if_pos (by omega)]
    _ = y i + ∑ k ∈ range i, s.m i k * y k := by
        have : ∑ k ∈ range n, L k * y k = ∑ k ∈ range (i + 1), L k * y k := by
          symm
          apply sum_subset (by intro x hx; simp at hx ⊢; omega)
          intro k hk hk'
          simp at hk hk'
          have : L k = 0 := by simp only [L]; rw [if_neg (by omega), if_neg (by omega)]
          rw [this, zero_mul]
        rw [this, sum_range_succ, add_comm]
        congr 1
        · simp [L]
        · apply sum_congr rfl
          intro k hk
          have : L k = s.m i k := by simp only [L]; rw [if_pos (mem_range.mp hk)]
          rw [this]

/-- The run of the first `j` columns. -/
def columnsRun (n : ℕ) (tiny : K) (s0 : State K) (j : ℕ) : Option (State K) :=
  (List.range j).foldl (fun r j => r.bind fun s => column n tiny s j) (some s0)

theorem columnsRun_succ (n : ℕ) (tiny : K) (s0 : State K) (j : ℕ) :
    columnsRun n tiny s0 (j + 1) = (columnsRun n tiny s0 j).bind fun s => column n tiny s j := by
  simp [columnsRun, List.range_succ, List.foldl_append]

/-- Later columns never rewrite `index[c]`. -/
theorem columnsRun_index (n : ℕ) (tiny : K) (s0 : State K) (j k : ℕ) (s s' : State K)
    (h : columnsRun n tiny s0 j = some s) (h' : columnsRun n tiny s0 (j + k) = some s') :
    ∀ c, c < j → s'.index c = s.index c := by
  induction k generalizing s' with
  | zero =>
    rw [Nat.add_zero, h] at h'
    simp only [Option.some.injEq] at h'
    subst h'; intro c _; rfl
  | succ k ih =>
    rw [← Nat.add_assoc, columnsRun_succ] at h'
    obtain ⟨t, ht, hcol⟩ := Option.bind_eq_some_iff.mp h'
    intro c hc
    rw [(column_index n tiny t s' (j + k) hcol).1, ← ih t ht c hc]
    simp only [set1]; rw [if_neg (by omega)]

theorem inv_init (n : ℕ) (hn : 0 < n) (A : ℕ → ℕ → K) (vv : ℕ → K) (index : ℕ → ℕ)
    (hvv : ∀ i, i < n → 0 < vv i) : Inv n A 0 ⟨A, vv, 0, index⟩ :=
  ⟨fun i c _ _ _ => by simp [perm], fun i c _ h => by omega, fun i c _ h => by omega,
   fun c h => by omega, fun c h => by omega, hvv, hn⟩

theorem columnsRun_inv (n : ℕ) (tiny : K) (ht : 0 < tiny) (A : ℕ → ℕ → K) (s0 : State K)
    (I0 : Inv n A 0 s0) (j : ℕ) (hj : j ≤ n) (s : State K) (h : columnsRun n tiny s0 j = some s)
    (hge : ∀ c, c < j → c ≤ s.index c) : Inv n A j s := by
  induction j generalizing s with
  | zero => simp [columnsRun] at h; subst h; exact I0
  | succ j ih =>
    rw [columnsRun_succ] at h
    obtain ⟨t, ht', hcol⟩ := Option.bind_eq_some_iff.mp h
    obtain ⟨hix, -⟩ := column_index n tiny t s j hcol
    have It : Inv n A j t := ih (by omega) t ht' (fun c hc => by
      have := hge c (by omega)
      rw [hix] at this
      simp only [set1] at this
      rwa [if_neg (by omega)] at this)
    apply column_inv n tiny ht A j (by omega) t s It _ hcol
    have := hge j (by omega)
    rw [hix] at this
    simpa [set1] using this

/-- For a nonsingular matrix every column finds a pivot at or below the diagonal. -/
theorem columnsRun_ge_of_nonsingular (n : ℕ) (tiny : K) (ht : 0 < tiny) (A : ℕ → ℕ → K)
    (hA : Nonsingular n A) (s0 : State K)
    (I0 : Inv n A 0 s0) (j : ℕ) (hj : j ≤ n) (s : State K) (h : columnsRun n tiny s0 j = some s) :
    ∀ c, c < j → c ≤ s.index c := by
  induction j generalizing s with
  | zero => intro c hc; omega
  | succ j ih =>
    rw [columnsRun_succ] at h
    obtain ⟨t, ht', hcol⟩ := Option.bind_eq_some_iff.mp h
    obtain ⟨hix, -⟩ := column_index n tiny t s j hcol
    have hgt := ih (by omega) t ht'
    have It := columnsRun_inv n tiny ht A s0 I0 j (by omega) t ht' hgt
    intro c hc
    rw [hix]
    simp only [set1]
    split
    · rename_i hcj
      subst hcj
      obtain ⟨-, -, l3, l4⟩ := lowerPart_spec n c (by omega) t.vv (upperPart c t.m) t.imax
      change ∀ a, c ≤ a → a < n → t.vv a * |(mid n t c).1 a c| ≤ (mid n t c).2.1 at l3
      change ((mid n t c).2.1 = 0 ∧ (mid n t c).2.2 = t.imax) ∨
        (0 < (mid n t c).2.1 ∧ c ≤ (mid n t c).2.2 ∧ _) at l4
      rcases l4 with ⟨h0, -⟩ | ⟨-, h, -⟩
      · exfalso
        apply hA
        apply det_zero_of_no_pivot n A c (by omega) t It
        intro a ha han
        have h1 := l3 a ha han
        rw [h0] at h1
        have h2 := It.vv_pos a han
        by_contra hne
        have : 0 < t.vv a * |(mid n t c).1 a c| := mul_pos h2 (abs_pos.mpr hne)
        linarith
      · exact h
    · exact hgt c (by omega)

/-- **C16.**  If `LU_Decompose` completes on a nonsingular matrix, then the permutation array it
returns only exchanges a row with itself or a later one, and `LU_Solve` with the returned factors
and permutation returns the solution of `A x = b`, for every size, matrix and right-hand side. -/
theorem lu_solve_correct (n : ℕ) (tiny : K) (ht : 0 < tiny) (A : ℕ → ℕ → K)
    (hA : Nonsingular n A) (index0 : ℕ → ℕ) (lu : ℕ → ℕ → K) (index : ℕ → ℕ)
    (h : luDecompose n tiny A index0 = some (lu, index)) :
    (∀ c, c < n → c ≤ index c ∧ index c < n) ∧
    ∀ b, IsSolution n A (luSolve n lu b index) b := by
  rcases Nat.eq_zero_or_pos n with hn | hn
  · subst hn; exact ⟨fun c hc => by omega, fun b r hr => by omega⟩
  unfold luDecompose at h
  obtain ⟨vv, hvv, h⟩ := Option.bind_eq_some_iff.mp h
  obtain ⟨s, hs, he⟩ := Option.map_eq_some_iff.mp h
  simp only [Prod.mk.injEq] at he
  obtain ⟨rfl, rfl⟩ := he
  have I0 := inv_init n hn A vv index0 (rowScaling_pos n tiny ht A vv hvv)
  have hge := columnsRun_ge_of_nonsingular n tiny ht A hA _ I0 n le_rfl s hs
  have I := columnsRun_inv n tiny ht A _ I0 n le_rfl s hs hge
  exact ⟨fun c hc => I.index_ge c hc, fun b => solve_of_inv n A s I b⟩

/-- **C16**, `LU_SolveSystem`. -/
theorem lu_solveSystem_correct (n : ℕ) (tiny : K) (ht : 0 < tiny) (A : ℕ → ℕ → K)
    (hA : Nonsingular n A) (scratch : ℕ → ℕ) (b x : ℕ → K)
    (h : luSolveSystem n tiny A b scratch = some x) : IsSolution n A x b := by
  unfold luSolveSystem at h
  obtain ⟨⟨lu, index⟩, h1, h2⟩ := Option.map_eq_some_iff.mp h
  simp only at h2
  subst h2
  exact (lu_solve_correct n tiny ht A hA scratch lu index h1).2 b

/-- **C17, part that holds.**  If `LU_Decompose` completes and every entry of the returned
permutation array points at or below the diagonal, then the matrix is nonsingular.  (Missing for
the full property: the side condition on the permutation, which the code does not enforce.) -/
theorem lu_completes_nonsingular_partial (n : ℕ) (tiny : K) (ht : 0 < tiny) (A : ℕ → ℕ → K)
    (index0 : ℕ → ℕ) (lu : ℕ → ℕ → K) (index : ℕ → ℕ)
    (h : luDecompose n tiny A index0 = some (lu, index)) (hge : ∀ c, c < n → c ≤ index c) :
    Nonsingular n A := by
  rcases Nat.eq_zero_or_pos n with hn | hn
  · subst hn; simp [Nonsingular]
  unfold luDecompose at h
  obtain ⟨vv, hvv, h⟩ := Option.bind_eq_some_iff.mp h
  obtain ⟨s, hs, he⟩ := Option.map_eq_some_iff.mp h
  simp only [Prod.mk.injEq] at he
  obtain ⟨rfl, rfl⟩ := he
  have I0 := inv_init n hn A vv index0 (rowScaling_pos n tiny ht A vv hvv)
  have I := columnsRun_inv n tiny ht A _ I0 n le_rfl s hs hge
  -- `A` is onto, hence nonsingular
  intro hdet
  obtain ⟨v, hv0, hv⟩ := Matrix.exists_vecMul_eq_zero_iff.mpr hdet
  apply hv0
  funext r
  have hsol := solve_of_inv n A s I (fun k => if k = r then 1 else 0)
  generalize luSolve n s.m _ s.index = x at hsol
  have h1 : ∑ q : Fin n, v q * ∑ c : Fin n, A q c * x c = v r := by
    have : ∀ q : Fin n, ∑ c : Fin n, A q c * x c = if q = r then 1 else 0 := by
      intro q
      rw [Fin.sum_univ_eq_sum_range (fun c => A q c * x c) n, hsol q q.2]
      simp [Fin.ext_iff]
    simp [this]
  have h2 : ∑ q : Fin n, v q * ∑ c : Fin n, A q c * x c
      = ∑ c : Fin n, (Matrix.vecMul v (Matrix.of fun (r c : Fin n) => A r c)) c * x c := by
    simp only [Matrix.vecMul, dotProduct, Matrix.of_apply, mul_sum, sum_mul]
    rw [sum_comm]
    apply sum_congr rfl; intro c _
    apply sum_congr rfl; intro q _
    ring
  rw [hv] at h2
  simp at h2
  simp only [Pi.zero_apply]
  rw [← h1, h2]

/-- **C17, part that holds.**  A matrix with a zero row is always reported. -/
theorem lu_zero_row_reported_partial (n : ℕ) (tiny : K) (ht : 0 < tiny) (A : ℕ → ℕ → K)
    (index0 : ℕ → ℕ) (i : ℕ) (hi : i < n) (hz : ∀ j, j < n → A i j = 0) :
    luDecompose n tiny A index0 = none := by
  have hmax : rowMax n A i = 0 := by
    unfold rowMax
    have gen : ∀ c, c ≤ n → (List.range c).foldl
        (fun big j => if |A i j| > big then |A i j| else big) 0 = 0 := by
      intro c
      induction c with
      | zero => simp
      | succ c ih =>
        intro hc
        rw [List.range_succ, List.foldl_append, ih (by omega)]
        simp [hz c (by omega)]
    exact gen n le_rfl
  have hnone : rowScaling n tiny A = none := by
    unfold rowScaling
    have gen : ∀ c, i < c → (List.range c).foldl
        (fun (r : Option (ℕ → K)) i => r.bind fun vv =>
          let big := rowMax n A i
          if big < tiny then none else some (set1 vv i (1 / big)))
        (some fun _ => 0) = none := by
      intro c
      induction c with
      | zero => intro h; omega
      | succ c ih =>
        intro hc
        rw [List.range_succ, List.foldl_append]
        simp only [List.foldl_cons, List.foldl_nil]
        rcases Nat.lt_or_ge i c with h | h
        · rw [ih h]; rfl
        · have : i = c := by omega
          subst this
          rw [hmax, Option.bind_eq_none_iff]
          intro vv _
          simp [ht]
    exact gen n hi
  unfold luDecompose
  rw [hnone]; rfl

/-! ### The full property C17 fails -/

/-- The all-ones 2×2 matrix. -/
def onesMat : ℕ → ℕ → ℚ := fun _ _ => 1

/-- What `LU_Decompose` does with the all-ones matrix: the second column has no pivot, the stale
`imax = 0` exchanges the finished first row back down, and the factorisation completes; then
`LU_SolveSystem` returns a vector although the system is singular. -/
theorem ones_completes :
    (luDecompose 2 (1/10^40 : ℚ) onesMat (fun _ => 0)).map
      (fun r => (r.1 0 0, r.1 0 1, r.1 1 0, r.1 1 1, r.2 0, r.2 1)) =
    some (1, 0, 1, 1, 0, 0) := by
  decide +kernel

/-- **C17 is false for this code**: `LU_Decompose` completes on a singular matrix. -/
theorem lu_singular_not_reported :
    ∃ (n : ℕ) (A : ℕ → ℕ → ℚ), ¬ Nonsingular n A ∧
      (luDecompose n (1/10^40 : ℚ) A (fun _ => 0)).isSome = true := by
  refine ⟨2, onesMat, ?_, ?_⟩
  · simp [Nonsingular, onesMat, Matrix.det_fin_two]
  · have h := ones_completes
    generalize luDecompose 2 (1/10^40 : ℚ) onesMat (fun _ => 0) = r at h ⊢
    cases r with
    | none => simp at h
    | some r => rfl

/-! Non-vacuity of C16: a matrix that needs a row exchange is factored. -/

def exMat : ℕ → ℕ → ℚ := fun i j =>
  if i = 0 then (if j = 0 then 0 else 2) else (if j = 0 then 3 else 1)

example : Nonsingular 2 exMat := by simp [Nonsingular, exMat, Matrix.det_fin_two]

example : (luDecompose 2 (1/10^40 : ℚ) exMat (fun _ => 0)).isSome = true := by
  decide +kernel

example : (luSolveSystem 2 (1/10^40 : ℚ) exMat (fun i => if i = 0 then 4 else 5) (fun _ => 0)).map
    (fun x => (x 0, x 1)) = some (1, 2) := by
  decide +kernel

end NimbleSM.LU
