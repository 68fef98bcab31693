import Verif.Element.HexProps
import Mathlib.Data.Finset.Lattice.Fold
import Mathlib.Data.Finset.Prod
import Mathlib.Analysis.Real.Sqrt

/-!
# C28: the characteristic length of a hexahedron

`ComputeCharacteristicLength` starts its running maxima at zero instead of at minus infinity.  The
length is therefore the intended one exactly for elements that reach a nonnegative coordinate in
each direction (`characteristic_length_correct_partial`), and depends on the position of the mesh in
general (`characteristic_length_translation_refuted`); it never underestimates.
-/

set_option linter.unusedSectionVars false

namespace NimbleSM.Hex

variable {K : Type*} [Field K] [LinearOrder K] [IsStrictOrderedRing K]

/-! ## Specification -/

/-- Smallest coordinate in direction `d`. -/
def lo (x : ℕ → K) (d : Fin 3) : K :=
  Finset.univ.inf' Finset.univ_nonempty fun n : Fin 8 => x (3 * n + d)

/-- Largest coordinate in direction `d`. -/
def hi (x : ℕ → K) (d : Fin 3) : K :=
  Finset.univ.sup' Finset.univ_nonempty fun n : Fin 8 => x (3 * n + d)

/-- Squared distance of two nodes. -/
def dist2 (x : ℕ → K) (n m : ℕ) : K := ∑ d : Fin 3, (x (3 * n + d) - x (3 * m + d)) ^ 2

/-- The pairs of distinct nodes. -/
def pairs : Finset (Fin 8 × Fin 8) := Finset.univ.filter fun nm => nm.1 < nm.2

theorem pairs_nonempty : pairs.Nonempty := ⟨(0, 1), by decide⟩

/-- Smallest squared distance of two distinct nodes. -/
def minDist2 (x : ℕ → K) : K :=
  pairs.inf' pairs_nonempty fun nm => dist2 x nm.1 nm.2

/-- The intended length: the smallest of the distances between nodes and of the sides of the
bounding box. -/
def charLength (sqrt : K → K) (x : ℕ → K) : K :=
  min (sqrt (minDist2 x)) (Finset.univ.inf' Finset.univ_nonempty fun d : Fin 3 => hi x d - lo x d)

/-- The coordinates moved by the vector `c`. -/
def translate (x : ℕ → K) (c : Fin 3 → K) : ℕ → K :=
  fun k => x k + c ⟨k % 3, Nat.mod_lt _ (by norm_num)⟩

/-- `dmax` is larger than the coordinates and squared distances (the largest `double` is, unless
something overflowed). -/
def Below (dmax : K) (x : ℕ → K) : Prop :=
  (∀ (n : Fin 8) (d : Fin 3), x (3 * n + d) ≤ dmax) ∧ ∀ n m : Fin 8, dist2 x n m ≤ dmax

/-! ## The loops -/

theorem le_foldl_min {α : Type*} (f : α → K) (c : K) : ∀ (l : List α) (a : K),
    c ≤ l.foldl (fun a m => min a (f m)) a ↔ c ≤ a ∧ ∀ m ∈ l, c ≤ f m
  | [], a => by simp
  | b :: l, a => by
    rw [List.foldl_cons, le_foldl_min f c l]
    simp only [le_min_iff, List.mem_cons, forall_eq_or_imp, and_assoc]

theorem foldl_max_le {α : Type*} (f : α → K) (c : K) : ∀ (l : List α) (a : K),
    l.foldl (fun a m => max a (f m)) a ≤ c ↔ a ≤ c ∧ ∀ m ∈ l, f m ≤ c
  | [], a => by simp
  | b :: l, a => by
    rw [List.foldl_cons, foldl_max_le f c l]
    simp only [max_le_iff, List.mem_cons, forall_eq_or_imp, and_assoc]

theorem inner_fold (g : ℕ → K) : ∀ (l : List ℕ) (e : Extremes K),
    l.foldl (fun e m => if g m < e.minDist2 then { e with minDist2 := g m } else e) e
      = { e with minDist2 := l.foldl (fun a m => min a (g m)) e.minDist2 }
  | [], e => rfl
  | b :: l, e => by
    rw [List.foldl_cons, inner_fold g l, List.foldl_cons]
    by_cases h : g b < e.minDist2
    · simp [h, min_eq_right h.le]
    · simp [h, min_eq_left (not_lt.mp h)]

theorem set_xmin (e : Extremes K) (v : K) : e.lowX v
    = { e with xmin := min e.xmin v } := by
  rw [Extremes.lowX]
  by_cases h : v < e.xmin
  · rw [if_pos h, min_eq_right h.le]
  · rw [if_neg h, min_eq_left (not_lt.mp h)]

theorem set_xmax (e : Extremes K) (v : K) : e.highX v
    = { e with xmax := max e.xmax v } := by
  rw [Extremes.highX]
  by_cases h : v > e.xmax
  · rw [if_pos h, max_eq_right (le_of_lt h)]
  · rw [if_neg h, max_eq_left (not_lt.mp h)]

theorem set_ymin (e : Extremes K) (v : K) : e.lowY v
    = { e with ymin := min e.ymin v } := by
  rw [Extremes.lowY]
  by_cases h : v < e.ymin
  · rw [if_pos h, min_eq_right h.le]
  · rw [if_neg h, min_eq_left (not_lt.mp h)]

theorem set_ymax (e : Extremes K) (v : K) : e.highY v
    = { e with ymax := max e.ymax v } := by
  rw [Extremes.highY]
  by_cases h : v > e.ymax
  · rw [if_pos h, max_eq_right (le_of_lt h)]
  · rw [if_neg h, max_eq_left (not_lt.mp h)]

theorem set_zmin (e : Extremes K) (v : K) : e.lowZ v
    = { e with zmin := min e.zmin v } := by
  rw [Extremes.lowZ]
  by_cases h : v < e.zmin
  · rw [if_pos h, min_eq_right h.le]
  · rw [if_neg h, min_eq_left (not_lt.mp h)]

theorem set_zmax (e : Extremes K) (v : K) : e.highZ v
    = { e with zmax := max e.zmax v } := by
  rw [Extremes.highZ]
  by_cases h : v > e.zmax
  · rw [if_pos h, max_eq_right (le_of_lt h)]
  · rw [if_neg h, max_eq_left (not_lt.mp h)]

theorem extremesStep_eq (x : ℕ → K) (e : Extremes K) (n : ℕ) :
    extremesStep x e n =
      ⟨(List.range' (n + 1) (8 - (n + 1))).foldl (fun a m => min a (dist2 x n m)) e.minDist2,
        min e.xmin (x (3 * n)), max e.xmax (x (3 * n)),
        min e.ymin (x (3 * n + 1)), max e.ymax (x (3 * n + 1)),
        min e.zmin (x (3 * n + 2)), max e.zmax (x (3 * n + 2))⟩ := by
  have hd : ∀ m, (x (3 * n) - x (3 * m)) * (x (3 * n) - x (3 * m))
      + (x (3 * n + 1) - x (3 * m + 1)) * (x (3 * n + 1) - x (3 * m + 1))
      + (x (3 * n + 2) - x (3 * m + 2)) * (x (3 * n + 2) - x (3 * m + 2)) = dist2 x n m := by
    intro m
    rw [dist2, Fin.sum_univ_three]
    simp only [Fin.val_zero, Fin.val_one, Fin.val_two, add_zero]
    ring
  rw [extremesStep]
  simp only [hd]
  rw [inner_fold (fun m => dist2 x n m)]
  simp only [set_xmin, set_xmax, set_ymin, set_ymax, set_zmin, set_zmax]

theorem outer_fold (x : ℕ → K) : ∀ (l : List ℕ) (e : Extremes K),
    l.foldl (extremesStep x) e =
      ⟨l.foldl (fun a n => (List.range' (n + 1) (8 - (n + 1))).foldl
          (fun a m => min a (dist2 x n m)) a) e.minDist2,
        l.foldl (fun a n => min a (x (3 * n))) e.xmin, l.foldl (fun a n => max a (x (3 * n))) e.xmax,
        l.foldl (fun a n => min a (x (3 * n + 1))) e.ymin,
        l.foldl (fun a n => max a (x (3 * n + 1))) e.ymax,
        l.foldl (fun a n => min a (x (3 * n + 2))) e.zmin,
        l.foldl (fun a n => max a (x (3 * n + 2))) e.zmax⟩
  | [], e => rfl
  | b :: l, e => by
    rw [List.foldl_cons, outer_fold x l, extremesStep_eq]
    rfl

theorem le_outer_min (x : ℕ → K) (c : K) : ∀ (l : List ℕ) (a : K),
    c ≤ l.foldl (fun a n => (List.range' (n + 1) (8 - (n + 1))).foldl
      (fun a m => min a (dist2 x n m)) a) a
    ↔ c ≤ a ∧ ∀ n ∈ l, ∀ m, n < m → m < 8 → c ≤ dist2 x n m
  | [], a => by simp
  | b :: l, a => by
    rw [List.foldl_cons, le_outer_min x c l, le_foldl_min]
    simp only [List.mem_cons, forall_eq_or_imp, and_assoc]
    have : (∀ m ∈ List.range' (b + 1) (8 - (b + 1)), c ≤ dist2 x b m)
        ↔ ∀ m, b < m → m < 8 → c ≤ dist2 x b m := by
      constructor
      · intro h m h1 h2
        exact h m (List.mem_range'_1.mpr (by omega))
      · intro h m hm
        have := List.mem_range'_1.mp hm
        exact h m (by omega) (by omega)
    rw [this]

theorem fold_lo (x : ℕ → K) (dmax : K) (d : Fin 3) (h : ∀ n : Fin 8, x (3 * n + d) ≤ dmax) :
    (List.range 8).foldl (fun a n => min a (x (3 * n + d))) dmax = lo x d := by
  apply eq_of_forall_le_iff
  intro c
  rw [le_foldl_min, lo, Finset.le_inf'_iff]
  simp only [List.mem_range, Finset.mem_univ, forall_true_left]
  constructor
  · intro hc n; exact hc.2 n n.isLt
  · intro hc
    exact ⟨(hc 0).trans (h 0), fun m hm => hc ⟨m, hm⟩⟩

theorem fold_hi (x : ℕ → K) (d : Fin 3) :
    (List.range 8).foldl (fun a n => max a (x (3 * n + d))) 0 = max 0 (hi x d) := by
  apply eq_of_forall_ge_iff
  intro c
  rw [foldl_max_le, max_le_iff, hi, Finset.sup'_le_iff]
  simp only [List.mem_range, Finset.mem_univ, forall_true_left]
  constructor
  · intro hc; exact ⟨hc.1, fun n => hc.2 n n.isLt⟩
  · intro hc; exact ⟨hc.1, fun m hm => hc.2 ⟨m, hm⟩⟩

theorem fold_dist (x : ℕ → K) (dmax : K) (h : ∀ n m : Fin 8, dist2 x n m ≤ dmax) :
    (List.range 8).foldl (fun a n => (List.range' (n + 1) (8 - (n + 1))).foldl
      (fun a m => min a (dist2 x n m)) a) dmax = minDist2 x := by
  apply eq_of_forall_le_iff
  intro c
  rw [le_outer_min, minDist2, Finset.le_inf'_iff]
  constructor
  · rintro ⟨-, hc⟩ ⟨n, m⟩ hnm
    simp only [pairs, Finset.mem_filter, Finset.mem_univ, true_and] at hnm
    exact hc n (List.mem_range.mpr n.isLt) m hnm m.isLt
  · intro hc
    refine ⟨(hc (0, 1) (by decide)).trans (h 0 1), ?_⟩
    intro n hn m h1 h2
    exact hc (⟨n, List.mem_range.mp hn⟩, ⟨m, h2⟩)
      (by simpa only [pairs, Finset.mem_filter, Finset.mem_univ, true_and, Fin.mk_lt_mk] using h1)

/-- Closed form of what the code computes: the box side is measured from the smallest coordinate to
the largest of zero and the coordinates. -/
theorem characteristic_length_closed_form (sqrt : K → K) (dmax : K) (x : ℕ → K)
    (hx : Below dmax x) :
    computeCharacteristicLength sqrt dmax x =
      min (sqrt (minDist2 x))
        (Finset.univ.inf' Finset.univ_nonempty fun d : Fin 3 => max 0 (hi x d) - lo x d) := by
  have l0 := fold_lo x dmax 0 (fun n => hx.1 n 0)
  have l1 := fold_lo x dmax 1 (fun n => hx.1 n 1)
  have l2 := fold_lo x dmax 2 (fun n => hx.1 n 2)
  have h0 := fold_hi x 0
  have h1 := fold_hi x 1
  have h2 := fold_hi x 2
  simp only [Fin.val_zero, Fin.val_one, Fin.val_two, add_zero] at l0 l1 l2 h0 h1 h2
  rw [computeCharacteristicLength]
  simp only [outer_fold, fold_dist x dmax hx.2, l0, l1, l2, h0, h1, h2]
  have hmin : ∀ a b : K, (if b < a then b else a) = min a b := fun a b => by
    by_cases h : b < a
    · rw [if_pos h, min_eq_right h.le]
    · rw [if_neg h, min_eq_left (not_lt.mp h)]
  simp only [hmin]
  congr 1
  apply eq_of_forall_le_iff
  intro c
  simp only [le_min_iff, Finset.le_inf'_iff, Finset.mem_univ, forall_true_left]
  constructor
  · rintro ⟨⟨a, b⟩, c⟩ d
    fin_cases d <;> assumption
  · intro h; exact ⟨⟨h 0, h 1⟩, h 2⟩

/-- **C28, the part that holds.**  For an element with a nonnegative coordinate in each direction the
result is the intended length. -/
theorem characteristic_length_correct_partial (sqrt : K → K) (dmax : K) (x : ℕ → K)
    (hx : Below dmax x) (hpos : ∀ d : Fin 3, ∃ n : Fin 8, 0 ≤ x (3 * n + d)) :
    computeCharacteristicLength sqrt dmax x = charLength sqrt x := by
  rw [characteristic_length_closed_form sqrt dmax x hx, charLength]
  have : ∀ d, max 0 (hi x d) = hi x d := fun d => by
    obtain ⟨n, hn⟩ := hpos d
    exact max_eq_right (hn.trans (Finset.le_sup' (fun n : Fin 8 => x (3 * n + d)) (Finset.mem_univ n)))
  simp only [this]

/-- The result is never smaller than the intended length, wherever the element is: the stable time
step can only be overestimated. -/
theorem characteristic_length_ge (sqrt : K → K) (dmax : K) (x : ℕ → K) (hx : Below dmax x) :
    charLength sqrt x ≤ computeCharacteristicLength sqrt dmax x := by
  rw [characteristic_length_closed_form sqrt dmax x hx, charLength]
  apply min_le_min le_rfl
  rw [Finset.le_inf'_iff]
  intro d _
  exact (Finset.inf'_le _ (Finset.mem_univ d)).trans (sub_le_sub_right (le_max_right _ _) _)

/-- The result is at most the intended distance between nodes, wherever the element is. -/
theorem characteristic_length_le (sqrt : K → K) (dmax : K) (x : ℕ → K) (hx : Below dmax x) :
    computeCharacteristicLength sqrt dmax x ≤ sqrt (minDist2 x) := by
  rw [characteristic_length_closed_form sqrt dmax x hx]
  exact min_le_left _ _

/-! ## Translations -/

theorem translate_at (x : ℕ → K) (c : Fin 3 → K) (n : ℕ) (d : Fin 3) :
    translate x c (3 * n + d) = x (3 * n + d) + c d := by
  have : (⟨(3 * n + d) % 3, Nat.mod_lt _ (by norm_num)⟩ : Fin 3) = d := by
    apply Fin.ext; simp only; omega
  rw [translate, this]

theorem lo_translate (x : ℕ → K) (c : Fin 3 → K) (d : Fin 3) :
    lo (translate x c) d = lo x d + c d := by
  apply eq_of_forall_le_iff
  intro a
  simp only [lo, translate_at]
  rw [← sub_le_iff_le_add, Finset.le_inf'_iff, Finset.le_inf'_iff]
  simp only [sub_le_iff_le_add]

theorem hi_translate (x : ℕ → K) (c : Fin 3 → K) (d : Fin 3) :
    hi (translate x c) d = hi x d + c d := by
  apply eq_of_forall_ge_iff
  intro a
  simp only [hi, translate_at]
  rw [← le_sub_iff_add_le, Finset.sup'_le_iff, Finset.sup'_le_iff]
  simp only [le_sub_iff_add_le]

theorem dist2_translate (x : ℕ → K) (c : Fin 3 → K) (n m : ℕ) :
    dist2 (translate x c) n m = dist2 x n m := by
  simp only [dist2, translate_at]
  apply Finset.sum_congr rfl; intro d _; ring

theorem charLength_translate (sqrt : K → K) (x : ℕ → K) (c : Fin 3 → K) :
    charLength sqrt (translate x c) = charLength sqrt x := by
  simp only [charLength, minDist2, dist2_translate, lo_translate, hi_translate,
    add_sub_add_right_eq_sub]

/-- **C28, the part that holds.**  The length is unchanged by every translation that leaves, in each
direction, some node at a nonnegative coordinate. -/
theorem characteristic_length_translation_partial (sqrt : K → K) (dmax : K) (x : ℕ → K)
    (c : Fin 3 → K) (hx : Below dmax x) (hx' : Below dmax (translate x c))
    (hpos : ∀ d : Fin 3, ∃ n : Fin 8, 0 ≤ x (3 * n + d))
    (hpos' : ∀ d : Fin 3, ∃ n : Fin 8, 0 ≤ x (3 * n + d) + c d) :
    computeCharacteristicLength sqrt dmax (translate x c)
      = computeCharacteristicLength sqrt dmax x := by
  rw [characteristic_length_correct_partial sqrt dmax x hx hpos,
    characteristic_length_correct_partial sqrt dmax _ hx' (fun d => by
      obtain ⟨n, hn⟩ := hpos' d
      exact ⟨n, by rw [translate_at]; exact hn⟩), charLength_translate]

/-- A parallelepiped with base `[0,2]²` and height one, sheared by `(1,1)`. -/
def slabQ : ℕ → ℚ
  | 3 => 2 | 6 => 2 | 7 => 2 | 10 => 2
  | 12 => 1 | 13 => 1 | 14 => 1 | 15 => 3 | 16 => 1 | 17 => 1
  | 18 => 3 | 19 => 3 | 20 => 1 | 21 => 1 | 22 => 3 | 23 => 1
  | _ => 0

/-- The same with real coordinates. -/
noncomputable def slab : ℕ → ℝ := fun k => (slabQ k : ℝ)

theorem slab_bounds (n : Fin 8) (d : Fin 3) : 0 ≤ slab (3 * n + d) ∧ slab (3 * n + d) ≤ 3 := by
  have h : ∀ (n : Fin 8) (d : Fin 3), 0 ≤ slabQ (3 * n + d) ∧ slabQ (3 * n + d) ≤ 3 := by
    decide +kernel
  simp only [slab]
  exact ⟨by exact_mod_cast (h n d).1, by exact_mod_cast (h n d).2⟩

theorem slab_below (c : Fin 3 → ℝ) (hc : ∀ d, c d ≤ 0) : Below 100 (translate slab c) := by
  refine ⟨fun n d => ?_, fun n m => ?_⟩
  · rw [translate_at]; linarith [(slab_bounds n d).2, hc d]
  · rw [dist2_translate, dist2]
    have : ∀ d : Fin 3, (slab (3 * n + d) - slab (3 * m + d)) ^ 2 ≤ 9 := fun d => by
      have h1 := slab_bounds n d
      have h2 := slab_bounds m d
      nlinarith
    calc _ ≤ ∑ _d : Fin 3, (9 : ℝ) := Finset.sum_le_sum fun d _ => this d
      _ ≤ 100 := by simp; norm_num

theorem slab_below0 : Below 100 slab := by
  have := slab_below (fun _ => 0) (fun _ => le_rfl)
  have e : translate slab (fun _ => 0) = slab := by funext k; simp [translate]
  rwa [e] at this

theorem slab_length : computeCharacteristicLength Real.sqrt 100 slab ≤ 1 := by
  rw [characteristic_length_closed_form _ _ _ slab_below0]
  refine (min_le_right _ _).trans ((Finset.inf'_le _ (Finset.mem_univ 2)).trans ?_)
  have h1 : hi slab 2 ≤ 1 := Finset.sup'_le _ _ fun n _ => by
    fin_cases n <;> simp [slab, slabQ]
  have h2 : 0 ≤ lo slab 2 := Finset.le_inf' _ _ fun n _ => (slab_bounds n 2).1
  have h3 : max 0 (hi slab 2) ≤ 1 := max_le zero_le_one h1
  linarith

theorem slab_dist (n m : Fin 8) (h : n < m) : 3 ≤ dist2 slab n m := by
  have hq : ∀ n m : Fin 8, n < m → 3 ≤ ∑ d : Fin 3, (slabQ (3 * n + d) - slabQ (3 * m + d)) ^ 2 := by
    decide +kernel
  have := hq n m h
  simp only [dist2, slab]
  exact_mod_cast this

theorem slab_length_moved :
    Real.sqrt 3 ≤ computeCharacteristicLength Real.sqrt 100 (translate slab ![0, 0, -5]) := by
  have hc : ∀ d, (![0, 0, -5] : Fin 3 → ℝ) d ≤ 0 := by
    intro d; fin_cases d <;> simp
  rw [characteristic_length_closed_form _ _ _ (slab_below _ hc)]
  apply le_min
  · apply Real.sqrt_le_sqrt
    rw [minDist2, Finset.le_inf'_iff]
    rintro ⟨n, m⟩ hnm
    simp only [pairs, Finset.mem_filter, Finset.mem_univ, true_and] at hnm
    rw [dist2_translate]
    exact slab_dist n m hnm
  · have hs : Real.sqrt 3 ≤ 3 := by
      rw [Real.sqrt_le_left (by norm_num)]; norm_num
    rw [Finset.le_inf'_iff]
    intro d _
    rw [lo_translate, hi_translate]
    have l : lo slab d ≤ 0 := (Finset.inf'_le _ (Finset.mem_univ 0)).trans (by
      fin_cases d <;> simp [slab, slabQ])
    fin_cases d
    · have h : 3 ≤ hi slab 0 := (show (3 : ℝ) ≤ slab (3 * (6 : Fin 8) + (0 : Fin 3)) by
        simp [slab, slabQ]).trans (Finset.le_sup' (fun n : Fin 8 => slab (3 * n + (0 : Fin 3)))
          (Finset.mem_univ 6))
      have := le_max_right 0 (hi slab 0)
      simp at l ⊢
      linarith
    · have h : 3 ≤ hi slab 1 := (show (3 : ℝ) ≤ slab (3 * (6 : Fin 8) + (1 : Fin 3)) by
        simp [slab, slabQ]).trans (Finset.le_sup' (fun n : Fin 8 => slab (3 * n + (1 : Fin 3)))
          (Finset.mem_univ 6))
      have := le_max_right 0 (hi slab 1)
      simp at l ⊢
      linarith
    · simp at l ⊢
      have h0 : (0 : ℝ) ≤ max 0 (hi slab 2 + -5) := le_max_left _ _
      linarith

/-- **C28 fails.**  There is an element and a translation that changes its characteristic length
(from at most 1 to at least √3). -/
theorem characteristic_length_translation_refuted :
    ¬ ∀ (dmax : ℝ) (x : ℕ → ℝ) (c : Fin 3 → ℝ), Below dmax x → Below dmax (translate x c) →
      computeCharacteristicLength Real.sqrt dmax (translate x c)
        = computeCharacteristicLength Real.sqrt dmax x := by
  intro h
  have hc : ∀ d, (![0, 0, -5] : Fin 3 → ℝ) d ≤ 0 := by
    intro d; fin_cases d <;> simp
  have := h 100 slab ![0, 0, -5] slab_below0 (slab_below _ hc)
  have h1 := slab_length
  have h2 := slab_length_moved
  have h3 : (1 : ℝ) < Real.sqrt 3 := by
    rw [Real.lt_sqrt (by norm_num)]; norm_num
  linarith

/-- Non-vacuity of `characteristic_length_translation_partial`: the slab, moved by
`(-1, -1/2, -1)`. -/
example : computeCharacteristicLength Real.sqrt 100 (translate slab ![-1, -1/2, -1])
    = computeCharacteristicLength Real.sqrt 100 slab := by
  refine characteristic_length_translation_partial _ _ _ _ slab_below0 (slab_below _ ?_)
    (fun d => ⟨0, (slab_bounds 0 d).1⟩) (fun d => ⟨6, ?_⟩)
  · intro d; fin_cases d <;> norm_num
  · fin_cases d <;> simp [slab, slabQ] <;> norm_num

end NimbleSM.Hex
