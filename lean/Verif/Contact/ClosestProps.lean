import Verif.Contact.Closest
import Mathlib.Analysis.SpecialFunctions.Sqrt
import Mathlib.Tactic.Linarith
import Mathlib.Tactic.FieldSimp
import Mathlib.Tactic.LinearCombination
import Mathlib.Tactic.FinCases
import Mathlib.Tactic.Positivity
import Mathlib.Algebra.Order.Field.Basic
import Mathlib.Algebra.BigOperators.Fin

/-!
# C107: the closest point projection finds the closest point of the triangle
-/

namespace NimbleSM.Contact

open NimbleSM.Tensor (crossProduct)

variable {K : Type*} [Field K] [LinearOrder K]

/-- Square of the Euclidean distance. -/
def dist2 (p q : Fin 3 → K) : K := (p 0 - q 0) ^ 2 + (p 1 - q 1) ^ 2 + (p 2 - q 2) ^ 2

/-- The point with barycentric coordinates `a`, `b`, `c`. -/
def bary (p1 p2 p3 : Fin 3 → K) (a b c : K) : Fin 3 → K := fun i => a * p1 i + b * p2 i + c * p3 i

/-- The point lies in the triangle, enlarged by `ε` in barycentric coordinates (`ε = 0`: in the triangle). -/
def InTriangle (ε : K) (p1 p2 p3 q : Fin 3 → K) : Prop :=
  ∃ a b c, a + b + c = 1 ∧ -ε ≤ a ∧ -ε ≤ b ∧ -ε ≤ c ∧ q = bary p1 p2 p3 a b c

variable [IsStrictOrderedRing K]

theorem vertexDistanceSquared_eq (q p : Fin 3 → K) : vertexDistanceSquared q p = dist2 p q := by
  unfold vertexDistanceSquared dist2; ring

theorem pointEdgeDistanceSquared_eq (a b p : Fin 3 → K) (t : K) :
    pointEdgeDistanceSquared a b p t = dist2 p (edgePoint a b t) := by
  unfold pointEdgeDistanceSquared dist2 edgePoint; ring

/-! ## Edges -/

theorem edge_dist (p a b : Fin 3 → K) (t : K) : dist2 p (edgePoint a b t) =
    dist2 a b * t ^ 2 - 2 * ((p 0 - a 0) * (b 0 - a 0) + (p 1 - a 1) * (b 1 - a 1) + (p 2 - a 2) * (b 2 - a 2)) * t +
      dist2 p a := by
  unfold dist2 edgePoint; ring

theorem dist2_nonneg (p q : Fin 3 → K) : 0 ≤ dist2 p q := by unfold dist2; positivity

/-- A value that is at most the squared distance to both ends, and to the foot of the perpendicular where the
code considers it, is at most the squared distance to every point of the edge. -/
theorem edge_bound (p a b : Fin 3 → K) (m : K) (ha : m ≤ dist2 p a) (hb : m ≤ dist2 p b)
    (ht : 0 < pointEdgeT a b p → pointEdgeT a b p < 1 → m ≤ dist2 p (edgePoint a b (pointEdgeT a b p)))
    {t : K} (h0 : 0 ≤ t) (h1 : t ≤ 1) : m ≤ dist2 p (edgePoint a b t) := by
  have hb' : dist2 p b = dist2 a b - 2 * ((p 0 - a 0) * (b 0 - a 0) + (p 1 - a 1) * (b 1 - a 1) + (p 2 - a 2) * (b 2 - a 2))
      + dist2 p a := by unfold dist2; ring
  have hT : pointEdgeT a b p = ((p 0 - a 0) * (b 0 - a 0) + (p 1 - a 1) * (b 1 - a 1) + (p 2 - a 2) * (b 2 - a 2)) /
      dist2 a b := by
    unfold pointEdgeT dist2
    congr 1
    ring
  rw [edge_dist] at ht ⊢
  rw [hb'] at hb
  set L := dist2 a b with hL
  set c := (p 0 - a 0) * (b 0 - a 0) + (p 1 - a 1) * (b 1 - a 1) + (p 2 - a 2) * (b 2 - a 2) with hc
  set A := dist2 p a with hA
  rcases (dist2_nonneg a b).eq_or_lt with hL0 | hLpos
  · -- degenerate edge
    have hab : ∀ i, b i - a i = 0 := by
      have h : (a 0 - b 0) ^ 2 + (a 1 - b 1) ^ 2 + (a 2 - b 2) ^ 2 = 0 := hL0.symm
      have q0 := sq_nonneg (a 0 - b 0)
      have q1 := sq_nonneg (a 1 - b 1)
      have q2 := sq_nonneg (a 2 - b 2)
      intro i
      fin_cases i
      · have : (a 0 - b 0) ^ 2 = 0 := by linarith
        have := pow_eq_zero_iff (two_ne_zero) |>.mp this
        show b 0 - a 0 = 0
        linarith
      · have : (a 1 - b 1) ^ 2 = 0 := by linarith
        have := pow_eq_zero_iff (two_ne_zero) |>.mp this
        show b 1 - a 1 = 0
        linarith
      · have : (a 2 - b 2) ^ 2 = 0 := by linarith
        have := pow_eq_zero_iff (two_ne_zero) |>.mp this
        show b 2 - a 2 = 0
        linarith
    have hc0 : c = 0 := by rw [hc, hab 0, hab 1, hab 2]; ring
    have hLz : L = 0 := hL0.symm
    rw [hc0, hLz]
    linarith
  · rw [hT] at ht
    have hLp : 0 < L := hLpos
    rcases le_or_gt c 0 with hc0 | hc0
    · have : 0 ≤ -c * t := mul_nonneg (by linarith) h0
      have h2 : 0 ≤ L * t ^ 2 := by positivity
      nlinarith
    · rcases lt_or_ge c L with hcL | hcL
      · have h1' := ht (div_pos hc0 hLp) ((div_lt_one hLp).mpr hcL)
        have key : L * t ^ 2 - 2 * c * t + A - (L * (c / L) ^ 2 - 2 * c * (c / L) + A) = L * (t - c / L) ^ 2 := by
          field_simp
          ring
        have : 0 ≤ L * (t - c / L) ^ 2 := by positivity
        linarith
      · -- t* ≥ 1
        have h2 : 0 ≤ (1 - t) * (2 * c - L - L * t) := by
          apply mul_nonneg (by linarith)
          nlinarith
        nlinarith

/-! ## The search -/

/-- The search value belongs to the selected point, is attained in the triangle and is minimal over all
vertices and all points of the edges. -/
theorem boundarySearch_spec (p p1 p2 p3 : Fin 3 → K) :
    (boundarySearch p p1 p2 p3).d = dist2 p (boundaryPoint p1 p2 p3 (boundarySearch p p1 p2 p3)) ∧
    ((∃ a b c : K, a + b + c = 1 ∧ 0 ≤ a ∧ 0 ≤ b ∧ 0 ≤ c ∧ (a = 0 ∨ b = 0 ∨ c = 0) ∧
      boundaryPoint p1 p2 p3 (boundarySearch p p1 p2 p3) = bary p1 p2 p3 a b c)) ∧
    ∀ t : K, 0 ≤ t → t ≤ 1 →
      (boundarySearch p p1 p2 p3).d ≤ dist2 p (edgePoint p1 p2 t) ∧
      (boundarySearch p p1 p2 p3).d ≤ dist2 p (edgePoint p2 p3 t) ∧
      (boundarySearch p p1 p2 p3).d ≤ dist2 p (edgePoint p3 p1 t) := by
  -- what a state says
  let Good : MinState K → Prop := fun s =>
    s.d = dist2 p (boundaryPoint p1 p2 p3 s) ∧
    ∃ a b c : K, a + b + c = 1 ∧ 0 ≤ a ∧ 0 ≤ b ∧ 0 ≤ c ∧ (a = 0 ∨ b = 0 ∨ c = 0) ∧
      boundaryPoint p1 p2 p3 s = bary p1 p2 p3 a b c
  have vert : ∀ q case (s : MinState K), Good s → (∀ d t, boundaryPoint p1 p2 p3 ⟨d, t, case⟩ = q) →
      (∃ a b c : K, a + b + c = 1 ∧ 0 ≤ a ∧ 0 ≤ b ∧ 0 ≤ c ∧ (a = 0 ∨ b = 0 ∨ c = 0) ∧ q = bary p1 p2 p3 a b c) →
      Good (tryVertex q p case s) ∧ (tryVertex q p case s).d ≤ s.d ∧ (tryVertex q p case s).d ≤ dist2 p q := by
    intro q case s hs hq hin
    unfold tryVertex
    dsimp only
    split
    next h =>
      rw [vertexDistanceSquared_eq] at h ⊢
      exact ⟨⟨by rw [hq], by rw [hq]; exact hin⟩, h.le, le_rfl⟩
    next h =>
      rw [vertexDistanceSquared_eq] at h
      exact ⟨hs, le_rfl, not_lt.mp h⟩
  have edge : ∀ q1 q2 case (s : MinState K), Good s → (∀ d t, boundaryPoint p1 p2 p3 ⟨d, t, case⟩ = edgePoint q1 q2 t) →
      (∀ t : K, 0 ≤ t → t ≤ 1 → ∃ a b c : K, a + b + c = 1 ∧ 0 ≤ a ∧ 0 ≤ b ∧ 0 ≤ c ∧ (a = 0 ∨ b = 0 ∨ c = 0) ∧
        edgePoint q1 q2 t = bary p1 p2 p3 a b c) →
      Good (tryEdge q1 q2 p case s) ∧ (tryEdge q1 q2 p case s).d ≤ s.d ∧
        (0 < pointEdgeT q1 q2 p → pointEdgeT q1 q2 p < 1 →
          (tryEdge q1 q2 p case s).d ≤ dist2 p (edgePoint q1 q2 (pointEdgeT q1 q2 p))) := by
    intro q1 q2 case s hs hq hin
    unfold tryEdge
    dsimp only
    split
    next h =>
      rw [pointEdgeDistanceSquared_eq]
      split
      next hlt =>
        exact ⟨⟨by rw [hq], by rw [hq]; exact hin _ h.1.le h.2.le⟩, hlt.le, fun _ _ => le_rfl⟩
      next hlt => exact ⟨hs, le_rfl, fun _ _ => not_lt.mp hlt⟩
    next h => exact ⟨hs, le_rfl, fun h0 h1 => absurd ⟨h0, h1⟩ h⟩
  have g1 : Good ⟨vertexDistanceSquared p1 p, 0, 1⟩ := by
    refine ⟨by rw [vertexDistanceSquared_eq]; rfl, 1, 0, 0, by ring, by simp, le_rfl, le_rfl, Or.inr (Or.inl rfl), ?_⟩
    funext i
    show p1 i = 1 * p1 i + 0 * p2 i + 0 * p3 i
    ring
  obtain ⟨g2, d2, v2⟩ := vert p2 2 _ g1 (fun _ _ => rfl)
    ⟨0, 1, 0, by ring, le_rfl, by simp, le_rfl, Or.inl rfl, by funext i; show p2 i = 0 * p1 i + 1 * p2 i + 0 * p3 i; ring⟩
  obtain ⟨g3, d3, v3⟩ := vert p3 3 _ g2 (fun _ _ => rfl)
    ⟨0, 0, 1, by ring, le_rfl, le_rfl, by simp, Or.inl rfl, by funext i; show p3 i = 0 * p1 i + 0 * p2 i + 1 * p3 i; ring⟩
  obtain ⟨g4, d4, e4⟩ := edge p1 p2 4 _ g3 (fun _ _ => rfl) (fun t h0 h1 =>
    ⟨1 - t, t, 0, by ring, by linarith, h0, le_rfl, Or.inr (Or.inr rfl), by
      funext i; show p1 i + (p2 i - p1 i) * t = (1 - t) * p1 i + t * p2 i + 0 * p3 i; ring⟩)
  obtain ⟨g5, d5, e5⟩ := edge p2 p3 5 _ g4 (fun _ _ => rfl) (fun t h0 h1 =>
    ⟨0, 1 - t, t, by ring, le_rfl, by linarith, h0, Or.inl rfl, by
      funext i; show p2 i + (p3 i - p2 i) * t = 0 * p1 i + (1 - t) * p2 i + t * p3 i; ring⟩)
  obtain ⟨g6, d6, e6⟩ := edge p3 p1 6 _ g5 (fun _ _ => rfl) (fun t h0 h1 =>
    ⟨t, 0, 1 - t, by ring, h0, le_rfl, by linarith, Or.inr (Or.inl rfl), by
      funext i; show p3 i + (p1 i - p3 i) * t = t * p1 i + 0 * p2 i + (1 - t) * p3 i; ring⟩)
  have v1 : vertexDistanceSquared p1 p = dist2 p p1 := vertexDistanceSquared_eq p1 p
  refine ⟨g6.1, g6.2, ?_⟩
  change ∀ t : K, _ → _ → (tryEdge p3 p1 p 6 _).d ≤ _ ∧ (tryEdge p3 p1 p 6 _).d ≤ _ ∧ (tryEdge p3 p1 p 6 _).d ≤ _
  set s2 := tryVertex p2 p 2 ⟨vertexDistanceSquared p1 p, 0, 1⟩
  set s3 := tryVertex p3 p 3 s2
  set s4 := tryEdge p1 p2 p 4 s3
  set s5 := tryEdge p2 p3 p 5 s4
  set s6 := tryEdge p3 p1 p 6 s5
  have d2' : s2.d ≤ dist2 p p1 := by rw [← v1]; exact d2
  have m1 : s6.d ≤ dist2 p p1 := d6.trans (d5.trans (d4.trans (d3.trans d2')))
  have m2 : s6.d ≤ dist2 p p2 := d6.trans (d5.trans (d4.trans (d3.trans v2)))
  have m3 : s6.d ≤ dist2 p p3 := d6.trans (d5.trans (d4.trans v3))
  intro t h0 h1
  exact ⟨edge_bound p p1 p2 s6.d m1 m2 (fun a b => d6.trans (d5.trans (e4 a b))) h0 h1,
    edge_bound p p2 p3 s6.d m2 m3 (fun a b => d6.trans (e5 a b)) h0 h1,
    edge_bound p p3 p1 s6.d m3 m1 e6 h0 h1⟩

/-! ## Reaching the boundary -/

/-- On the way from a point of the triangle to a point that is not inside, the boundary is met. -/
theorem reach_boundary (l N : Fin 3 → K) (hl : ∀ i, 0 ≤ l i) {i0 : Fin 3} (hN : N i0 ≤ 0) :
    ∃ s : K, 0 ≤ s ∧ s ≤ 1 ∧ (∀ i, 0 ≤ l i + s * (N i - l i)) ∧ ∃ i, l i + s * (N i - l i) = 0 := by
  obtain ⟨j, hj, hmin⟩ := Finset.exists_min_image (Finset.univ.filter fun i => N i ≤ 0) (fun i => l i / (l i - N i))
    ⟨i0, by simp [hN]⟩
  have hjN : N j ≤ 0 := by simpa using hj
  have hr : ∀ i, N i ≤ 0 → 0 ≤ l i / (l i - N i) := fun i hi => div_nonneg (hl i) (by linarith [hl i])
  have hr1 : ∀ i, N i ≤ 0 → l i / (l i - N i) ≤ 1 := fun i hi => div_le_one_of_le₀ (by linarith) (by linarith [hl i])
  have hmul : ∀ i, N i ≤ 0 → l i / (l i - N i) * (N i - l i) = - l i := by
    intro i hi
    rcases eq_or_lt_of_le (show 0 ≤ l i - N i by linarith [hl i]) with h | h
    · have : l i = 0 := by linarith [hl i]
      rw [this]; ring
    · field_simp
      ring
  refine ⟨l j / (l j - N j), hr j hjN, hr1 j hjN, fun i => ?_, j, by rw [hmul j hjN]; ring⟩
  rcases le_or_gt (N i) 0 with hi | hi
  · have hle := hmin i (by simp [hi])
    have h1 := hmul i hi
    have h2 : l i / (l i - N i) * (N i - l i) ≤ l j / (l j - N j) * (N i - l i) := by
      have := mul_le_mul_of_nonneg_right hle (show 0 ≤ l i - N i by linarith [hl i])
      linarith
    linarith
  · have h1 := mul_nonneg (hr j hjN) hi.le
    have h2 := mul_nonneg (show 0 ≤ 1 - l j / (l j - N j) by linarith [hr1 j hjN]) (hl i)
    linarith

/-- A boundary point of the triangle lies on an edge. -/
theorem on_edge (p1 p2 p3 : Fin 3 → K) (m : Fin 3 → K) (hsum : m 0 + m 1 + m 2 = 1) (hm : ∀ i, 0 ≤ m i) {j : Fin 3}
    (hj : m j = 0) : ∃ t : K, 0 ≤ t ∧ t ≤ 1 ∧ (bary p1 p2 p3 (m 0) (m 1) (m 2) = edgePoint p1 p2 t ∨
      bary p1 p2 p3 (m 0) (m 1) (m 2) = edgePoint p2 p3 t ∨ bary p1 p2 p3 (m 0) (m 1) (m 2) = edgePoint p3 p1 t) := by
  have h0 := hm 0
  have h1 := hm 1
  have h2 := hm 2
  fin_cases j
  · have e : m 0 = 0 := hj
    refine ⟨m 2, h2, by linarith, Or.inr (Or.inl ?_)⟩
    funext i
    have : m 1 = 1 - m 2 := by linarith
    unfold bary edgePoint
    rw [e, this]; ring
  · have e : m 1 = 0 := hj
    refine ⟨m 0, h0, by linarith, Or.inr (Or.inr ?_)⟩
    funext i
    have : m 2 = 1 - m 0 := by linarith
    unfold bary edgePoint
    rw [e, this]; ring
  · have e : m 2 = 0 := hj
    refine ⟨m 1, h1, by linarith, Or.inl ?_⟩
    funext i
    have : m 0 = 1 - m 1 := by linarith
    unfold bary edgePoint
    rw [e, this]; ring

theorem boundary_min (p p1 p2 p3 : Fin 3 → K) (m : Fin 3 → K) (hsum : m 0 + m 1 + m 2 = 1) (hm : ∀ i, 0 ≤ m i)
    {j : Fin 3} (hj : m j = 0) :
    (boundarySearch p p1 p2 p3).d ≤ dist2 p (bary p1 p2 p3 (m 0) (m 1) (m 2)) := by
  obtain ⟨t, h0, h1, h⟩ := on_edge p1 p2 p3 m hsum hm hj
  obtain ⟨-, -, hmin⟩ := boundarySearch_spec p p1 p2 p3
  obtain ⟨e1, e2, e3⟩ := hmin t h0 h1
  rcases h with h | h | h <;> rw [h] <;> assumption

/-! ## The plane -/

/-- The identity behind it. -/
theorem foot_identity (u0 u1 u2 v0 v1 v2 w0 w1 w2 b c : K)
    (hS : (u1 * v2 - u2 * v1) * (u1 * v2 - u2 * v1) + (u2 * v0 - u0 * v2) * (u2 * v0 - u0 * v2) +
      (u0 * v1 - u1 * v0) * (u0 * v1 - u1 * v0) ≠ 0) :
    (w0 - ((w1 * v2 - w2 * v1) * (u1 * v2 - u2 * v1) + (w2 * v0 - w0 * v2) * (u2 * v0 - u0 * v2) +
      (w0 * v1 - w1 * v0) * (u0 * v1 - u1 * v0)) / ((u1 * v2 - u2 * v1) * (u1 * v2 - u2 * v1) +
        (u2 * v0 - u0 * v2) * (u2 * v0 - u0 * v2) + (u0 * v1 - u1 * v0) * (u0 * v1 - u1 * v0)) * u0 -
      ((u1 * w2 - u2 * w1) * (u1 * v2 - u2 * v1) + (u2 * w0 - u0 * w2) * (u2 * v0 - u0 * v2) +
      (u0 * w1 - u1 * w0) * (u0 * v1 - u1 * v0)) / ((u1 * v2 - u2 * v1) * (u1 * v2 - u2 * v1) +
        (u2 * v0 - u0 * v2) * (u2 * v0 - u0 * v2) + (u0 * v1 - u1 * v0) * (u0 * v1 - u1 * v0)) * v0) *
      (b * u0 + c * v0) +
    (w1 - ((w1 * v2 - w2 * v1) * (u1 * v2 - u2 * v1) + (w2 * v0 - w0 * v2) * (u2 * v0 - u0 * v2) +
      (w0 * v1 - w1 * v0) * (u0 * v1 - u1 * v0)) / ((u1 * v2 - u2 * v1) * (u1 * v2 - u2 * v1) +
        (u2 * v0 - u0 * v2) * (u2 * v0 - u0 * v2) + (u0 * v1 - u1 * v0) * (u0 * v1 - u1 * v0)) * u1 -
      ((u1 * w2 - u2 * w1) * (u1 * v2 - u2 * v1) + (u2 * w0 - u0 * w2) * (u2 * v0 - u0 * v2) +
      (u0 * w1 - u1 * w0) * (u0 * v1 - u1 * v0)) / ((u1 * v2 - u2 * v1) * (u1 * v2 - u2 * v1) +
        (u2 * v0 - u0 * v2) * (u2 * v0 - u0 * v2) + (u0 * v1 - u1 * v0) * (u0 * v1 - u1 * v0)) * v1) *
      (b * u1 + c * v1) +
    (w2 - ((w1 * v2 - w2 * v1) * (u1 * v2 - u2 * v1) + (w2 * v0 - w0 * v2) * (u2 * v0 - u0 * v2) +
      (w0 * v1 - w1 * v0) * (u0 * v1 - u1 * v0)) / ((u1 * v2 - u2 * v1) * (u1 * v2 - u2 * v1) +
        (u2 * v0 - u0 * v2) * (u2 * v0 - u0 * v2) + (u0 * v1 - u1 * v0) * (u0 * v1 - u1 * v0)) * u2 -
      ((u1 * w2 - u2 * w1) * (u1 * v2 - u2 * v1) + (u2 * w0 - u0 * w2) * (u2 * v0 - u0 * v2) +
      (u0 * w1 - u1 * w0) * (u0 * v1 - u1 * v0)) / ((u1 * v2 - u2 * v1) * (u1 * v2 - u2 * v1) +
        (u2 * v0 - u0 * v2) * (u2 * v0 - u0 * v2) + (u0 * v1 - u1 * v0) * (u0 * v1 - u1 * v0)) * v2) *
      (b * u2 + c * v2) = 0 := by
  set S := (u1 * v2 - u2 * v1) * (u1 * v2 - u2 * v1) + (u2 * v0 - u0 * v2) * (u2 * v0 - u0 * v2) +
      (u0 * v1 - u1 * v0) * (u0 * v1 - u1 * v0) with hSdef
  set B := (w1 * v2 - w2 * v1) * (u1 * v2 - u2 * v1) + (w2 * v0 - w0 * v2) * (u2 * v0 - u0 * v2) +
      (w0 * v1 - w1 * v0) * (u0 * v1 - u1 * v0) with hB
  set C := (u1 * w2 - u2 * w1) * (u1 * v2 - u2 * v1) + (u2 * w0 - u0 * w2) * (u2 * v0 - u0 * v2) +
      (u0 * w1 - u1 * w0) * (u0 * v1 - u1 * v0) with hC
  have hu : S * (w0 * u0 + w1 * u1 + w2 * u2) - B * (u0 * u0 + u1 * u1 + u2 * u2) -
      C * (v0 * u0 + v1 * u1 + v2 * u2) = 0 := by rw [hSdef, hB, hC]; ring
  have hv : S * (w0 * v0 + w1 * v1 + w2 * v2) - B * (u0 * v0 + u1 * v1 + u2 * v2) -
      C * (v0 * v0 + v1 * v1 + v2 * v2) = 0 := by rw [hSdef, hB, hC]; ring
  clear_value S B C
  field_simp
  linear_combination b * hu + c * hv

/-- For a triangle with area the computed coordinates are those of the foot of the perpendicular. -/
theorem barycentric_foot (p p1 p2 p3 : Fin 3 → K)
    (hn : crossProduct (fun i => p2 i - p1 i) (fun i => p3 i - p1 i) ≠ 0) :
    (barycentric p p1 p2 p3).1 + (barycentric p p1 p2 p3).2.1 + (barycentric p p1 p2 p3).2.2 = 1 ∧
    ∀ a b c : K, a + b + c = 0 →
      ∑ i, (p i - bary p1 p2 p3 (barycentric p p1 p2 p3).1 (barycentric p p1 p2 p3).2.1 (barycentric p p1 p2 p3).2.2 i) *
        bary p1 p2 p3 a b c i = 0 := by
  refine ⟨by unfold barycentric; ring, fun a b c h => ?_⟩
  have hS : crossProduct (fun i => p2 i - p1 i) (fun i => p3 i - p1 i) 0 *
      crossProduct (fun i => p2 i - p1 i) (fun i => p3 i - p1 i) 0 +
      crossProduct (fun i => p2 i - p1 i) (fun i => p3 i - p1 i) 1 *
      crossProduct (fun i => p2 i - p1 i) (fun i => p3 i - p1 i) 1 +
      crossProduct (fun i => p2 i - p1 i) (fun i => p3 i - p1 i) 2 *
      crossProduct (fun i => p2 i - p1 i) (fun i => p3 i - p1 i) 2 ≠ 0 := by
    intro h0
    apply hn
    set n := crossProduct (fun i => p2 i - p1 i) (fun i => p3 i - p1 i)
    have q0 := mul_self_nonneg (n 0)
    have q1 := mul_self_nonneg (n 1)
    have q2 := mul_self_nonneg (n 2)
    funext i
    fin_cases i
    · exact mul_self_eq_zero.mp (show n 0 * n 0 = 0 by linarith)
    · exact mul_self_eq_zero.mp (show n 1 * n 1 = 0 by linarith)
    · exact mul_self_eq_zero.mp (show n 2 * n 2 = 0 by linarith)
  have ha : a = -b - c := by linarith
  subst ha
  rw [Fin.sum_univ_three]
  have e0 : ∀ i, bary p1 p2 p3 (-b - c) b c i = b * (p2 i - p1 i) + c * (p3 i - p1 i) := by
    intro i; unfold bary; ring
  have e1 : ∀ i, p i - bary p1 p2 p3 (barycentric p p1 p2 p3).1 (barycentric p p1 p2 p3).2.1
      (barycentric p p1 p2 p3).2.2 i = (p i - p1 i) - (barycentric p p1 p2 p3).2.1 * (p2 i - p1 i) -
        (barycentric p p1 p2 p3).2.2 * (p3 i - p1 i) := by
    intro i
    have : (barycentric p p1 p2 p3).1 = 1 - (barycentric p p1 p2 p3).2.2 - (barycentric p p1 p2 p3).2.1 := rfl
    unfold bary
    rw [this]
    ring
  rw [e0, e0, e0, e1, e1, e1]
  obtain ⟨hb, hc⟩ : (barycentric p p1 p2 p3).2.1 = _ ∧ (barycentric p p1 p2 p3).2.2 = _ := ⟨rfl, rfl⟩
  rw [hb, hc]
  simp only [crossProduct, Matrix.cons_val_zero, Matrix.cons_val_one, Matrix.cons_val] at hS ⊢
  exact foot_identity _ _ _ _ _ _ _ _ _ _ _ hS

/-- Pythagoras: moving from a point of the plane towards the foot of the perpendicular. -/
theorem pythagoras (p p1 p2 p3 : Fin 3 → K) (N l : Fin 3 → K) (hN : N 0 + N 1 + N 2 = 1) (hl : l 0 + l 1 + l 2 = 1)
    (hperp : ∀ a b c : K, a + b + c = 0 →
      ∑ i, (p i - bary p1 p2 p3 (N 0) (N 1) (N 2) i) * bary p1 p2 p3 a b c i = 0) (s : K) :
    dist2 p (bary p1 p2 p3 (l 0 + s * (N 0 - l 0)) (l 1 + s * (N 1 - l 1)) (l 2 + s * (N 2 - l 2))) =
      dist2 p (bary p1 p2 p3 (N 0) (N 1) (N 2)) +
        (1 - s) ^ 2 * dist2 (bary p1 p2 p3 (N 0) (N 1) (N 2)) (bary p1 p2 p3 (l 0) (l 1) (l 2)) := by
  have h := hperp (N 0 - l 0) (N 1 - l 1) (N 2 - l 2) (by linarith)
  rw [Fin.sum_univ_three] at h
  unfold dist2
  simp only [bary] at h ⊢
  linear_combination 2 * (1 - s) * h

/-- A point of the triangle, seen from a point whose foot is not inside. -/
theorem outside_min (p p1 p2 p3 : Fin 3 → K) (N l : Fin 3 → K) (hN : N 0 + N 1 + N 2 = 1) (hl : l 0 + l 1 + l 2 = 1)
    (hperp : ∀ a b c : K, a + b + c = 0 →
      ∑ i, (p i - bary p1 p2 p3 (N 0) (N 1) (N 2) i) * bary p1 p2 p3 a b c i = 0)
    (hl0 : ∀ i, 0 ≤ l i) {j : Fin 3} (hj : N j ≤ 0) :
    (boundarySearch p p1 p2 p3).d ≤ dist2 p (bary p1 p2 p3 (l 0) (l 1) (l 2)) := by
  obtain ⟨s, s0, s1, hpos, k, hk⟩ := reach_boundary l N hl0 hj
  have h1 := boundary_min p p1 p2 p3 (fun i => l i + s * (N i - l i))
    (by linear_combination (1 - s) * hl + s * hN) hpos hk
  rw [pythagoras p p1 p2 p3 N l hN hl hperp s] at h1
  have h2 := pythagoras p p1 p2 p3 N l hN hl hperp 0
  simp only [zero_mul, add_zero] at h2
  rw [h2]
  have h3 := dist2_nonneg (bary p1 p2 p3 (N 0) (N 1) (N 2)) (bary p1 p2 p3 (l 0) (l 1) (l 2))
  have h4 : (1 - s) ^ 2 ≤ (1 - 0) ^ 2 := by nlinarith
  exact h1.trans (by gcongr)

/-- Every point of a triangle without area lies on an edge. -/
theorem degenerate_min (p p1 p2 p3 : Fin 3 → K)
    (hn : crossProduct (fun i => p2 i - p1 i) (fun i => p3 i - p1 i) = 0)
    (l : Fin 3 → K) (hl : l 0 + l 1 + l 2 = 1) (hl0 : ∀ i, 0 ≤ l i) :
    (boundarySearch p p1 p2 p3).d ≤ dist2 p (bary p1 p2 p3 (l 0) (l 1) (l 2)) := by
  -- a dependency
  obtain ⟨d, hsum, hdep, j, hj⟩ : ∃ d : Fin 3 → K, d 0 + d 1 + d 2 = 0 ∧
      (∀ i, d 0 * p1 i + d 1 * p2 i + d 2 * p3 i = 0) ∧ ∃ j, d j ≠ 0 := by
    by_cases hu : ∀ i, p2 i - p1 i = 0
    · refine ⟨![-1, 1, 0], by simp, fun i => ?_, 1, by simp⟩
      have := hu i
      simp
      linarith
    · obtain ⟨k, hk⟩ := not_forall.mp hu
      have h0 := congrFun hn 0
      have h1 := congrFun hn 1
      have h2 := congrFun hn 2
      simp only [crossProduct, Matrix.cons_val_zero, Matrix.cons_val_one, Matrix.cons_val, Pi.zero_apply] at h0 h1 h2
      refine ⟨![(p2 k - p1 k) - (p3 k - p1 k), p3 k - p1 k, -(p2 k - p1 k)], by simp, fun i => ?_, 2, ?_⟩
      swap
      · show -(p2 k - p1 k) ≠ 0
        exact neg_ne_zero.mpr hk
      simp only [Matrix.cons_val_zero, Matrix.cons_val_one, Matrix.cons_val]
      fin_cases k <;> fin_cases i <;>
        simp only [Fin.zero_eta, Fin.mk_one, Fin.reduceFinMk] <;>
        first
          | ring1
          | linear_combination h0
          | linear_combination -h0
          | linear_combination h1
          | linear_combination -h1
          | linear_combination h2
          | linear_combination -h2
  set t := -(l j / d j) with ht
  obtain ⟨s, -, -, hpos, k, hk⟩ := reach_boundary l (fun i => l i + t * d i) hl0 (i0 := j)
    (le_of_eq (by rw [ht]; field_simp; ring))
  have h1 := boundary_min p p1 p2 p3 (fun i => l i + s * (l i + t * d i - l i))
    (by linear_combination hl + s * t * hsum) hpos hk
  have e : bary p1 p2 p3 (l 0 + s * (l 0 + t * d 0 - l 0)) (l 1 + s * (l 1 + t * d 1 - l 1))
      (l 2 + s * (l 2 + t * d 2 - l 2)) = bary p1 p2 p3 (l 0) (l 1) (l 2) := by
    funext i
    unfold bary
    linear_combination s * t * hdep i
  rwa [e] at h1

/-! ## The projection -/

theorem normal_squared_ne (n : Fin 3 → K) : n 0 * n 0 + n 1 * n 1 + n 2 * n 2 ≠ 0 ↔ n ≠ 0 := by
  constructor
  · rintro h rfl
    simp at h
  · intro hn h0
    apply hn
    have q0 := mul_self_nonneg (n 0)
    have q1 := mul_self_nonneg (n 1)
    have q2 := mul_self_nonneg (n 2)
    funext i
    fin_cases i
    · exact mul_self_eq_zero.mp (show n 0 * n 0 = 0 by linarith)
    · exact mul_self_eq_zero.mp (show n 1 * n 1 = 0 by linarith)
    · exact mul_self_eq_zero.mp (show n 2 * n 2 = 0 by linarith)

/-- **C107.**  No point of the triangle is nearer than the returned point; for every point, every triangle
(also one without area) and every tolerance that is not negative. -/
theorem closest_point_nearest (p p1 p2 p3 : Fin 3 → K) {tol : K} (htol : 0 ≤ tol) (q : Fin 3 → K)
    (hq : InTriangle 0 p1 p2 p3 q) : dist2 p (closestPointProjection p p1 p2 p3 tol).1 ≤ dist2 p q := by
  obtain ⟨a, b, c, hsum, ha, hb, hc, rfl⟩ := hq
  have hl0 : ∀ i, 0 ≤ (![a, b, c] : Fin 3 → K) i := by
    intro i
    fin_cases i
    · simpa using ha
    · simpa using hb
    · simpa using hc
  have hl : (![a, b, c] : Fin 3 → K) 0 + (![a, b, c] : Fin 3 → K) 1 + (![a, b, c] : Fin 3 → K) 2 = 1 := by
    simpa using hsum
  unfold closestPointProjection
  dsimp only
  simp only [normal_squared_ne]
  obtain ⟨hd, -, -⟩ := boundarySearch_spec p p1 p2 p3
  by_cases hn : crossProduct (fun i => p2 i - p1 i) (fun i => p3 i - p1 i) = 0
  · rw [if_neg (fun h => h.1 hn), ← hd]
    exact degenerate_min p p1 p2 p3 hn ![a, b, c] hl hl0
  · obtain ⟨hN, hperp⟩ := barycentric_foot p p1 p2 p3 hn
    set N : Fin 3 → K := ![(barycentric p p1 p2 p3).1, (barycentric p p1 p2 p3).2.1, (barycentric p p1 p2 p3).2.2]
      with hNdef
    have hN' : N 0 + N 1 + N 2 = 1 := hN
    have hperp' : ∀ a b c : K, a + b + c = 0 →
      ∑ i, (p i - bary p1 p2 p3 (N 0) (N 1) (N 2) i) * bary p1 p2 p3 a b c i = 0 := hperp
    split
    next h =>
      have h1 := pythagoras p p1 p2 p3 N ![a, b, c] hN' hl hperp' 0
      simp only [zero_mul, add_zero] at h1
      have h2 := dist2_nonneg (bary p1 p2 p3 (N 0) (N 1) (N 2)) (bary p1 p2 p3 a b c)
      have h3 : dist2 p (bary p1 p2 p3 a b c) = dist2 p (bary p1 p2 p3 (N 0) (N 1) (N 2)) +
        (1 - 0) ^ 2 * dist2 (bary p1 p2 p3 (N 0) (N 1) (N 2)) (bary p1 p2 p3 a b c) := h1
      have h4 : dist2 p (bary p1 p2 p3 (N 0) (N 1) (N 2)) ≤ dist2 p (bary p1 p2 p3 a b c) := by
        rw [h3]; linarith
      exact h4
    next h =>
      rw [← hd]
      obtain ⟨j, hj⟩ : ∃ j, N j ≤ 0 := by
        by_contra hcon
        push Not at hcon
        have c0 := hcon 0
        have c1 := hcon 1
        have c2 := hcon 2
        apply h
        simp only [decide_eq_true_eq]
        refine ⟨hn, ⟨?_, ?_⟩, ⟨?_, ?_⟩, ?_, ?_⟩
        · show -tol < N 0; linarith
        · show N 0 < 1 + tol; linarith
        · show -tol < N 1; linarith
        · show N 1 < 1 + tol; linarith
        · show -tol < N 2; linarith
        · show N 2 < 1 + tol; linarith
      exact outside_min p p1 p2 p3 N ![a, b, c] hN' hl hperp' hl0 hj

/-- **C107.**  The returned point lies in the triangle, up to the tolerance in its barycentric coordinates. -/
theorem closest_point_in_triangle (p p1 p2 p3 : Fin 3 → K) {tol : K} (htol : 0 ≤ tol) :
    InTriangle tol p1 p2 p3 (closestPointProjection p p1 p2 p3 tol).1 := by
  unfold closestPointProjection
  dsimp only
  split
  next h =>
    simp only [decide_eq_true_eq] at h
    obtain ⟨-, ⟨h1, -⟩, ⟨h2, -⟩, h3, -⟩ := h
    exact ⟨_, _, _, by unfold barycentric; ring, le_of_lt h1, le_of_lt h2, le_of_lt h3, rfl⟩
  next h =>
    obtain ⟨-, ⟨a, b, c, hs, ha, hb, hc, -, he⟩, -⟩ := boundarySearch_spec p p1 p2 p3
    exact ⟨a, b, c, hs, by linarith, by linarith, by linarith, he⟩

/-- **C107.**  With tolerance zero the returned point is the nearest point of the triangle. -/
theorem closest_point_exact (p p1 p2 p3 : Fin 3 → K) :
    InTriangle 0 p1 p2 p3 (closestPointProjection p p1 p2 p3 0).1 ∧
    ∀ q, InTriangle 0 p1 p2 p3 q → dist2 p (closestPointProjection p p1 p2 p3 0).1 ≤ dist2 p q :=
  ⟨closest_point_in_triangle p p1 p2 p3 le_rfl, closest_point_nearest p p1 p2 p3 le_rfl⟩

/-- **C107.**  A projection reported as `FACE` is the foot of the perpendicular, and lies strictly inside
the triangle: all barycentric coordinates are at least the tolerance, and the line to the point is normal to
all edges. -/
theorem closest_point_face (p p1 p2 p3 : Fin 3 → K) {tol : K}
    (h : (closestPointProjection p p1 p2 p3 tol).2 = .face) :
    (∃ a b c : K, a + b + c = 1 ∧ tol ≤ a ∧ tol ≤ b ∧ tol ≤ c ∧
      (closestPointProjection p p1 p2 p3 tol).1 = bary p1 p2 p3 a b c) ∧
    (∑ i, (p i - (closestPointProjection p p1 p2 p3 tol).1 i) * (p2 i - p1 i) = 0) ∧
    ∑ i, (p i - (closestPointProjection p p1 p2 p3 tol).1 i) * (p3 i - p1 i) = 0 := by
  unfold closestPointProjection at h ⊢
  dsimp only at h ⊢
  simp only [normal_squared_ne] at h ⊢
  split at h
  next hin =>
    rw [if_pos hin]
    obtain ⟨hn, h1, h2, h3⟩ := hin
    simp only [decide_eq_true_eq] at h h1 h2 h3
    split at h
    next => exact absurd h (by simp)
    next hz =>
      push Not at hz
      obtain ⟨z1, z2, z3⟩ := hz
      obtain ⟨hs, hperp⟩ := barycentric_foot p p1 p2 p3 hn
      refine ⟨⟨_, _, _, hs, z1 h1.1, z2 h2.1, z3 h3.1, rfl⟩, ?_, ?_⟩
      · have := hperp (-1) 1 0 (by ring)
        rw [← this]
        refine Finset.sum_congr rfl fun i _ => ?_
        unfold bary
        ring
      · have := hperp (-1) 0 1 (by ring)
        rw [← this]
        refine Finset.sum_congr rfl fun i _ => ?_
        unfold bary
        ring
  next => exact absurd h (by simp)

/-- **C107.**  A projection reported as `NODE_OR_EDGE` has a barycentric coordinate within the tolerance of
zero (it is on, or next to, an edge). -/
theorem closest_point_edge (p p1 p2 p3 : Fin 3 → K) {tol : K} (htol : 0 ≤ tol)
    (h : (closestPointProjection p p1 p2 p3 tol).2 = .nodeOrEdge) :
    ∃ a b c : K, a + b + c = 1 ∧ (|a| ≤ tol ∨ |b| ≤ tol ∨ |c| ≤ tol) ∧
      (closestPointProjection p p1 p2 p3 tol).1 = bary p1 p2 p3 a b c := by
  unfold closestPointProjection at h ⊢
  dsimp only at h ⊢
  split at h
  next hin =>
    rw [if_pos hin]
    split at h
    next hz =>
      simp only [decide_eq_true_eq] at hz
      refine ⟨_, _, _, by unfold barycentric; ring, ?_, rfl⟩
      rcases hz with z | z | z
      · exact Or.inl (abs_le.mpr ⟨z.1.le, z.2.le⟩)
      · exact Or.inr (Or.inl (abs_le.mpr ⟨z.1.le, z.2.le⟩))
      · exact Or.inr (Or.inr (abs_le.mpr ⟨z.1.le, z.2.le⟩))
    next => exact absurd h (by simp)
  next hin =>
    rw [if_neg hin]
    obtain ⟨-, ⟨a, b, c, hs, ha, hb, hc, h0, he⟩, -⟩ := boundarySearch_spec p p1 p2 p3
    refine ⟨a, b, c, hs, ?_, he⟩
    rcases h0 with z | z | z
    · exact Or.inl (by rw [z]; simpa using htol)
    · exact Or.inr (Or.inl (by rw [z]; simpa using htol))
    · exact Or.inr (Or.inr (by rw [z]; simpa using htol))

/-- The coordinates of the foot of the perpendicular are unique. -/
theorem foot_unique (p p1 p2 p3 : Fin 3 → K)
    (hn : crossProduct (fun i => p2 i - p1 i) (fun i => p3 i - p1 i) ≠ 0) {a b c : K} (hsum : a + b + c = 1)
    (hu : ∑ i, (p i - bary p1 p2 p3 a b c i) * (p2 i - p1 i) = 0)
    (hv : ∑ i, (p i - bary p1 p2 p3 a b c i) * (p3 i - p1 i) = 0) :
    barycentric p p1 p2 p3 = (a, b, c) := by
  obtain ⟨hs, hperp⟩ := barycentric_foot p p1 p2 p3 hn
  have eu := hperp (-1) 1 0 (by ring)
  have ev := hperp (-1) 0 1 (by ring)
  generalize barycentric p p1 p2 p3 = N at hs eu ev ⊢
  obtain ⟨A, B, C⟩ := N
  dsimp only at hs eu ev ⊢
  rw [Fin.sum_univ_three] at hu hv eu ev
  simp only [bary] at hu hv eu ev
  have hA : A = 1 - B - C := by linarith
  have ha : a = 1 - b - c := by linarith
  subst hA ha
  -- the difference, as a vector of the plane
  have d0 : ∀ i, (B - b) * (p2 i - p1 i) + (C - c) * (p3 i - p1 i) = 0 := by
    have hq : ((B - b) * (p2 0 - p1 0) + (C - c) * (p3 0 - p1 0)) ^ 2 +
        ((B - b) * (p2 1 - p1 1) + (C - c) * (p3 1 - p1 1)) ^ 2 +
        ((B - b) * (p2 2 - p1 2) + (C - c) * (p3 2 - p1 2)) ^ 2 = 0 := by
      linear_combination (B - b) * (hu - eu) + (C - c) * (hv - ev)
    have q0 := sq_nonneg ((B - b) * (p2 0 - p1 0) + (C - c) * (p3 0 - p1 0))
    have q1 := sq_nonneg ((B - b) * (p2 1 - p1 1) + (C - c) * (p3 1 - p1 1))
    have q2 := sq_nonneg ((B - b) * (p2 2 - p1 2) + (C - c) * (p3 2 - p1 2))
    intro i
    fin_cases i
    · show (B - b) * (p2 0 - p1 0) + (C - c) * (p3 0 - p1 0) = 0
      exact pow_eq_zero_iff two_ne_zero |>.mp (show ((B - b) * (p2 0 - p1 0) + (C - c) * (p3 0 - p1 0)) ^ 2 = 0 by linarith)
    · show (B - b) * (p2 1 - p1 1) + (C - c) * (p3 1 - p1 1) = 0
      exact pow_eq_zero_iff two_ne_zero |>.mp (show ((B - b) * (p2 1 - p1 1) + (C - c) * (p3 1 - p1 1)) ^ 2 = 0 by linarith)
    · show (B - b) * (p2 2 - p1 2) + (C - c) * (p3 2 - p1 2) = 0
      exact pow_eq_zero_iff two_ne_zero |>.mp (show ((B - b) * (p2 2 - p1 2) + (C - c) * (p3 2 - p1 2)) ^ 2 = 0 by linarith)
  have e0 := d0 0
  have e1 := d0 1
  have e2 := d0 2
  have key : ∀ i, (B - b) * crossProduct (fun i => p2 i - p1 i) (fun i => p3 i - p1 i) i = 0 ∧
      (C - c) * crossProduct (fun i => p2 i - p1 i) (fun i => p3 i - p1 i) i = 0 := by
    intro i
    fin_cases i
    · refine ⟨?_, ?_⟩
      · show (B - b) * ((p2 1 - p1 1) * (p3 2 - p1 2) - (p2 2 - p1 2) * (p3 1 - p1 1)) = 0
        linear_combination (p3 2 - p1 2) * e1 - (p3 1 - p1 1) * e2
      · show (C - c) * ((p2 1 - p1 1) * (p3 2 - p1 2) - (p2 2 - p1 2) * (p3 1 - p1 1)) = 0
        linear_combination (p2 1 - p1 1) * e2 - (p2 2 - p1 2) * e1
    · refine ⟨?_, ?_⟩
      · show (B - b) * ((p2 2 - p1 2) * (p3 0 - p1 0) - (p2 0 - p1 0) * (p3 2 - p1 2)) = 0
        linear_combination (p3 0 - p1 0) * e2 - (p3 2 - p1 2) * e0
      · show (C - c) * ((p2 2 - p1 2) * (p3 0 - p1 0) - (p2 0 - p1 0) * (p3 2 - p1 2)) = 0
        linear_combination (p2 2 - p1 2) * e0 - (p2 0 - p1 0) * e2
    · refine ⟨?_, ?_⟩
      · show (B - b) * ((p2 0 - p1 0) * (p3 1 - p1 1) - (p2 1 - p1 1) * (p3 0 - p1 0)) = 0
        linear_combination (p3 1 - p1 1) * e0 - (p3 0 - p1 0) * e1
      · show (C - c) * ((p2 0 - p1 0) * (p3 1 - p1 1) - (p2 1 - p1 1) * (p3 0 - p1 0)) = 0
        linear_combination (p2 0 - p1 0) * e1 - (p2 1 - p1 1) * e0
  obtain ⟨i, hi⟩ : ∃ i, crossProduct (fun i => p2 i - p1 i) (fun i => p3 i - p1 i) i ≠ 0 := by
    by_contra hcon
    push Not at hcon
    exact hn (funext hcon)
  have hB : B = b := sub_eq_zero.mp ((mul_eq_zero.mp (key i).1).resolve_right hi)
  have hC : C = c := sub_eq_zero.mp ((mul_eq_zero.mp (key i).2).resolve_right hi)
  rw [hB, hC]

/-- **C107.**  The projection is reported as `FACE` whenever the foot of the perpendicular is inside the
triangle, every barycentric coordinate being at least the tolerance (triangles with area, `tol > 0`). -/
theorem closest_point_reports_face (p p1 p2 p3 : Fin 3 → K) {tol : K} (htol : 0 < tol)
    (hn : crossProduct (fun i => p2 i - p1 i) (fun i => p3 i - p1 i) ≠ 0) {a b c : K} (hsum : a + b + c = 1)
    (ha : tol ≤ a) (hb : tol ≤ b) (hc : tol ≤ c)
    (hu : ∑ i, (p i - bary p1 p2 p3 a b c i) * (p2 i - p1 i) = 0)
    (hv : ∑ i, (p i - bary p1 p2 p3 a b c i) * (p3 i - p1 i) = 0) :
    closestPointProjection p p1 p2 p3 tol = (bary p1 p2 p3 a b c, .face) := by
  unfold closestPointProjection
  dsimp only
  rw [foot_unique p p1 p2 p3 hn hsum hu hv]
  dsimp only
  rw [if_pos ⟨(normal_squared_ne _).mpr hn, by simp; constructor <;> linarith, by simp; constructor <;> linarith,
    by simp; constructor <;> linarith⟩]
  rw [if_neg]
  · rfl
  · simp only [decide_eq_true_eq]
    rintro (h | h | h)
    · exact absurd h.2 (not_lt.mpr ha)
    · exact absurd h.2 (not_lt.mpr hb)
    · exact absurd h.2 (not_lt.mpr hc)

/-- A vector normal to two others is parallel to their cross product. -/
theorem parallel_identity (u0 u1 u2 v0 v1 v2 e0 e1 e2 : K) (hu : e0 * u0 + e1 * u1 + e2 * u2 = 0)
    (hv : e0 * v0 + e1 * v1 + e2 * v2 = 0) :
    (e0 * ((u1 * v2 - u2 * v1) * (u1 * v2 - u2 * v1) + (u2 * v0 - u0 * v2) * (u2 * v0 - u0 * v2) +
      (u0 * v1 - u1 * v0) * (u0 * v1 - u1 * v0)) =
      (e0 * (u1 * v2 - u2 * v1) + e1 * (u2 * v0 - u0 * v2) + e2 * (u0 * v1 - u1 * v0)) * (u1 * v2 - u2 * v1)) ∧
    (e1 * ((u1 * v2 - u2 * v1) * (u1 * v2 - u2 * v1) + (u2 * v0 - u0 * v2) * (u2 * v0 - u0 * v2) +
      (u0 * v1 - u1 * v0) * (u0 * v1 - u1 * v0)) =
      (e0 * (u1 * v2 - u2 * v1) + e1 * (u2 * v0 - u0 * v2) + e2 * (u0 * v1 - u1 * v0)) * (u2 * v0 - u0 * v2)) ∧
    e2 * ((u1 * v2 - u2 * v1) * (u1 * v2 - u2 * v1) + (u2 * v0 - u0 * v2) * (u2 * v0 - u0 * v2) +
      (u0 * v1 - u1 * v0) * (u0 * v1 - u1 * v0)) =
      (e0 * (u1 * v2 - u2 * v1) + e1 * (u2 * v0 - u0 * v2) + e2 * (u0 * v1 - u1 * v0)) * (u0 * v1 - u1 * v0) := by
  refine ⟨?_, ?_, ?_⟩
  · linear_combination (u0 * (v0 ^ 2 + v1 ^ 2 + v2 ^ 2) - v0 * (u0 * v0 + u1 * v1 + u2 * v2)) * hu +
      (v0 * (u0 ^ 2 + u1 ^ 2 + u2 ^ 2) - u0 * (u0 * v0 + u1 * v1 + u2 * v2)) * hv
  · linear_combination (u1 * (v0 ^ 2 + v1 ^ 2 + v2 ^ 2) - v1 * (u0 * v0 + u1 * v1 + u2 * v2)) * hu +
      (v1 * (u0 ^ 2 + u1 ^ 2 + u2 ^ 2) - u1 * (u0 * v0 + u1 * v1 + u2 * v2)) * hv
  · linear_combination (u2 * (v0 ^ 2 + v1 ^ 2 + v2 ^ 2) - v2 * (u0 * v0 + u1 * v1 + u2 * v2)) * hu +
      (v2 * (u0 ^ 2 + u1 ^ 2 + u2 ^ 2) - u2 * (u0 * v0 + u1 * v1 + u2 * v2)) * hv

/-- **C107.**  The batch call projects every node on its own triangle. -/
theorem closest_points_batch (nodes triangles : List (Entity K)) (tol : K) (i : ℕ) (hn : i < nodes.length)
    (ht : i < triangles.length) :
    (closestPointProjections nodes triangles tol)[i]? = some (closestPointProjection nodes[i].coord1
      triangles[i].coord1 triangles[i].coord2 triangles[i].coord3 tol) := by
  simp [closestPointProjections, List.getElem?_map, List.getElem?_zip_eq_some, hn, ht, List.zip]

/-- **C107.**  `SimpleClosestPointProjectionSingle` reports a face exactly when the foot of the perpendicular
lies in the (enlarged) triangle; the point is then that foot, at least as near as every point of the triangle,
the normal is a unit vector normal to the triangle, and the node is the foot moved by the gap along it. -/
theorem simple_closest_point (node tri : Entity ℝ) {tol : ℝ} (htol : 0 ≤ tol) {x n : Fin 3 → ℝ} {g : ℝ}
    (h : simpleClosestPoint node tri tol = some (x, g, n)) :
    x = (closestPointProjection node.coord1 tri.coord1 tri.coord2 tri.coord3 tol).1 ∧
    InTriangle tol tri.coord1 tri.coord2 tri.coord3 x ∧
    (∀ q, InTriangle 0 tri.coord1 tri.coord2 tri.coord3 q → dist2 node.coord1 x ≤ dist2 node.coord1 q) ∧
    ∑ i, n i * n i = 1 ∧ ∑ i, n i * (tri.coord2 i - tri.coord1 i) = 0 ∧
    ∑ i, n i * (tri.coord3 i - tri.coord1 i) = 0 ∧ g ^ 2 = dist2 node.coord1 x ∧
    ∀ i, node.coord1 i = x i + g * n i := by
  have hx : x = (closestPointProjection node.coord1 tri.coord1 tri.coord2 tri.coord3 tol).1 ∧
      x = bary tri.coord1 tri.coord2 tri.coord3 (barycentric node.coord1 tri.coord1 tri.coord2 tri.coord3).1
        (barycentric node.coord1 tri.coord1 tri.coord2 tri.coord3).2.1
        (barycentric node.coord1 tri.coord1 tri.coord2 tri.coord3).2.2 ∧
      crossProduct (fun i => tri.coord2 i - tri.coord1 i) (fun i => tri.coord3 i - tri.coord1 i) ≠ 0 ∧
      (∀ i, n i = crossProduct (fun i => tri.coord2 i - tri.coord1 i) (fun i => tri.coord3 i - tri.coord1 i) i *
        (1 / Real.sqrt (crossProduct (fun i => tri.coord2 i - tri.coord1 i) (fun i => tri.coord3 i - tri.coord1 i) 0 *
          crossProduct (fun i => tri.coord2 i - tri.coord1 i) (fun i => tri.coord3 i - tri.coord1 i) 0 +
          crossProduct (fun i => tri.coord2 i - tri.coord1 i) (fun i => tri.coord3 i - tri.coord1 i) 1 *
          crossProduct (fun i => tri.coord2 i - tri.coord1 i) (fun i => tri.coord3 i - tri.coord1 i) 1 +
          crossProduct (fun i => tri.coord2 i - tri.coord1 i) (fun i => tri.coord3 i - tri.coord1 i) 2 *
          crossProduct (fun i => tri.coord2 i - tri.coord1 i) (fun i => tri.coord3 i - tri.coord1 i) 2))) ∧
      g = (node.coord1 0 - x 0) * n 0 + (node.coord1 1 - x 1) * n 1 + (node.coord1 2 - x 2) * n 2 := by
    unfold simpleClosestPoint at h
    dsimp only at h
    split at h
    next hin =>
      obtain ⟨rfl, rfl, rfl⟩ : _ = x ∧ _ = g ∧ _ = n := by
        simpa only [Option.some.injEq, Prod.mk.injEq] using h
      refine ⟨?_, rfl, (normal_squared_ne _).mp hin.1, fun i => rfl, rfl⟩
      unfold closestPointProjection
      dsimp only
      rw [if_pos (by simpa using hin)]
    next => exact absurd h (by simp)
  obtain ⟨hx1, hx2, hn, hnorm, hg⟩ := hx
  obtain ⟨hsum, hperp⟩ := barycentric_foot node.coord1 tri.coord1 tri.coord2 tri.coord3 hn
  have hS := (normal_squared_ne _).mpr hn
  rw [← hx2] at hperp
  set c := crossProduct (fun i => tri.coord2 i - tri.coord1 i) (fun i => tri.coord3 i - tri.coord1 i) with hc
  have hSpos : 0 < c 0 * c 0 + c 1 * c 1 + c 2 * c 2 :=
    lt_of_le_of_ne (by nlinarith [mul_self_nonneg (c 0), mul_self_nonneg (c 1), mul_self_nonneg (c 2)]) hS.symm
  set r := 1 / Real.sqrt (c 0 * c 0 + c 1 * c 1 + c 2 * c 2) with hr
  have hr2 : r * r * (c 0 * c 0 + c 1 * c 1 + c 2 * c 2) = 1 := by
    rw [hr]
    have := Real.mul_self_sqrt hSpos.le
    rw [div_mul_div_comm, this, one_mul, one_div, inv_mul_cancel₀ hS]
  have hnn : ∑ i, n i * n i = 1 := by
    rw [Fin.sum_univ_three, hnorm, hnorm, hnorm]
    linear_combination hr2
  -- the edges and the normal
  have eu := hperp (-1) 1 0 (by ring)
  have ev := hperp (-1) 0 1 (by ring)
  rw [Fin.sum_univ_three] at eu ev
  simp only [bary] at eu ev
  have c0 : c 0 = (tri.coord2 1 - tri.coord1 1) * (tri.coord3 2 - tri.coord1 2) -
      (tri.coord2 2 - tri.coord1 2) * (tri.coord3 1 - tri.coord1 1) := rfl
  have c1 : c 1 = (tri.coord2 2 - tri.coord1 2) * (tri.coord3 0 - tri.coord1 0) -
      (tri.coord2 0 - tri.coord1 0) * (tri.coord3 2 - tri.coord1 2) := rfl
  have c2 : c 2 = (tri.coord2 0 - tri.coord1 0) * (tri.coord3 1 - tri.coord1 1) -
      (tri.coord2 1 - tri.coord1 1) * (tri.coord3 0 - tri.coord1 0) := rfl
  have hnu : ∑ i, n i * (tri.coord2 i - tri.coord1 i) = 0 := by
    rw [Fin.sum_univ_three, hnorm, hnorm, hnorm, c0, c1, c2]; ring
  have hnv : ∑ i, n i * (tri.coord3 i - tri.coord1 i) = 0 := by
    rw [Fin.sum_univ_three, hnorm, hnorm, hnorm, c0, c1, c2]; ring
  -- the offset is parallel to the normal
  have hpar : ∀ i, (node.coord1 i - x i) * (c 0 * c 0 + c 1 * c 1 + c 2 * c 2) =
      ((node.coord1 0 - x 0) * c 0 + (node.coord1 1 - x 1) * c 1 + (node.coord1 2 - x 2) * c 2) * c i := by
    have hu' : (node.coord1 0 - x 0) * (tri.coord2 0 - tri.coord1 0) + (node.coord1 1 - x 1) * (tri.coord2 1 - tri.coord1 1) +
        (node.coord1 2 - x 2) * (tri.coord2 2 - tri.coord1 2) = 0 := by linear_combination eu
    have hv' : (node.coord1 0 - x 0) * (tri.coord3 0 - tri.coord1 0) + (node.coord1 1 - x 1) * (tri.coord3 1 - tri.coord1 1) +
        (node.coord1 2 - x 2) * (tri.coord3 2 - tri.coord1 2) = 0 := by linear_combination ev
    obtain ⟨i0, i1, i2⟩ := parallel_identity _ _ _ _ _ _ _ _ _ hu' hv'
    rw [← c0, ← c1, ← c2] at i0 i1 i2
    intro i
    fin_cases i
    · exact i0
    · exact i1
    · exact i2
  have hgn : ∀ i, node.coord1 i - x i = g * n i := by
    intro i
    rw [hg, hnorm i, hnorm 0, hnorm 1, hnorm 2]
    linear_combination (r * r) * hpar i - (node.coord1 i - x i) * hr2
  have hg2 : g ^ 2 = dist2 node.coord1 x := by
    unfold dist2
    rw [hgn 0, hgn 1, hgn 2]
    rw [Fin.sum_univ_three] at hnn
    linear_combination -g ^ 2 * hnn
  refine ⟨hx1, ?_, ?_, hnn, hnu, hnv, hg2, fun i => by linarith [hgn i]⟩
  · rw [hx1]; exact closest_point_in_triangle _ _ _ _ htol
  · rw [hx1]; exact closest_point_nearest _ _ _ _ htol

/-- **C107.**  The simple variant reports a face exactly when the triangle has an area and the foot of the
perpendicular lies in the enlarged triangle (all coordinates in `(-tol, 1 + tol)`). -/
theorem simple_closest_point_iff (node tri : Entity ℝ) (tol : ℝ) :
    (∃ r, simpleClosestPoint node tri tol = some r) ↔
      crossProduct (fun i => tri.coord2 i - tri.coord1 i) (fun i => tri.coord3 i - tri.coord1 i) ≠ 0 ∧
      ∃ a b c : ℝ, a + b + c = 1 ∧ (-tol < a ∧ a < 1 + tol) ∧ (-tol < b ∧ b < 1 + tol) ∧ (-tol < c ∧ c < 1 + tol) ∧
        (∑ i, (node.coord1 i - bary tri.coord1 tri.coord2 tri.coord3 a b c i) * (tri.coord2 i - tri.coord1 i) = 0) ∧
        ∑ i, (node.coord1 i - bary tri.coord1 tri.coord2 tri.coord3 a b c i) * (tri.coord3 i - tri.coord1 i) = 0 := by
  constructor
  · rintro ⟨r, h⟩
    unfold simpleClosestPoint at h
    dsimp only at h
    split at h
    next hin =>
      obtain ⟨hS, ha, hb, hc⟩ := hin
      have hn := (normal_squared_ne _).mp hS
      obtain ⟨hs, hperp⟩ := barycentric_foot node.coord1 tri.coord1 tri.coord2 tri.coord3 hn
      refine ⟨hn, _, _, _, hs, ha, hb, hc, ?_, ?_⟩
      · rw [← hperp (-1) 1 0 (by ring)]
        refine Finset.sum_congr rfl fun i _ => ?_
        unfold bary
        ring
      · rw [← hperp (-1) 0 1 (by ring)]
        refine Finset.sum_congr rfl fun i _ => ?_
        unfold bary
        ring
    next => exact absurd h (by simp)
  · rintro ⟨hn, a, b, c, hs, ha, hb, hc, hu, hv⟩
    unfold simpleClosestPoint
    dsimp only
    rw [foot_unique _ _ _ _ hn hs hu hv]
    dsimp only
    rw [if_pos ⟨(normal_squared_ne _).mpr hn, ha, hb, hc⟩]
    exact ⟨_, rfl⟩

/-- Above the triangle: the foot, reported as `FACE`. -/
example : closestPointProjection (![1, 1, 5] : Fin 3 → ℚ) ![0, 0, 0] ![4, 0, 0] ![0, 4, 0] (1 / 100) =
    (![1, 1, 0], .face) := by
  decide +kernel

/-- Beyond the edge `p2 p3`: a point of that edge. -/
example : closestPointProjection (![4, 6, 5] : Fin 3 → ℚ) ![0, 0, 0] ![4, 0, 0] ![0, 4, 0] (1 / 100) =
    (![1, 3, 0], .nodeOrEdge) := by
  decide +kernel

/-- Beyond a vertex: that vertex. -/
example : closestPointProjection (![-1, -2, 5] : Fin 3 → ℚ) ![0, 0, 0] ![4, 0, 0] ![0, 4, 0] (1 / 100) =
    (![0, 0, 0], .nodeOrEdge) := by
  decide +kernel

/-- A triangle without area: the nearest point of the segment. -/
example : closestPointProjection (![3, 2, 0] : Fin 3 → ℚ) ![0, 0, 0] ![1, 0, 0] ![4, 0, 0] (1 / 100) =
    (![3, 0, 0], .nodeOrEdge) := by
  decide +kernel

/-- The hypotheses of the theorems. -/
example : InTriangle (0 : ℚ) ![0, 0, 0] ![4, 0, 0] ![0, 4, 0] ![1, 1, 0] :=
  ⟨1 / 2, 1 / 4, 1 / 4, by norm_num, by norm_num, by norm_num, by norm_num, by decide +kernel⟩

end NimbleSM.Contact
