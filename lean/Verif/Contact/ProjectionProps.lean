import Verif.Contact.Entity
import Mathlib.Tactic.Linarith
import Mathlib.Tactic.FieldSimp
import Mathlib.Tactic.LinearCombination
import Mathlib.Tactic.NormNum
import Mathlib.Tactic.FinCases

/-!
# C10: the node-to-face projection

Specification: the outward unit normal of a triangle, and the decomposition of a point into barycentric
coordinates and signed distance, are characterised without reference to the code.
-/

namespace NimbleSM.Contact

open NimbleSM.Tensor

/-- The triangle has two independent edges. -/
def NonDegenerate (v1 v2 v3 : Fin 3 → ℝ) : Prop :=
  crossProduct (fun d => v2 d - v1 d) (fun d => v3 d - v1 d) ≠ 0

/-- `n` is the unit normal of the triangle, on the side from which `v1, v2, v3` are seen counterclockwise. -/
structure IsUnitNormal (v1 v2 v3 n : Fin 3 → ℝ) : Prop where
  unit : dot n n = 1
  perp2 : dot n (fun d => v2 d - v1 d) = 0
  perp3 : dot n (fun d => v3 d - v1 d) = 0
  orient : 0 < dot n (crossProduct (fun d => v2 d - v1 d) (fun d => v3 d - v1 d))

/-- `N` are the barycentric coordinates and `g` the signed distance of `p` with respect to the triangle. -/
structure IsDecomposition (p v1 v2 v3 n N : Fin 3 → ℝ) (g : ℝ) : Prop where
  sum : N 0 + N 1 + N 2 = 1
  point : ∀ d, p d = N 0 * v1 d + N 1 * v2 d + N 2 * v3 d + g * n d

/-- The barycentric coordinates are in `[0,1]` up to the tolerance. -/
def InRange (tol : ℝ) (N : Fin 3 → ℝ) : Prop := ∀ i, -tol < N i ∧ N i < 1 + tol

theorem dot_self_eq_zero {a : Fin 3 → ℝ} (h : dot a a = 0) : a = 0 := by
  unfold dot at h
  have h0 := mul_self_nonneg (a 0)
  have h1 := mul_self_nonneg (a 1)
  have h2 := mul_self_nonneg (a 2)
  have e0 : a 0 = 0 := mul_self_eq_zero.mp (by linarith)
  have e1 : a 1 = 0 := mul_self_eq_zero.mp (by linarith)
  have e2 : a 2 = 0 := mul_self_eq_zero.mp (by linarith)
  ext i
  fin_cases i
  · exact e0
  · exact e1
  · exact e2

theorem dot_self_nonneg (a : Fin 3 → ℝ) : 0 ≤ dot a a := by
  unfold dot
  have h0 := mul_self_nonneg (a 0)
  have h1 := mul_self_nonneg (a 1)
  have h2 := mul_self_nonneg (a 2)
  linarith

theorem dot_self_pos {a : Fin 3 → ℝ} (h : a ≠ 0) : 0 < dot a a :=
  lt_of_le_of_ne (dot_self_nonneg a) fun e => h (dot_self_eq_zero e.symm)

/-- A unit normal is the normalised cross product. -/
theorem unitNormal_eq {u v n : Fin 3 → ℝ} (h1 : dot n n = 1) (h2 : dot n u = 0) (h3 : dot n v = 0)
    (h4 : 0 < dot n (crossProduct u v)) :
    dot n (crossProduct u v) = Real.sqrt (dot (crossProduct u v) (crossProduct u v)) ∧
    ∀ d, n d = crossProduct u v d / Real.sqrt (dot (crossProduct u v) (crossProduct u v)) := by
  set D := crossProduct u v with hD
  have hDd : D = ![u 1 * v 2 - u 2 * v 1, u 2 * v 0 - u 0 * v 2, u 0 * v 1 - u 1 * v 0] := rfl
  have c0 : D 0 = u 1 * v 2 - u 2 * v 1 := by rw [hDd]; rfl
  have c1 : D 1 = u 2 * v 0 - u 0 * v 2 := by rw [hDd]; rfl
  have c2 : D 2 = u 0 * v 1 - u 1 * v 0 := by rw [hDd]; rfl
  have hne : D ≠ 0 := by
    intro e
    rw [e] at h4
    simp [dot] at h4
  have hS := dot_self_pos hne
  unfold dot at h1 h2 h3
  -- D × n = 0
  have x0 : D 1 * n 2 - D 2 * n 1 = 0 := by
    rw [c1, c2]; linear_combination v 0 * h2 - u 0 * h3
  have x1 : D 2 * n 0 - D 0 * n 2 = 0 := by
    rw [c0, c2]; linear_combination v 1 * h2 - u 1 * h3
  have x2 : D 0 * n 1 - D 1 * n 0 = 0 := by
    rw [c0, c1]; linear_combination v 2 * h2 - u 2 * h3
  have hpar : ∀ d, dot D D * n d = dot n D * D d := by
    intro d
    unfold dot
    fin_cases d
    · show (D 0 * D 0 + D 1 * D 1 + D 2 * D 2) * n 0 = (n 0 * D 0 + n 1 * D 1 + n 2 * D 2) * D 0
      linear_combination (-D 1) * x2 + D 2 * x1
    · show (D 0 * D 0 + D 1 * D 1 + D 2 * D 2) * n 1 = (n 0 * D 0 + n 1 * D 1 + n 2 * D 2) * D 1
      linear_combination D 0 * x2 - D 2 * x0
    · show (D 0 * D 0 + D 1 * D 1 + D 2 * D 2) * n 2 = (n 0 * D 0 + n 1 * D 1 + n 2 * D 2) * D 2
      linear_combination (-D 0) * x1 + D 1 * x0
  have hsq : dot n D * dot n D = dot D D := by
    have e0 := hpar 0
    have e1 := hpar 1
    have e2 := hpar 2
    have : dot D D * (n 0 * n 0 + n 1 * n 1 + n 2 * n 2) = dot n D * dot n D := by
      have : dot n D * dot n D = dot n D * (n 0 * D 0 + n 1 * D 1 + n 2 * D 2) := rfl
      rw [this]
      linear_combination n 0 * e0 + n 1 * e1 + n 2 * e2
    rw [h1, mul_one] at this
    exact this.symm
  have hroot : dot n D = Real.sqrt (dot D D) := by
    rw [← hsq, Real.sqrt_mul_self h4.le]
  refine ⟨hroot, fun d => ?_⟩
  have hpos : 0 < Real.sqrt (dot D D) := Real.sqrt_pos.mpr hS
  rw [eq_div_iff hpos.ne']
  have := hpar d
  rw [← hsq] at this
  rw [← hroot]
  have h4' : dot n D ≠ 0 := h4.ne'
  apply mul_left_cancel₀ h4'
  linear_combination this

/-- The formulas of the code, for edges `u`, `v` and `w = p - v1`. -/
theorem alpha_formulas {u v n w : Fin 3 → ℝ} {a b g : ℝ} (hn : dot n n = 1) (h2 : dot n u = 0) (h3 : dot n v = 0)
    (h4 : 0 < dot n (crossProduct u v)) (hw : ∀ d, w d = a * u d + b * v d + g * n d) :
    dot (crossProduct u w) (crossProduct u v) / dot (crossProduct u v) (crossProduct u v) = b ∧
    dot (crossProduct w v) (crossProduct u v) / dot (crossProduct u v) (crossProduct u v) = a := by
  obtain ⟨-, hnD⟩ := unitNormal_eq hn h2 h3 h4
  have hne : crossProduct u v ≠ 0 := by
    intro e
    rw [e] at h4
    simp [dot] at h4
  have hS := dot_self_pos hne
  have hr : 0 < Real.sqrt (dot (crossProduct u v) (crossProduct u v)) := Real.sqrt_pos.mpr hS
  set r := Real.sqrt (dot (crossProduct u v) (crossProduct u v))
  have hw' : ∀ d, w d = a * u d + b * v d + (g / r) * crossProduct u v d := by
    intro d; rw [hw d, hnD d]; field_simp
  set q := g / r
  constructor
  · rw [div_eq_iff hS.ne']
    have e0 := hw' 0
    have e1 := hw' 1
    have e2 := hw' 2
    simp only [dot, crossProduct, Matrix.cons_val_zero, Matrix.cons_val_one, Matrix.cons_val] at e0 e1 e2 ⊢
    rw [e0, e1, e2]
    ring
  · rw [div_eq_iff hS.ne']
    have e0 := hw' 0
    have e1 := hw' 1
    have e2 := hw' 2
    simp only [dot, crossProduct, Matrix.cons_val_zero, Matrix.cons_val_one, Matrix.cons_val] at e0 e1 e2 ⊢
    rw [e0, e1, e2]
    ring

/-- **C10.**  Every non-degenerate triangle has an outward unit normal, and every point a decomposition. -/
theorem decomposition_exists (p v1 v2 v3 : Fin 3 → ℝ) (h : NonDegenerate v1 v2 v3) :
    ∃ n N g, IsUnitNormal v1 v2 v3 n ∧ IsDecomposition p v1 v2 v3 n N g := by
  unfold NonDegenerate at h
  set u : Fin 3 → ℝ := fun d => v2 d - v1 d with hu
  set v : Fin 3 → ℝ := fun d => v3 d - v1 d with hv
  set w : Fin 3 → ℝ := fun d => p d - v1 d with hw
  have hS := dot_self_pos h
  set S := dot (crossProduct u v) (crossProduct u v) with hSdef
  have hr : 0 < Real.sqrt S := Real.sqrt_pos.mpr hS
  have hrr : Real.sqrt S * Real.sqrt S = S := Real.mul_self_sqrt hS.le
  set r := Real.sqrt S with hrdef
  set a := dot (crossProduct w v) (crossProduct u v) / S with ha
  set b := dot (crossProduct u w) (crossProduct u v) / S with hb
  refine ⟨fun d => crossProduct u v d / r, ![1 - a - b, a, b], dot w (crossProduct u v) / r, ⟨?_, ?_, ?_, ?_⟩, ?_, ?_⟩
  · have : dot (fun d => crossProduct u v d / r) (fun d => crossProduct u v d / r) = S / (r * r) := by
      rw [hSdef]; unfold dot; field_simp
    rw [this, hrr, div_self hS.ne']
  · simp only [dot, crossProduct, Matrix.cons_val_zero, Matrix.cons_val_one, Matrix.cons_val]
    ring
  · simp only [dot, crossProduct, Matrix.cons_val_zero, Matrix.cons_val_one, Matrix.cons_val]
    ring
  · have : dot (fun d => crossProduct u v d / r) (crossProduct u v) = S / r := by
      rw [hSdef]; unfold dot; field_simp
    rw [this]; exact div_pos hS hr
  · show 1 - a - b + a + b = 1
    ring
  · have hS' : S = dot (crossProduct u v) (crossProduct u v) := rfl
    have key : ∀ d, S * w d = dot (crossProduct w v) (crossProduct u v) * u d
        + dot (crossProduct u w) (crossProduct u v) * v d + dot w (crossProduct u v) * crossProduct u v d := by
      intro d
      rw [hS']
      fin_cases d <;>
        simp only [dot, crossProduct, Matrix.cons_val_zero, Matrix.cons_val_one, Matrix.cons_val, Fin.isValue,
          Fin.mk_zero, Fin.mk_one, Fin.zero_eta, Fin.reduceFinMk] <;> ring
    intro d
    have hk := key d
    have e1 : (![1 - a - b, a, b] : Fin 3 → ℝ) 0 = 1 - a - b := rfl
    have e2 : (![1 - a - b, a, b] : Fin 3 → ℝ) 1 = a := rfl
    have e3 : (![1 - a - b, a, b] : Fin 3 → ℝ) 2 = b := rfl
    rw [e1, e2, e3]
    have hwd : p d = v1 d + w d := by simp [hw]
    have hu' : v2 d = v1 d + u d := by simp [hu]
    have hv' : v3 d = v1 d + v d := by simp [hv]
    rw [hwd, hu', hv']
    have hg : dot w (crossProduct u v) / r * (crossProduct u v d / r) = dot w (crossProduct u v) * crossProduct u v d / S := by
      rw [← hrr]; field_simp
    rw [hg, ha, hb]
    field_simp
    linear_combination hk

/-- **C10.**  `Projection` computes the decomposition.  For a non-degenerate triangle with outward unit normal
`n`, and the point `p = N₀ v₁ + N₁ v₂ + N₂ v₃ + g n`: if all `Nᵢ` are in the tolerance-extended `[0,1]`, the
returned normal, coordinates and gap are `n`, `N`, `g`, and contact is reported iff `-char_len < g < 0`;
otherwise no contact is reported and the outputs are unassigned. -/
theorem projection_spec (node tri : Entity ℝ) (prev : ProjectionOut) (tol g : ℝ) (n N : Fin 3 → ℝ)
    (hn : IsUnitNormal tri.coord1 tri.coord2 tri.coord3 n)
    (hd : IsDecomposition node.coord1 tri.coord1 tri.coord2 tri.coord3 n N g) :
    (InRange tol N → projection node tri prev tol =
      { inside := decide (-tri.charLen < g ∧ g < 0), gap := g, normal := n, bary := N }) ∧
    (¬ InRange tol N → projection node tri prev tol = { prev with inside := false }) := by
  obtain ⟨h1, h2, h3, h4⟩ := hn
  obtain ⟨hsum, hpt⟩ := hd
  have hw : ∀ d, node.coord1 d - tri.coord1 d
      = N 1 * (tri.coord2 d - tri.coord1 d) + N 2 * (tri.coord3 d - tri.coord1 d) + g * n d := by
    intro d
    have := hpt d
    have hN0 : N 0 = 1 - N 1 - N 2 := by linarith
    rw [this, hN0]; ring
  obtain ⟨hA3, hA2⟩ := alpha_formulas (w := fun d => node.coord1 d - tri.coord1 d) h1 h2 h3 h4 hw
  obtain ⟨-, hnn⟩ := unitNormal_eq h1 h2 h3 h4
  have hN0 : N 0 = 1 - N 1 - N 2 := by linarith
  have hrange : InRange tol N ↔ ((1 - N 1 - N 2 > -tol ∧ 1 - N 1 - N 2 < 1 + tol) ∧ (N 1 > -tol ∧ N 1 < 1 + tol) ∧
      (N 2 > -tol ∧ N 2 < 1 + tol)) := by
    constructor
    · intro h
      have := h 0
      rw [hN0] at this
      exact ⟨this, h 1, h 2⟩
    · rintro ⟨a, b, c⟩ i
      fin_cases i
      · show -tol < N 0 ∧ N 0 < 1 + tol
        rw [hN0]; exact a
      · exact b
      · exact c
  unfold projection
  simp only []
  have hsqr : ∀ D : Fin 3 → ℝ, D 0 * D 0 + D 1 * D 1 + D 2 * D 2 = dot D D := fun D => rfl
  rw [hsqr, hA3, hA2]
  constructor
  · intro hr
    rw [if_pos (hrange.mp hr)]
    have hnorm : (fun i => crossProduct (fun i => tri.coord2 i - tri.coord1 i) (fun i => tri.coord3 i - tri.coord1 i) i *
        (1 / Real.sqrt (dot (crossProduct (fun i => tri.coord2 i - tri.coord1 i) (fun i => tri.coord3 i - tri.coord1 i))
          (crossProduct (fun i => tri.coord2 i - tri.coord1 i) (fun i => tri.coord3 i - tri.coord1 i))))) = n := by
      funext i
      rw [hnn i]; ring
    have hnorm' := fun i => congrFun hnorm i
    have hgap : (node.coord1 0 - ((1 - N 1 - N 2) * tri.coord1 0 + N 1 * tri.coord2 0 + N 2 * tri.coord3 0)) * n 0 +
        (node.coord1 1 - ((1 - N 1 - N 2) * tri.coord1 1 + N 1 * tri.coord2 1 + N 2 * tri.coord3 1)) * n 1 +
        (node.coord1 2 - ((1 - N 1 - N 2) * tri.coord1 2 + N 1 * tri.coord2 2 + N 2 * tri.coord3 2)) * n 2 = g := by
      rw [hpt 0, hpt 1, hpt 2, ← hN0]
      unfold dot at h1
      linear_combination g * h1
    have hb : (![1 - N 1 - N 2, N 1, N 2] : Fin 3 → ℝ) = N := by
      funext i
      fin_cases i
      · exact hN0.symm
      · rfl
      · rfl
    simp only [hnorm', hgap, hb, ProjectionOut.mk.injEq, and_true]
    apply decide_eq_decide.mpr
    exact ⟨fun ⟨a, b⟩ => ⟨b, a⟩, fun ⟨a, b⟩ => ⟨b, a⟩⟩
  · intro hr
    rw [if_neg (fun h => hr (hrange.mpr h))]

/-- **C10.**  Contact is reported for a node and a non-degenerate triangle exactly when the orthogonal projection
of the node on the plane of the triangle has all barycentric coordinates in the extended range and the node is
behind the face by less than the characteristic length. -/
theorem inside_iff (node tri : Entity ℝ) (prev : ProjectionOut) (tol : ℝ)
    (hnd : NonDegenerate tri.coord1 tri.coord2 tri.coord3) :
    (projection node tri prev tol).inside = true ↔
      ∃ n N g, IsUnitNormal tri.coord1 tri.coord2 tri.coord3 n ∧
        IsDecomposition node.coord1 tri.coord1 tri.coord2 tri.coord3 n N g ∧
        InRange tol N ∧ -tri.charLen < g ∧ g < 0 := by
  constructor
  · intro h
    obtain ⟨n, N, g, hn, hd⟩ := decomposition_exists node.coord1 _ _ _ hnd
    obtain ⟨ha, hb⟩ := projection_spec node tri prev tol g n N hn hd
    by_cases hr : InRange tol N
    · rw [ha hr] at h
      obtain ⟨h1, h2⟩ := of_decide_eq_true h
      exact ⟨n, N, g, hn, hd, hr, h1, h2⟩
    · rw [hb hr] at h
      simp at h
  · rintro ⟨n, N, g, hn, hd, hr, h1, h2⟩
    rw [(projection_spec node tri prev tol g n N hn hd).1 hr]
    exact decide_eq_true ⟨h1, h2⟩

/-- A triangle with parallel edges is never in contact. -/
theorem degenerate_never_inside (node tri : Entity ℝ) (prev : ProjectionOut) (tol : ℝ)
    (hnd : ¬ NonDegenerate tri.coord1 tri.coord2 tri.coord3) :
    (projection node tri prev tol).inside = false := by
  unfold NonDegenerate at hnd
  push Not at hnd
  unfold projection
  simp only [hnd]
  split
  · simp
  · rfl

/-- **C10.**  Whenever contact is reported, the outputs satisfy: coordinates sum to one and are in range, the normal
is the outward unit normal, `node = N₀ v₁ + N₁ v₂ + N₂ v₃ + gap * normal`, and `-char_len < gap < 0`. -/
theorem inside_outputs (node tri : Entity ℝ) (prev : ProjectionOut) (tol : ℝ)
    (h : (projection node tri prev tol).inside = true) :
    let r := projection node tri prev tol
    IsUnitNormal tri.coord1 tri.coord2 tri.coord3 r.normal ∧
      IsDecomposition node.coord1 tri.coord1 tri.coord2 tri.coord3 r.normal r.bary r.gap ∧
      InRange tol r.bary ∧ -tri.charLen < r.gap ∧ r.gap < 0 := by
  by_cases hnd : NonDegenerate tri.coord1 tri.coord2 tri.coord3
  · obtain ⟨n, N, g, hn, hd, hr, h1, h2⟩ := (inside_iff node tri prev tol hnd).mp h
    have hp := (projection_spec node tri prev tol g n N hn hd).1 hr
    simp only [hp]
    exact ⟨hn, hd, hr, h1, h2⟩
  · rw [degenerate_never_inside node tri prev tol hnd] at h
    simp at h

/-- A concrete contact: the triangle `(0,0,0), (1,0,0), (0,1,0)`, characteristic length 1, and the node
`(1/4, 1/4, -1/10)`. -/
noncomputable def demoTri : Entity ℝ :=
  setBoundingBox { (defaultEntity : Entity ℝ) with
    type := .triangle, numNodes := 3, coord1 := ![0, 0, 0], coord2 := ![1, 0, 0], coord3 := ![0, 1, 0], charLen := 1,
    node1 := 0, node2 := 1, fict := ![0, 1, 2, 3] }

/-- The node of `demoTri`. -/
noncomputable def demoNode : Entity ℝ :=
  setBoundingBox { (defaultEntity : Entity ℝ) with
    type := .node, numNodes := 1, coord1 := ![1/4, 1/4, -1/10], charLen := 1, node1 := 4 }

theorem demo_normal : IsUnitNormal demoTri.coord1 demoTri.coord2 demoTri.coord3 ![0, 0, 1] := by
  constructor <;> simp [demoTri, setBoundingBox, dot, crossProduct]

theorem demo_decomposition :
    IsDecomposition demoNode.coord1 demoTri.coord1 demoTri.coord2 demoTri.coord3 ![0, 0, 1] ![1/2, 1/4, 1/4] (-1/10) := by
  constructor
  · simp; norm_num
  · intro d
    fin_cases d <;> simp [demoTri, demoNode, setBoundingBox]

theorem demo_projection : projection demoNode demoTri projection0 projectionTol =
    { inside := true, gap := -1/10, normal := ![0, 0, 1], bary := ![1/2, 1/4, 1/4] } := by
  rw [(projection_spec demoNode demoTri projection0 projectionTol _ _ _ demo_normal demo_decomposition).1 ?_]
  · congr
    apply decide_eq_true
    constructor
    · show (-(1:ℝ)) < -1/10
      norm_num
    · norm_num
  · intro i
    unfold projectionTol
    fin_cases i <;> constructor <;> norm_num

/-- The hypotheses of C10 are met by a non-trivial case, which is in contact. -/
example : NonDegenerate demoTri.coord1 demoTri.coord2 demoTri.coord3 ∧
    (projection demoNode demoTri projection0 projectionTol).inside = true := by
  refine ⟨?_, by rw [demo_projection]⟩
  intro h
  have := congrFun h 2
  simp [demoTri, setBoundingBox, crossProduct] at this

end NimbleSM.Contact
