import Verif.Contact.ForceProps
import Mathlib.Analysis.SpecialFunctions.Sqrt
import Mathlib.Analysis.Calculus.Deriv.Pow
import Mathlib.Analysis.Calculus.Deriv.Add
import Mathlib.Analysis.Calculus.Deriv.Mul
import Mathlib.Analysis.Calculus.Deriv.Inv

/-!
# C82: penalty contact is conservative; C83: it pushes apart

For a fixed set of touching pairs the contact forces are minus the gradient of the penalty energy
`½ · penalty · Σ gap²`: along every differentiable motion, their power is minus the rate of the energy.
-/

namespace NimbleSM.Contact

open NimbleSM.Tensor

/-- Signed distance of `p` from the plane of the triangle (positive on the outward side). -/
noncomputable def signedDistance (p v1 v2 v3 : Fin 3 → ℝ) : ℝ :=
  dot (fun d => p d - v1 d) (crossProduct (fun d => v2 d - v1 d) (fun d => v3 d - v1 d)) /
    Real.sqrt (dot (crossProduct (fun d => v2 d - v1 d) (fun d => v3 d - v1 d))
      (crossProduct (fun d => v2 d - v1 d) (fun d => v3 d - v1 d)))

/-- The signed distance is the `g` of the decomposition. -/
theorem signedDistance_eq {p v1 v2 v3 n N : Fin 3 → ℝ} {g : ℝ} (hn : IsUnitNormal v1 v2 v3 n)
    (hd : IsDecomposition p v1 v2 v3 n N g) : signedDistance p v1 v2 v3 = g := by
  obtain ⟨h1, h2, h3, h4⟩ := hn
  obtain ⟨hr, -⟩ := unitNormal_eq h1 h2 h3 h4
  unfold signedDistance
  rw [← hr, div_eq_iff h4.ne']
  have hN0 : N 0 = 1 - N 1 - N 2 := by linarith [hd.sum]
  have e0 := hd.point 0
  have e1 := hd.point 1
  have e2 := hd.point 2
  rw [hN0] at e0 e1 e2
  simp only [dot, crossProduct, Matrix.cons_val_zero, Matrix.cons_val_one, Matrix.cons_val]
  rw [e0, e1, e2]
  ring

/-- Derivative of the signed distance along a motion of the point and of the triangle. -/
theorem signedDistance_deriv {p v1 v2 v3 : ℝ → Fin 3 → ℝ} {p' v1' v2' v3' : Fin 3 → ℝ} {t : ℝ} {n N : Fin 3 → ℝ} {g : ℝ}
    (hp : ∀ d, HasDerivAt (fun s => p s d) (p' d) t) (h1 : ∀ d, HasDerivAt (fun s => v1 s d) (v1' d) t)
    (h2 : ∀ d, HasDerivAt (fun s => v2 s d) (v2' d) t) (h3 : ∀ d, HasDerivAt (fun s => v3 s d) (v3' d) t)
    (hn : IsUnitNormal (v1 t) (v2 t) (v3 t) n) (hd : IsDecomposition (p t) (v1 t) (v2 t) (v3 t) n N g) :
    HasDerivAt (fun s => signedDistance (p s) (v1 s) (v2 s) (v3 s))
      (dot n (fun d => p' d - (N 0 * v1' d + N 1 * v2' d + N 2 * v3' d))) t := by
  obtain ⟨n1, n2, n3, n4⟩ := hn
  obtain ⟨hr, hnD⟩ := unitNormal_eq n1 n2 n3 n4
  -- edges
  have hw : ∀ d, HasDerivAt (fun s => p s d - v1 s d) (p' d - v1' d) t := fun d => (hp d).sub (h1 d)
  have hu : ∀ d, HasDerivAt (fun s => v2 s d - v1 s d) (v2' d - v1' d) t := fun d => (h2 d).sub (h1 d)
  have hv : ∀ d, HasDerivAt (fun s => v3 s d - v1 s d) (v3' d - v1' d) t := fun d => (h3 d).sub (h1 d)
  -- cross product, component by component
  let u : ℝ → Fin 3 → ℝ := fun s d => v2 s d - v1 s d
  let v : ℝ → Fin 3 → ℝ := fun s d => v3 s d - v1 s d
  let w : ℝ → Fin 3 → ℝ := fun s d => p s d - v1 s d
  let u' : Fin 3 → ℝ := fun d => v2' d - v1' d
  let v' : Fin 3 → ℝ := fun d => v3' d - v1' d
  let w' : Fin 3 → ℝ := fun d => p' d - v1' d
  let D : ℝ → Fin 3 → ℝ := fun s => crossProduct (u s) (v s)
  let D' : Fin 3 → ℝ := fun d => crossProduct u' (v t) d + crossProduct (u t) v' d
  have hprod : ∀ i j, HasDerivAt (fun s => u s i * v s j) (u' i * v t j + u t i * v' j) t := fun i j => (hu i).mul (hv j)
  have hDd : ∀ d, HasDerivAt (fun s => D s d) (D' d) t := by
    intro d
    fin_cases d
    · refine ((hprod 1 2).sub (hprod 2 1)).congr_deriv ?_
      simp only [D', crossProduct, Fin.zero_eta, Matrix.cons_val_zero]; ring
    · refine ((hprod 2 0).sub (hprod 0 2)).congr_deriv ?_
      simp only [D', crossProduct, Fin.mk_one, Matrix.cons_val_one, Matrix.cons_val_zero]; ring
    · refine ((hprod 0 1).sub (hprod 1 0)).congr_deriv ?_
      simp only [D', crossProduct, Fin.reduceFinMk, Matrix.cons_val]; ring
  have hdot : ∀ (a b : ℝ → Fin 3 → ℝ) (a' b' : Fin 3 → ℝ), (∀ d, HasDerivAt (fun s => a s d) (a' d) t) →
      (∀ d, HasDerivAt (fun s => b s d) (b' d) t) →
      HasDerivAt (fun s => dot (a s) (b s)) (dot a' (b t) + dot (a t) b') t := by
    intro a b a' b' ha hb
    have := (((ha 0).mul (hb 0)).add ((ha 1).mul (hb 1))).add ((ha 2).mul (hb 2))
    refine this.congr_deriv ?_
    simp only [dot]; ring
  have hnum := hdot w D w' D' hw hDd
  have hS := hdot D D D' D' hDd hDd
  have hSpos : 0 < dot (D t) (D t) := by
    apply dot_self_pos
    intro e
    have : dot n (D t) = 0 := by rw [e]; simp [dot]
    exact absurd this n4.ne'
  have hsq := hS.sqrt hSpos.ne'
  have hspos : 0 < Real.sqrt (dot (D t) (D t)) := Real.sqrt_pos.mpr hSpos
  have hmain := hnum.div hsq hspos.ne'
  refine hmain.congr_deriv ?_
  -- algebra
  set s := Real.sqrt (dot (D t) (D t)) with hs
  have hss : s * s = dot (D t) (D t) := Real.mul_self_sqrt hSpos.le
  have hnD' : ∀ d, n d = D t d / s := hnD
  have hwt : ∀ d, w t d = N 1 * u t d + N 2 * v t d + (g / s) * D t d := by
    intro d
    have hN0 : N 0 = 1 - N 1 - N 2 := by linarith [hd.sum]
    have := hd.point d
    have hnd := hnD' d
    show p t d - v1 t d = _
    rw [this, hN0, hnd]
    show _ = N 1 * (v2 t d - v1 t d) + N 2 * (v3 t d - v1 t d) + _
    ring
  have hnumval : dot (w t) (D t) = (g / s) * dot (D t) (D t) := by
    have hw0 := hwt 0
    have hw1 := hwt 1
    have hw2 := hwt 2
    simp only [dot, hw0, hw1, hw2]
    simp only [D, crossProduct, Matrix.cons_val_zero, Matrix.cons_val_one, Matrix.cons_val]
    ring
  have hkey : dot (w t) D' - (g / s) * dot (D t) D' = - (N 1 * dot (D t) u') - N 2 * dot (D t) v' := by
    have hw0 := hwt 0
    have hw1 := hwt 1
    have hw2 := hwt 2
    simp only [dot, hw0, hw1, hw2]
    simp only [D, D', crossProduct, Matrix.cons_val_zero, Matrix.cons_val_one, Matrix.cons_val]
    ring
  have htarget : dot n (fun d => p' d - (N 0 * v1' d + N 1 * v2' d + N 2 * v3' d))
      = (dot w' (D t) - N 1 * dot (D t) u' - N 2 * dot (D t) v') / s := by
    have hN0 : N 0 = 1 - N 1 - N 2 := by linarith [hd.sum]
    rw [hN0, eq_div_iff hspos.ne']
    simp only [dot, hnD', u', v', w']
    field_simp
    ring
  rw [htarget, hnumval]
  have hDD' : dot D' (D t) = dot (D t) D' := by simp only [dot]; ring
  rw [hDD', ← hss]
  field_simp
  have hk : s * dot (w t) D' - g * dot (D t) D' = s * (- (N 1 * dot (D t) u') - N 2 * dot (D t) v') := by
    rw [← hkey]; field_simp
  linear_combination 2 * hk

/-- Positions of the three vertices of a face entity, from the positions of the mesh nodes: the two named nodes and the
average of the four nodes of the quadrilateral. -/
noncomputable def faceDistance (m : Manager ℝ) (x : ℕ → Fin 3 → ℝ) (p : Entity ℝ × Entity ℝ) : ℝ :=
  signedDistance (x (meshNode m p.1.node1)) (x (meshNode m p.2.node1)) (x (meshNode m p.2.node2))
    (fun d => (x (meshNode m (p.2.fict 0)) d + x (meshNode m (p.2.fict 1)) d + x (meshNode m (p.2.fict 2)) d
      + x (meshNode m (p.2.fict 3)) d) / 4)

/-- Penalty energy of a list of node-face pairs at node positions `x`: half the penalty times the squared distances. -/
noncomputable def contactEnergy (m : Manager ℝ) (pairs : List (Entity ℝ × Entity ℝ)) (x : ℕ → Fin 3 → ℝ) : ℝ :=
  (pairs.map fun p => m.penalty / 2 * faceDistance m x p ^ 2).sum

variable {m : Manager ℝ} {X : ℕ → Fin 3 → ℝ}

/-- **C82.**  Let the displacements `u t` move differentiably with velocity `V` at time `t`.  The power of the contact
forces computed at time `t` is minus the rate of the penalty energy of the pairs touching at time `t`. -/
theorem contact_conservative (hwf : WellFormed m X) (u : ℝ → ℕ → Fin 3 → ℝ) (V : ℕ → Fin 3 → ℝ) (t : ℝ)
    (hu : ∀ a d, HasDerivAt (fun s => u s a d) (V a d) t) (F : ℕ → Fin 3 → ℝ) (h : ContactForce m (u t) F)
    (T : Finset ℕ) (hT : ∀ a ∈ m.nodeIds, a ∈ T) :
    HasDerivAt (fun s => contactEnergy m (touching (applyDisplacements (u t) m)) (fun a d => X a d + u s a d))
      (- ∑ a ∈ T, dot (V a) (F a)) t := by
  rw [contact_work hwf F h V T hT]
  set l := touching (applyDisplacements (u t) m) with hl
  have hsub : ∀ p ∈ l, p ∈ touching (applyDisplacements (u t) m) := fun p hp => hp
  clear_value l
  clear hl
  induction l with
  | nil =>
    simp only [List.map_nil, List.sum_nil, neg_zero]
    exact hasDerivAt_const _ _
  | cons p l ih =>
    have ih := ih fun q hq => hsub q (List.mem_cons_of_mem _ hq)
    have hp := hsub p List.mem_cons_self
    have hx : ∀ a d, HasDerivAt (fun s => X a d + u s a d) (V a d) t := fun a d => (hu a d).const_add _
    obtain ⟨hn, hdec, -⟩ := touching_outputs hp
    have hmem := (mem_touching _ _ _).mp hp
    obtain ⟨-, -, hnpos⟩ := displaced_node hwf _ hmem.1
    obtain ⟨-, -, -, -, hf1, hf2, hf3⟩ := displaced_face hwf _ hmem.2.1
    rw [hf1, hf2, hf3] at hn
    rw [hnpos, hf1, hf2, hf3] at hdec
    have hg := signedDistance_eq hn hdec
    have hder := signedDistance_deriv (p := fun s a => X (meshNode m p.1.node1) a + u s (meshNode m p.1.node1) a)
      (v1 := fun s a => X (meshNode m p.2.node1) a + u s (meshNode m p.2.node1) a)
      (v2 := fun s a => X (meshNode m p.2.node2) a + u s (meshNode m p.2.node2) a)
      (v3 := fun s a => (X (meshNode m (p.2.fict 0)) a + u s (meshNode m (p.2.fict 0)) a
        + (X (meshNode m (p.2.fict 1)) a + u s (meshNode m (p.2.fict 1)) a)
        + (X (meshNode m (p.2.fict 2)) a + u s (meshNode m (p.2.fict 2)) a)
        + (X (meshNode m (p.2.fict 3)) a + u s (meshNode m (p.2.fict 3)) a)) / 4)
      (fun d => hx _ d) (fun d => hx _ d) (fun d => hx _ d)
      (fun d => ((((hx _ d).add (hx _ d)).add (hx _ d)).add (hx _ d)).div_const 4) hn hdec
    have hsq := (hder.pow 2).const_mul (m.penalty / 2)
    have := hsq.add ih
    refine this.congr_deriv ?_
    rw [List.map_cons, List.sum_cons, neg_add]
    congr 1
    have hg' : signedDistance (fun a => X (meshNode m p.1.node1) a + u t (meshNode m p.1.node1) a)
        (fun a => X (meshNode m p.2.node1) a + u t (meshNode m p.2.node1) a)
        (fun a => X (meshNode m p.2.node2) a + u t (meshNode m p.2.node2) a)
        (fun a => (X (meshNode m (p.2.fict 0)) a + u t (meshNode m (p.2.fict 0)) a
        + (X (meshNode m (p.2.fict 1)) a + u t (meshNode m (p.2.fict 1)) a)
        + (X (meshNode m (p.2.fict 2)) a + u t (meshNode m (p.2.fict 2)) a)
        + (X (meshNode m (p.2.fict 3)) a + u t (meshNode m (p.2.fict 3)) a)) / 4)
        = (projection p.1 p.2 projection0 projectionTol).gap := hg
    rw [hg']
    simp only [Function.comp, faceVelocity, getContactForce, dot]
    ring

/-- **C83.**  Contact pushes apart: for a touching pair the force applied to the node is a positive multiple
`penalty * penetration depth` of the outward normal of the face, so it drives the node towards the outside. -/
theorem contact_pushes_out (hp : 0 < m.penalty) (p : Entity ℝ × Entity ℝ) {m' : Manager ℝ} (h : p ∈ touching m') :
    let r := projection p.1 p.2 projection0 projectionTol
    ∃ n depth, IsUnitNormal p.2.coord1 p.2.coord2 p.2.coord3 n ∧ 0 < depth ∧ depth < p.2.charLen ∧
      depth = - signedDistance p.1.coord1 p.2.coord1 p.2.coord2 p.2.coord3 ∧
      (∀ d, - getContactForce m.penalty r.gap r.normal d = m.penalty * depth * n d) ∧
      0 < dot n (fun d => - getContactForce m.penalty r.gap r.normal d) := by
  obtain ⟨hn, hdec, -, h1, h2⟩ := touching_outputs h
  simp only []
  set r := projection p.1 p.2 projection0 projectionTol
  refine ⟨r.normal, -r.gap, hn, by linarith, by linarith, ?_, ?_, ?_⟩
  · rw [signedDistance_eq hn hdec]
  · intro d
    simp only [getContactForce]; ring
  · have hu := hn.unit
    have : dot r.normal (fun d => - getContactForce m.penalty r.gap r.normal d) = m.penalty * (-r.gap) * dot r.normal r.normal := by
      simp only [dot, getContactForce]; ring
    rw [this, hu, mul_one]
    exact mul_pos hp (by linarith)

end NimbleSM.Contact
