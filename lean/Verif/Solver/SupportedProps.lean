import Verif.Element.RigidProps
import Verif.Solver.SparsityProps
import Verif.Solver.TangentProps
import Verif.Solver.CgProps
import Verif.Solver.LinearStep

/-!
# C129: the linear system of a supported body is symmetric positive definite and is solved

The quasi-static solver assembles the element stiffnesses (C64), imposes the kinematic conditions on
rows and columns (C20) and calls the conjugate gradient solver (C22), which is only guaranteed to work
for a symmetric positive definite matrix.  Here that is proved from what the user controls: element
shapes, moduli, connectivity of the mesh and the supports.  The coordinates `X` are those the code
passes to `ComputeTangent`: reference coordinates plus displacements (nimble_block_base.cc:111-118).
-/

set_option linter.unusedSectionVars false
set_option linter.unusedSimpArgs false

namespace NimbleSM.Solver

open NimbleSM.Bc NimbleSM.Hex NimbleSM.Constitutive
open Matrix (of)

variable {K : Type*} [Field K] [LinearOrder K] [IsStrictOrderedRing K]

/-! ## Specification -/

/-- Coordinates of the nodes of an element, in the element's node order. -/
def elemCoords (X : ℕ → Fin 3 → K) (e : List ℕ) : ℕ → K := fun k =>
  X (e.getD (k / 3) 0) ⟨k % 3, Nat.mod_lt _ (by norm_num)⟩

/-- The element stiffnesses `t` of the elements `e`: eight nodes, oriented edges, positive moduli, and
`t` computed by the code for the element's coordinates and material. -/
def ElasticElement (val : K) (X : ℕ → Fin 3 → K) (x : List ℕ × (ℕ → ℕ → K)) : Prop :=
  x.1.length = 8 ∧ EdgesOriented (elemCoords X x.1) ∧ ∃ (m : Material K) (out : ℕ → K),
    0 < m.bulk ∧ 0 < m.shear ∧ computeTangent val (elemCoords X x.1) (getTangent m 8 out) = some x.2

/-- The infinitesimal rigid motion `(W, c)` at a point. -/
def rigidAt (W : Matrix (Fin 3) (Fin 3) K) (c p : Fin 3 → K) (d : Fin 3) : K :=
  (∑ g : Fin 3, W d g * p g) + c d

/-- Two elements share a face: three common nodes that are not on one line. -/
def ShareFace (X : ℕ → Fin 3 → K) (e e' : List ℕ) : Prop :=
  ∃ n₀ n₁ n₂, (n₀ ∈ e ∧ n₁ ∈ e ∧ n₂ ∈ e) ∧ (n₀ ∈ e' ∧ n₁ ∈ e' ∧ n₂ ∈ e') ∧
    LinearIndependent K ![X n₁ - X n₀, X n₂ - X n₀]

/-- The body is in one piece: any two elements are joined by a chain of elements sharing faces. -/
def Connected (X : ℕ → Fin 3 → K) (elems : List (List ℕ)) : Prop :=
  ∀ e ∈ elems, ∀ e' ∈ elems, Relation.ReflTransGen
    (fun a b => a ∈ elems ∧ b ∈ elems ∧ ShareFace X a b) e e'

/-- The prescribed components exclude every rigid motion of the body. -/
def Supported (X : ℕ → Fin 3 → K) (sets : NodeSets) (bcs : List (BoundaryCondition K)) : Prop :=
  ∀ (W : Matrix (Fin 3) (Fin 3) K) (c : Fin 3 → K), W.transpose = -W →
    (∀ bc ∈ bcs, (bc.type = .prescribedDisplacement ∨ bc.type = .prescribedVelocity) →
      ∀ ns, sets bc.nodeSetId = some ns → ∀ n ∈ ns, ∀ d : Fin 3, d.val = bc.coordinate →
        rigidAt W c (X n) d = 0) → W = 0 ∧ c = 0

/-! ## Rigid motions that agree on a face agree -/

theorem indep_pair (a b : Fin 3 → K) (h : LinearIndependent K ![a, b]) (w : Fin 3 → K)
    (ha : cr w a = 0) (hb : cr w b = 0) : w = 0 := by
  rw [LinearIndependent.pair_iff] at h
  by_contra hw
  have z : ∀ g : Fin 3 → K, cr w g = 0 → cr g w = cr (0 : Fin 3 → K) w := by
    intro g hg
    have h0 := congrFun hg 0
    have h1 := congrFun hg 1
    have h2 := congrFun hg 2
    simp only [cr0, cr1, cr2, Pi.zero_apply] at h0 h1 h2
    funext i
    fin_cases i
    · show cr g w 0 = cr 0 w 0
      simp only [cr0, Pi.zero_apply]; linarith
    · show cr g w 1 = cr 0 w 1
      simp only [cr1, Pi.zero_apply]; linarith
    · show cr g w 2 = cr 0 w 2
      simp only [cr2, Pi.zero_apply]; linarith
  obtain ⟨α, hα⟩ := cr_eq_parallel 0 a w (z a ha) hw
  obtain ⟨β, hβ⟩ := cr_eq_parallel 0 b w (z b hb) hw
  have := h β (-α) (by
    funext i
    simp only [Pi.add_apply, Pi.smul_apply, smul_eq_mul, hα i, hβ i, Pi.zero_apply]; ring)
  have hα0 : α = 0 := by have := this.2; linarith
  have ha0 : a = 0 := by funext i; rw [hα i, hα0]; simp
  have := h 1 0 (by rw [ha0]; simp)
  exact one_ne_zero this.1

theorem skew_eq (W : Matrix (Fin 3) (Fin 3) K) (hW : W.transpose = -W) (a b : Fin 3) :
    W a b + W b a = 0 := by
  have := congrFun (congrFun hW b) a
  rw [Matrix.transpose_apply, Matrix.neg_apply] at this
  rw [this]; ring

theorem skew_zero (D : Matrix (Fin 3) (Fin 3) K) (hD : ∀ a b, D a b + D b a = 0)
    (h : (![D 2 1, D 0 2, D 1 0] : Fin 3 → K) = 0) : D = 0 := by
  have e0 : D 2 1 = 0 := congrFun h 0
  have e1 : D 0 2 = 0 := congrFun h 1
  have e2 : D 1 0 = 0 := congrFun h 2
  ext a b
  rw [Matrix.zero_apply]
  have k00 := hD 0 0
  have k11 := hD 1 1
  have k22 := hD 2 2
  have k01 := hD 0 1
  have k12 := hD 1 2
  have k20 := hD 2 0
  fin_cases a <;> fin_cases b <;> simp only [Fin.zero_eta, Fin.mk_one, Fin.reduceFinMk] <;> linarith

theorem rigid_agree (W W' : Matrix (Fin 3) (Fin 3) K) (hW : W.transpose = -W) (hW' : W'.transpose = -W')
    (c c' p₀ p₁ p₂ : Fin 3 → K) (hli : LinearIndependent K ![p₁ - p₀, p₂ - p₀])
    (h0 : ∀ d, rigidAt W c p₀ d = rigidAt W' c' p₀ d) (h1 : ∀ d, rigidAt W c p₁ d = rigidAt W' c' p₁ d)
    (h2 : ∀ d, rigidAt W c p₂ d = rigidAt W' c' p₂ d) : W = W' ∧ c = c' := by
  have hD : ∀ a b, (W - W') a b + (W - W') b a = 0 := by
    intro a b
    have := skew_eq W hW a b
    have := skew_eq W' hW' a b
    simp only [Matrix.sub_apply]; linarith
  have kill : ∀ p : Fin 3 → K, (∀ d, rigidAt W c p d = rigidAt W' c' p d) →
      cr ![(W - W') 2 1, (W - W') 0 2, (W - W') 1 0] (p - p₀) = 0 := by
    intro p hp
    rw [← skew_cross (W - W') hD]
    funext d
    have a := hp d
    have b := h0 d
    simp only [rigidAt, Fin.sum_univ_three] at a b
    simp only [Fin.sum_univ_three, Matrix.sub_apply, Pi.sub_apply, Pi.zero_apply]
    linear_combination a - b
  have hz := skew_zero (W - W') hD (indep_pair _ _ hli _ (kill p₁ h1) (kill p₂ h2))
  have hWW : W = W' := sub_eq_zero.mp hz
  refine ⟨hWW, funext fun d => ?_⟩
  have := h0 d
  subst hWW
  simpa [rigidAt] using this

/-! ## Energy of the assembled matrix -/

/-- Displacements of the nodes of an element, from the vector of unknowns. -/
def elemDisp (nodeIds : List ℕ) (v : ℕ → K) (e : List ℕ) : ℕ → K := fun k =>
  v (nodeIds.getD (e.getD (k / 3) 0) 0 * 3 + k % 3)

theorem elemDisp_at (nodeIds : List ℕ) (v : ℕ → K) (e : List ℕ) (n : ℕ) (d : Fin 3) :
    elemDisp nodeIds v e (3 * n + d) = v (nodeIds.getD (e.getD n 0) 0 * 3 + d) := by
  have h1 : (3 * n + d.val) / 3 = n := by omega
  have h2 : (3 * n + d.val) % 3 = d := by omega
  unfold elemDisp
  rw [h1, h2]

theorem elemCoords_at (X : ℕ → Fin 3 → K) (e : List ℕ) (n : ℕ) (d : Fin 3) :
    elemCoords X e (3 * n + d) = X (e.getD n 0) d := by
  have h1 : (3 * n + d.val) / 3 = n := by omega
  have h2 : (⟨(3 * n + d.val) % 3, Nat.mod_lt _ (by norm_num)⟩ : Fin 3) = d := by
    apply Fin.ext; simp only; omega
  unfold elemCoords
  rw [h1, h2]

theorem contribution_energy (nodeIds : List ℕ) (e : List ℕ) (he : e.length = 8) (t : ℕ → ℕ → K)
    (N : ℕ) (hg : ∀ r < 8, nodeIds.getD (e.getD r 0) 0 < N) (v : ℕ → K) :
    ∑ a ∈ Finset.range (N * 3), ∑ b ∈ Finset.range (N * 3),
      v a * contribution nodeIds 3 e t a b * v b = energy t (elemDisp nodeIds v e) := by
  have hlt : ∀ r < 8, ∀ i < 3, nodeIds.getD (e.getD r 0) 0 * 3 + i ∈ Finset.range (N * 3) := by
    intro r hr i hi
    have := hg r hr
    exact Finset.mem_range.mpr (by omega)
  unfold contribution
  rw [he]
  have e1 : ∀ a b, v a * (∑ r ∈ Finset.range 8, ∑ c ∈ Finset.range 8, ∑ i ∈ Finset.range 3,
      ∑ j ∈ Finset.range 3,
      if nodeIds.getD (e.getD r 0) 0 * 3 + i = a ∧ nodeIds.getD (e.getD c 0) 0 * 3 + j = b
      then t (r * 3 + i) (c * 3 + j) else 0) * v b
      = ∑ r ∈ Finset.range 8, ∑ c ∈ Finset.range 8, ∑ i ∈ Finset.range 3, ∑ j ∈ Finset.range 3,
        if nodeIds.getD (e.getD r 0) 0 * 3 + i = a then
          (if nodeIds.getD (e.getD c 0) 0 * 3 + j = b
            then v a * t (r * 3 + i) (c * 3 + j) * v b else 0) else 0 := by
    intro a b
    simp only [Finset.mul_sum, Finset.sum_mul]
    refine Finset.sum_congr rfl fun r _ => Finset.sum_congr rfl fun c _ =>
      Finset.sum_congr rfl fun i _ => Finset.sum_congr rfl fun j _ => ?_
    simp only [ite_and, mul_ite, ite_mul, mul_zero, zero_mul]
  simp only [e1]
  have swap : ∀ (S : Finset ℕ) (F : ℕ → ℕ → ℕ → ℕ → ℕ → ℕ → K),
      ∑ a ∈ S, ∑ b ∈ S, ∑ r ∈ Finset.range 8, ∑ c ∈ Finset.range 8, ∑ i ∈ Finset.range 3,
        ∑ j ∈ Finset.range 3, F a b r c i j
      = ∑ r ∈ Finset.range 8, ∑ c ∈ Finset.range 8, ∑ i ∈ Finset.range 3,
        ∑ j ∈ Finset.range 3, ∑ a ∈ S, ∑ b ∈ S, F a b r c i j := by
    have pull : ∀ (S : Finset ℕ) (G : ℕ → ℕ → ℕ → ℕ → ℕ → K),
        ∑ b ∈ S, ∑ r ∈ Finset.range 8, ∑ c ∈ Finset.range 8, ∑ i ∈ Finset.range 3,
          ∑ j ∈ Finset.range 3, G b r c i j
        = ∑ r ∈ Finset.range 8, ∑ c ∈ Finset.range 8, ∑ i ∈ Finset.range 3,
          ∑ j ∈ Finset.range 3, ∑ b ∈ S, G b r c i j := by
      intro S G
      rw [Finset.sum_comm]
      refine Finset.sum_congr rfl fun r _ => ?_
      rw [Finset.sum_comm]
      refine Finset.sum_congr rfl fun c _ => ?_
      rw [Finset.sum_comm]
      refine Finset.sum_congr rfl fun i _ => ?_
      rw [Finset.sum_comm]
    intro S F
    rw [Finset.sum_congr rfl fun a _ => pull S (F a)]
    exact pull S fun a r c i j => ∑ b ∈ S, F a b r c i j
  rw [swap]
  unfold energy
  have e2 : ∀ r ∈ Finset.range 8, ∀ c ∈ Finset.range 8, ∀ i ∈ Finset.range 3, ∀ j ∈ Finset.range 3,
      (∑ a ∈ Finset.range (N * 3), ∑ b ∈ Finset.range (N * 3),
        if nodeIds.getD (e.getD r 0) 0 * 3 + i = a then
          (if nodeIds.getD (e.getD c 0) 0 * 3 + j = b
            then v a * t (r * 3 + i) (c * 3 + j) * v b else 0) else 0)
      = v (nodeIds.getD (e.getD r 0) 0 * 3 + i) * t (r * 3 + i) (c * 3 + j)
        * v (nodeIds.getD (e.getD c 0) 0 * 3 + j) := by
    intro r hr c hc i hi j hj
    rw [Finset.sum_eq_single_of_mem _ (hlt r (Finset.mem_range.mp hr) i (Finset.mem_range.mp hi))]
    · rw [Finset.sum_eq_single_of_mem _ (hlt c (Finset.mem_range.mp hc) j (Finset.mem_range.mp hj))]
      · rw [if_pos rfl, if_pos rfl]
      · intro b _ hb
        rw [if_pos rfl, if_neg (Ne.symm hb)]
    · intro a _ ha
      refine Finset.sum_eq_zero fun b _ => ?_
      rw [if_neg (Ne.symm ha)]
  rw [Finset.sum_congr rfl fun r hr => Finset.sum_congr rfl fun c hc =>
    Finset.sum_congr rfl fun i hi => Finset.sum_congr rfl fun j hj => e2 r hr c hc i hi j hj]
  simp only [Finset.sum_range, elemDisp_at]
  refine Finset.sum_congr rfl fun r _ => ?_
  rw [Finset.sum_comm]
  refine Finset.sum_congr rfl fun i _ => Finset.sum_congr rfl fun c _ =>
    Finset.sum_congr rfl fun j _ => ?_
  rw [Nat.mul_comm r.val 3, Nat.mul_comm c.val 3]

theorem contribution_symm (nodeIds : List ℕ) (e : List ℕ) (he : e.length = 8) (t : ℕ → ℕ → K)
    (ht : ∀ i j, i < 24 → j < 24 → t i j = t j i) (a b : ℕ) :
    contribution nodeIds 3 e t a b = contribution nodeIds 3 e t b a := by
  unfold contribution
  rw [he, Finset.sum_comm]
  refine Finset.sum_congr rfl fun r hr => Finset.sum_congr rfl fun c hc => ?_
  rw [Finset.sum_comm]
  refine Finset.sum_congr rfl fun i hi => Finset.sum_congr rfl fun j hj => ?_
  have := Finset.mem_range.mp hr
  have := Finset.mem_range.mp hc
  have := Finset.mem_range.mp hi
  have := Finset.mem_range.mp hj
  rw [ht (c * 3 + j) (r * 3 + i) (by omega) (by omega)]
  exact if_congr and_comm rfl rfl

/-- An element contributes only to entries of degrees of freedom of its nodes. -/
theorem contribution_unlisted (nodeIds : List ℕ) (e : List ℕ) (t : ℕ → ℕ → K)
    (he : ∀ n ∈ e, n < nodeIds.length) (a b : ℕ)
    (h : ¬ (IsDof nodeIds 3 e a ∧ IsDof nodeIds 3 e b)) : contribution nodeIds 3 e t a b = 0 := by
  unfold contribution
  refine Finset.sum_eq_zero fun r hr => Finset.sum_eq_zero fun c hc =>
    Finset.sum_eq_zero fun i hi => Finset.sum_eq_zero fun j hj => ?_
  refine if_neg fun hab => h ?_
  have key : ∀ r ∈ Finset.range e.length, ∀ i ∈ Finset.range 3,
      IsDof nodeIds 3 e (nodeIds.getD (e.getD r 0) 0 * 3 + i) := by
    intro r hr i hi
    have hr' := Finset.mem_range.mp hr
    have hm : e.getD r 0 ∈ e := by
      rw [List.getD_eq_getElem?_getD, List.getElem?_eq_getElem hr']
      exact List.getElem_mem hr'
    refine ⟨e.getD r 0, hm, nodeIds.getD (e.getD r 0) 0, ?_, i, Finset.mem_range.mp hi, rfl⟩
    have := he _ hm
    rw [List.getD_eq_getElem?_getD (l := nodeIds), List.getElem?_eq_getElem this]; rfl
  exact ⟨hab.1 ▸ key r hr i hi, hab.2 ▸ key c hc j hj⟩

/-! ## Positive definiteness -/

theorem sum_map_list {M : Type*} [AddCommMonoid M] {A : Type*} (S : Finset ℕ) (l : List A)
    (f : ℕ → A → M) : ∑ a ∈ S, (l.map (f a)).sum = (l.map fun x => ∑ a ∈ S, f a x).sum := by
  induction l with
  | nil => simp
  | cons x l ih => simp only [List.map_cons, List.sum_cons, Finset.sum_add_distrib, ih]

theorem list_mul_sum {A : Type*} (l : List A) (f : A → K) (c d : K) :
    c * (l.map f).sum * d = (l.map fun x => c * f x * d).sum := by
  induction l with
  | nil => simp
  | cons x l ih => simp only [List.map_cons, List.sum_cons, ← ih]; ring

/-- A mesh of elastic elements with its linear system: hypotheses gathered. -/
structure Body (val : K) (nodeIds : List ℕ) (X : ℕ → Fin 3 → K) (blocks : List Connectivity)
    (elems : List (List ℕ × (ℕ → ℕ → K))) : Prop where
  /-- the Gauss coordinate is inside the element -/
  val_pos : 0 < val
  val_lt : val < 1
  /-- there are nodes, all numbered, and every number belongs to a node of some element -/
  nonempty : nodeIds ≠ []
  posed : MeshWellPosed nodeIds blocks
  used : EveryIdUsed nodeIds blocks
  /-- the element stiffnesses are those of the elements of the blocks -/
  same : elems.map Prod.fst = blocks.flatten
  elastic : ∀ x ∈ elems, ElasticElement val X x

variable {val : K} {nodeIds : List ℕ} {X : ℕ → Fin 3 → K} {blocks : List Connectivity}
  {elems : List (List ℕ × (ℕ → ℕ → K))} {pairs : List (ℕ × ℕ)}

theorem Body.node (h : Body val nodeIds X blocks elems) {x : List ℕ × (ℕ → ℕ → K)} (hx : x ∈ elems) :
    (∃ b ∈ blocks, x.1 ∈ b) ∧ ∀ n ∈ x.1, ∃ g, nodeIds[n]? = some g ∧ g < nodeIds.length := by
  have : x.1 ∈ blocks.flatten := by rw [← h.same]; exact List.mem_map_of_mem hx
  obtain ⟨b, hb, he⟩ := List.mem_flatten.mp this
  exact ⟨⟨b, hb, he⟩, h.posed b hb x.1 he⟩

/-- Entries of the assembled matrix. -/
theorem Body.entry_eq (h : Body val nodeIds X blocks elems)
    (hs : nonzeroStructure nodeIds 3 blocks = some pairs) {A₀ A : Crs K} (h₀ : HasPattern A₀ pairs)
    (hz : ∀ a b w, A₀.at? a b = some w → w = 0) (hA : assembleTangent nodeIds 3 elems A₀ = some A) :
    HasPattern A pairs ∧ ∀ a b, entry A a b
      = (elems.map fun x => contribution nodeIds 3 x.1 x.2 a b).sum := by
  obtain ⟨hadm, _, _⟩ := nonzeroStructure_admissible (K := K) hs h.used h.nonempty (by norm_num)
  obtain ⟨_, hshare, _⟩ := nonzeroStructure_spec hs
  obtain ⟨B, h1, h2, h3⟩ := assembleTangent_spec hs h.used h.nonempty (by norm_num) h.posed elems
    (fun x hx => (h.node hx).1) h₀
  rw [hA] at h1
  cases h1
  refine ⟨h2, fun a b => ?_⟩
  unfold entry
  rw [h3]
  by_cases hm : (a, b) ∈ pairs
  · obtain ⟨w, hw⟩ := Option.isSome_iff_exists.mp ((at_isSome_iff hadm h₀ a b).mpr hm)
    rw [hw, hz a b w hw]
    simp
  · have : A₀.at? a b = none := by
      rw [← Option.not_isSome_iff_eq_none, at_isSome_iff hadm h₀ a b]; exact hm
    rw [this]
    simp only [Option.map_none, Option.getD_none]
    symm
    apply List.sum_eq_zero
    intro y hy
    obtain ⟨x, hx, rfl⟩ := List.mem_map.mp hy
    obtain ⟨⟨bl, hbl, hxb⟩, hn⟩ := h.node hx
    refine contribution_unlisted nodeIds x.1 x.2 (fun n hn' => ?_) a b ?_
    · obtain ⟨g, hg, _⟩ := hn n hn'
      exact (List.getElem?_eq_some_iff.mp hg).1
    · rintro ⟨ha, hb⟩
      exact hm ((hshare a b).mpr ⟨bl, hbl, x.1, hxb, ha, hb⟩)

/-- Strain energy of the body: the sum over its elements. -/
theorem Body.energy_eq (h : Body val nodeIds X blocks elems)
    (hs : nonzeroStructure nodeIds 3 blocks = some pairs) {A₀ A : Crs K} (h₀ : HasPattern A₀ pairs)
    (hz : ∀ a b w, A₀.at? a b = some w → w = 0) (hA : assembleTangent nodeIds 3 elems A₀ = some A)
    (v : ℕ → K) :
    ∑ a ∈ Finset.range (nodeIds.length * 3), ∑ b ∈ Finset.range (nodeIds.length * 3),
      v a * entry A a b * v b = (elems.map fun x => energy x.2 (elemDisp nodeIds v x.1)).sum := by
  obtain ⟨_, he⟩ := h.entry_eq hs h₀ hz hA
  simp only [he, list_mul_sum, sum_map_list]
  refine congrArg List.sum (List.map_congr_left fun x hx => ?_)
  refine contribution_energy nodeIds x.1 (h.elastic x hx).1 x.2 nodeIds.length ?_ v
  intro r hr
  have hr' : r < x.1.length := by rw [(h.elastic x hx).1]; exact hr
  obtain ⟨g, hg, hlt⟩ := (h.node hx).2 (x.1.getD r 0) (by
    rw [List.getD_eq_getElem?_getD, List.getElem?_eq_getElem hr']; exact List.getElem_mem hr')
  rw [List.getD_eq_getElem?_getD (l := nodeIds), hg]
  exact hlt

/-- The energy of an element vanishes exactly for rigid motions, and is never negative. -/
theorem Body.element (h : Body val nodeIds X blocks elems) {x : List ℕ × (ℕ → ℕ → K)} (hx : x ∈ elems) :
    (∀ i j, i < 24 → j < 24 → x.2 i j = x.2 j i) ∧ (∀ u, 0 ≤ energy x.2 u) ∧
    ∀ u, energy x.2 u = 0 ↔ RigidMotion (elemCoords X x.1) u := by
  obtain ⟨h8, hor, m, out, hk, hg, hT⟩ := h.elastic x hx
  obtain ⟨h1, h2⟩ := element_tangent_symm_psd m hk.le hg.le val _ out x.2 hT
  exact ⟨h1, h2, fun u => energy_zero_iff_rigid m hk hg val h.val_pos h.val_lt _ out u hor x.2 hT⟩

/-- The motion `v` of the nodes of element `e` is the rigid motion `(W, c)`. -/
def MovesAs (nodeIds : List ℕ) (X : ℕ → Fin 3 → K) (v : ℕ → K) (W : Matrix (Fin 3) (Fin 3) K)
    (c : Fin 3 → K) (e : List ℕ) : Prop :=
  ∀ n ∈ e, ∀ d : Fin 3, v (nodeIds.getD n 0 * 3 + d) = rigidAt W c (X n) d

theorem Body.moves (h : Body val nodeIds X blocks elems) {x : List ℕ × (ℕ → ℕ → K)} (hx : x ∈ elems)
    (v : ℕ → K) (h0 : energy x.2 (elemDisp nodeIds v x.1) = 0) :
    ∃ W c, W.transpose = -W ∧ MovesAs nodeIds X v W c x.1 := by
  obtain ⟨W, c, hW, hu⟩ := ((h.element hx).2.2 _).mp h0
  refine ⟨W, c, hW, ?_⟩
  intro n hn d
  obtain ⟨r, hr, rfl⟩ := List.getElem_of_mem hn
  have h8 := (h.elastic x hx).1
  have := hu r (by omega) d
  rw [elemDisp_at] at this
  simp only [elemCoords_at] at this
  rw [List.getD_eq_getElem?_getD (l := x.1), List.getElem?_eq_getElem hr, Option.getD_some] at this
  exact this

/-- In a connected body without strain energy all elements perform one rigid motion. -/
theorem Body.globally_rigid (h : Body val nodeIds X blocks elems)
    (hc : Connected X (elems.map Prod.fst)) (v : ℕ → K)
    (h0 : ∀ x ∈ elems, energy x.2 (elemDisp nodeIds v x.1) = 0) :
    ∃ W c, W.transpose = -W ∧ ∀ x ∈ elems, MovesAs nodeIds X v W c x.1 := by
  rcases hel : elems with _ | ⟨x₀, xs⟩
  · exact ⟨0, 0, by simp, by simp⟩
  have hx₀ : x₀ ∈ elems := by rw [hel]; exact List.mem_cons_self
  obtain ⟨W, c, hW, hm⟩ := h.moves hx₀ v (h0 x₀ hx₀)
  refine ⟨W, c, hW, ?_⟩
  rw [← hel]
  intro x hx
  have hchain := hc x₀.1 (List.mem_map_of_mem hx₀) x.1 (List.mem_map_of_mem hx)
  generalize x.1 = e at hchain
  induction hchain with
  | refl => exact hm
  | tail _ hstep ih =>
    obtain ⟨_, hb, n₀, n₁, n₂, ⟨a0, a1, a2⟩, ⟨b0, b1, b2⟩, hli⟩ := hstep
    obtain ⟨y, hy, rfl⟩ := List.mem_map.mp hb
    obtain ⟨W', c', hW', hm'⟩ := h.moves hy v (h0 y hy)
    obtain ⟨rfl, rfl⟩ := rigid_agree W W' hW hW' c c' (X n₀) (X n₁) (X n₂) hli
      (fun d => (ih n₀ a0 d).symm.trans (hm' n₀ b0 d)) (fun d => (ih n₁ a1 d).symm.trans (hm' n₁ b1 d))
      (fun d => (ih n₂ a2 d).symm.trans (hm' n₂ b2 d))
    exact hm'

/-- In a connected, supported body a displacement that vanishes at the prescribed components and has no
strain energy vanishes. -/
theorem Body.zero_energy (h : Body val nodeIds X blocks elems)
    (hc : Connected X (elems.map Prod.fst)) {sets : NodeSets} {bcs : List (BoundaryCondition K)}
    (hnode : ∀ bc ∈ bcs, ∀ ns, sets bc.nodeSetId = some ns → ∀ n ∈ ns, ∃ e ∈ blocks.flatten, n ∈ e)
    (hsup : Supported X sets bcs) (v : ℕ → K)
    (hv : ∀ d, Constrained sets nodeIds 3 bcs d → v d = 0)
    (h0 : (elems.map fun x => energy x.2 (elemDisp nodeIds v x.1)).sum = 0) :
    ∀ i < nodeIds.length * 3, v i = 0 := by
  have t2 : ∀ y ∈ elems.map fun x => energy x.2 (elemDisp nodeIds v x.1), 0 ≤ y := by
    intro y hy
    obtain ⟨x, hx, rfl⟩ := List.mem_map.mp hy
    exact (h.element hx).2.1 _
  have a2 : ∀ x ∈ elems, energy x.2 (elemDisp nodeIds v x.1) = 0 := by
    intro x hx
    have := List.single_le_sum t2 _ (List.mem_map_of_mem hx)
    rw [h0] at this
    exact le_antisymm this ((h.element hx).2.1 _)
  obtain ⟨W, c, hW, hmoves⟩ := h.globally_rigid hc v a2
  obtain ⟨hW0, hc0⟩ := hsup W c hW (by
    intro bc hbc hkin ns hns n hn d hdc
    obtain ⟨e, he, hne⟩ := hnode bc hbc ns hns n hn
    rw [← h.same] at he
    obtain ⟨x, hx, rfl⟩ := List.mem_map.mp he
    rw [← hmoves x hx n hne d]
    obtain ⟨g, hg, _⟩ := (h.node hx).2 n hne
    have hg' : nodeIds.getD n 0 = g := by
      rw [List.getD_eq_getElem?_getD, hg]; rfl
    rw [hg']
    exact hv _ ⟨bc, hbc, hkin, ns, hns, n, hn, g, hg, by rw [hdc]⟩)
  intro i hi
  obtain ⟨b, hb, e, he, n, hn, hg⟩ := h.used (i / 3) (by omega)
  have he' : e ∈ elems.map Prod.fst := by
    rw [h.same]; exact List.mem_flatten.mpr ⟨b, hb, he⟩
  obtain ⟨x, hx, rfl⟩ := List.mem_map.mp he'
  have := hmoves x hx n hn ⟨i % 3, Nat.mod_lt _ (by norm_num)⟩
  rw [List.getD_eq_getElem?_getD, hg, Option.getD_some] at this
  have hi3 : i / 3 * 3 + i % 3 = i := by omega
  simp only [hi3] at this
  rw [this, hW0, hc0]
  simp [rigidAt]

/-- **C129.**  The matrix that the solver receives for a connected, supported elastic body is symmetric
positive definite, and has the shape the solver needs. -/
theorem supported_spd (h : Body val nodeIds X blocks elems)
    (hc : Connected X (elems.map Prod.fst))
    (hs : nonzeroStructure nodeIds 3 blocks = some pairs) {A₀ A D : Crs K} (h₀ : HasPattern A₀ pairs)
    (hz : ∀ a b w, A₀.at? a b = some w → w = 0) (hA : assembleTangent nodeIds 3 elems A₀ = some A)
    {sets : NodeSets} {bcs : List (BoundaryCondition K)} (hw : WellPosed sets nodeIds bcs)
    (hco : ∀ bc ∈ bcs, bc.coordinate < 3)
    (hnode : ∀ bc ∈ bcs, ∀ ns, sets bc.nodeSetId = some ns → ∀ n ∈ ns, ∃ e ∈ blocks.flatten, n ∈ e)
    (hsup : Supported X sets bcs) {diagonal : K} (hd : 0 < diagonal)
    (hD : modifyTangent sets nodeIds 3 diagonal bcs A = some D) :
    SPD D ∧ Solvable D pairs ∧ D.numRows = nodeIds.length * 3 := by
  classical
  obtain ⟨hadm, hdiag, hrows⟩ := nonzeroStructure_admissible (K := K) hs h.used h.nonempty (by norm_num)
  obtain ⟨_, _, hlt⟩ := nonzeroStructure_spec hs
  obtain ⟨hpA, hent⟩ := h.entry_eq hs h₀ hz hA
  set N := nodeIds.length * 3 with hN
  set C := Constrained sets nodeIds 3 bcs with hC
  have hCr : ∀ d, C d → d < N := by
    rintro d ⟨bc, hbc, _, ns, hns, n, hn, g, hg, rfl⟩
    obtain ⟨e, he, hne⟩ := hnode bc hbc ns hns n hn
    obtain ⟨b, hb, he'⟩ := List.mem_flatten.mp he
    obtain ⟨g', hg', hlt'⟩ := h.posed b hb e he' n hne
    rw [hg] at hg'
    cases hg'
    have := hco bc hbc
    omega
  obtain ⟨D', hD', hpD, hv⟩ := modifyTangent_crs hadm hpA diagonal sets nodeIds 3 bcs hw
    (fun d hd => hdiag d (hCr d hd))
  rw [hD] at hD'
  cases hD'
  have hDrows := hrows D hpD
  have hDent : ∀ a < N, ∀ b < N, entry D a b = if C a ∨ C b then (if a = b then diagonal else 0)
      else entry A a b := by
    intro a ha b hb
    unfold entry
    rw [hv]
    by_cases hm : (a, b) ∈ pairs
    · obtain ⟨w, hw'⟩ := Option.isSome_iff_exists.mp ((at_isSome_iff hadm hpA a b).mpr hm)
      rw [hw']
      rfl
    · have : A.at? a b = none := by
        rw [← Option.not_isSome_iff_eq_none, at_isSome_iff hadm hpA a b]; exact hm
      rw [this]
      have hab : a ≠ b := by rintro rfl; exact hm (hdiag a ha)
      simp [hab]
  have hsymA : ∀ a b, entry A a b = entry A b a := by
    intro a b
    rw [hent, hent]
    refine congrArg List.sum (List.map_congr_left fun x hx => ?_)
    exact contribution_symm nodeIds x.1 (h.elastic x hx).1 x.2 (h.element hx).1 a b
  have hspd : SPD D := by
    constructor
    · rw [hDrows]
      intro i hi j hj
      rw [hDent i hi j hj, hDent j hj i hi, hsymA i j]
      by_cases hij : i = j
      · subst hij; rfl
      · simp only [hij, Ne.symm hij, if_false, or_comm]
    · rw [hDrows]
      intro v hvne
      set v' : ℕ → K := fun a => if C a then 0 else v a with hv'
      have split : ∑ i ∈ Finset.range N, v i * ∑ j ∈ Finset.range N, entry D i j * v j
          = (∑ i ∈ Finset.range N, if C i then diagonal * (v i * v i) else 0)
            + ∑ i ∈ Finset.range N, ∑ j ∈ Finset.range N, v' i * entry A i j * v' j := by
        rw [← Finset.sum_add_distrib]
        refine Finset.sum_congr rfl fun i hi => ?_
        have hi' := Finset.mem_range.mp hi
        by_cases hCi : C i
        · rw [if_pos hCi]
          have e1 : ∀ j ∈ Finset.range N, entry D i j * v j = if i = j then diagonal * v j else 0 := by
            intro j hj
            rw [hDent i hi' j (Finset.mem_range.mp hj), if_pos (Or.inl hCi)]
            by_cases hij : i = j <;> simp [hij]
          have e2 : ∀ j ∈ Finset.range N, v' i * entry A i j * v' j = 0 := by
            intro j _
            have : v' i = 0 := if_pos hCi
            rw [this]; ring
          rw [Finset.sum_congr rfl e1, Finset.sum_congr rfl e2, Finset.sum_ite_eq, if_pos hi,
            Finset.sum_const_zero]
          ring
        · rw [if_neg hCi, zero_add, Finset.mul_sum]
          refine Finset.sum_congr rfl fun j hj => ?_
          rw [hDent i hi' j (Finset.mem_range.mp hj)]
          have h1 : v' i = v i := if_neg hCi
          by_cases hCj : C j
          · have h2 : v' j = 0 := if_pos hCj
            have hij : i ≠ j := by rintro rfl; exact hCi hCj
            rw [if_pos (Or.inr hCj), if_neg hij, h2]; ring
          · have h2 : v' j = v j := if_neg hCj
            rw [if_neg (by tauto), h1, h2]; ring
      rw [split, h.energy_eq hs h₀ hz hA v']
      have t1 : ∀ i ∈ Finset.range N, 0 ≤ if C i then diagonal * (v i * v i) else 0 := by
        intro i _
        split
        · exact mul_nonneg hd.le (mul_self_nonneg _)
        · exact le_rfl
      have t2 : ∀ y ∈ elems.map fun x => energy x.2 (elemDisp nodeIds v' x.1), 0 ≤ y := by
        intro y hy
        obtain ⟨x, hx, rfl⟩ := List.mem_map.mp hy
        exact (h.element hx).2.1 _
      have s1 := Finset.sum_nonneg t1
      have s2 := List.sum_nonneg t2
      by_contra hle
      have z1 : ∑ i ∈ Finset.range N, (if C i then diagonal * (v i * v i) else 0) = 0 := by linarith
      have z2 : (elems.map fun x => energy x.2 (elemDisp nodeIds v' x.1)).sum = 0 := by linarith
      have a1 := (Finset.sum_eq_zero_iff_of_nonneg t1).mp z1
      have vC : ∀ i < N, C i → v i = 0 := by
        intro i hi hCi
        have := a1 i (Finset.mem_range.mpr hi)
        rw [if_pos hCi] at this
        exact mul_self_eq_zero.mp ((mul_eq_zero.mp this).resolve_left hd.ne')
      have a2 := h.zero_energy hc hnode hsup v' (fun d hCd => if_pos hCd) z2
      obtain ⟨i, hi, hne⟩ := hvne
      apply hne
      by_cases hCi : C i
      · exact vC i hi hCi
      · have := a2 i hi
        rwa [show v' i = v i from if_neg hCi] at this
  refine ⟨hspd, ⟨hadm, hpD, ?_, ?_, ?_⟩, hDrows⟩
  · rintro ⟨i, j⟩ hp
    rw [hDrows]
    exact (hlt i j hp).2
  · rw [hDrows]; exact hdiag
  · intro i hi
    exact (hspd.diag_pos hi).ne'

/-- **C129.**  So the quasi-static linear solve of a connected, supported elastic body succeeds for every
load: with tolerance zero and an iteration limit above the number of unknowns (exact arithmetic) the
solver reports success, and the displacement increment it returns vanishes at the prescribed components
and balances the load at all others. -/
theorem supported_body_solved (h : Body val nodeIds X blocks elems)
    (hc : Connected X (elems.map Prod.fst))
    (hs : nonzeroStructure nodeIds 3 blocks = some pairs) {A₀ A D : Crs K} (h₀ : HasPattern A₀ pairs)
    (hz : ∀ a b w, A₀.at? a b = some w → w = 0) (hA : assembleTangent nodeIds 3 elems A₀ = some A)
    {sets : NodeSets} {bcs : List (BoundaryCondition K)} (hw : WellPosed sets nodeIds bcs)
    (hco : ∀ bc ∈ bcs, bc.coordinate < 3)
    (hnode : ∀ bc ∈ bcs, ∀ ns, sets bc.nodeSetId = some ns → ∀ n ∈ ns, ∃ e ∈ blocks.flatten, n ∈ e)
    (hsup : Supported X sets bcs) {diagonal : K} (hd : 0 < diagonal)
    (hD : modifyTangent sets nodeIds 3 diagonal bcs A = some D)
    {load rhs : ℕ → K} (hr : modifyRhs sets nodeIds 3 bcs load = some rhs)
    {scratch : CgScratch K} (hsc : ScratchOk scratch) (guess : ℕ → K) (limit : ℤ)
    (hl : (nodeIds.length * 3 : ℤ) < limit) :
    ∃ iters u, cgSolve D rhs scratch guess 0 limit = .returned true iters u ∧
      (∀ d, Constrained sets nodeIds 3 bcs d → u d = 0) ∧
      ∀ i < nodeIds.length * 3, ¬ Constrained sets nodeIds 3 bcs i →
        ∑ j ∈ Finset.range (nodeIds.length * 3), entry A i j * u j = load i := by
  obtain ⟨hspd, hsol, hrows⟩ := supported_spd h hc hs h₀ hz hA hw hco hnode hsup hd hD
  obtain ⟨hadm, hdiag, hrowsA⟩ := nonzeroStructure_admissible (K := K) hs h.used h.nonempty (by norm_num)
  obtain ⟨_, _, hlt⟩ := nonzeroStructure_spec hs
  obtain ⟨hpA, _⟩ := h.entry_eq hs h₀ hz hA
  have hAr := hrowsA A hpA
  obtain ⟨iters, u, h1, h2⟩ := cg_spd_exact hsol hspd hsc rhs guess limit (by rw [hrows]; push_cast; exact hl)
  have hCr : ∀ d, Constrained sets nodeIds 3 bcs d → d < nodeIds.length * 3 := by
    rintro d ⟨bc, hbc, _, ns, hns, n, hn, g, hg, rfl⟩
    obtain ⟨e, he, hne⟩ := hnode bc hbc ns hns n hn
    obtain ⟨b, hb, he'⟩ := List.mem_flatten.mp he
    obtain ⟨g', hg', hlt'⟩ := h.posed b hb e he' n hne
    rw [hg] at hg'
    cases hg'
    have := hco bc hbc
    omega
  obtain ⟨c1, c2⟩ := constrained_solution (x := u) (scratch := fun _ => 0) hadm hpA hd.ne' hw
    (fun d hd => hdiag d (hCr d hd)) (by rw [hAr]; rintro ⟨i, j⟩ hp; exact (hlt i j hp).2) hD hr (by
      intro i hi
      rw [hAr, ← hrows] at hi
      rw [matVec_rows hsol u _ hi]
      exact h2 i hi)
  refine ⟨iters, u, h1, c1, fun i hi hn => ?_⟩
  rw [← c2 i (by rw [hAr]; exact hi) hn]
  rw [(matVec_spec hadm hpA u (fun _ => 0) (nodeIds.length * 3)
    (by rintro ⟨i, j⟩ hp; exact (hlt i j hp).2)).1 i (by rw [hAr]; exact hi)]
  rfl

/-- The matrix the assembly starts from: `SetAllValues(0)` on the allocated container, whatever it held. -/
theorem setAllValues_zero {S : Crs K} (hadm : Admissible pairs) (hS : HasPattern S pairs) :
    HasPattern (S.setAllValues 0) pairs ∧ ∀ a b w, (S.setAllValues 0).at? a b = some w → w = 0 := by
  have hp : HasPattern (S.setAllValues 0) pairs := hS.withData (by simp)
  refine ⟨hp, fun a b w hw => ?_⟩
  have hm := (at_isSome_iff hadm hp a b).mp (by rw [hw]; rfl)
  obtain ⟨p, hpl, hpe⟩ := List.getElem_of_mem hm
  rw [at_listed hadm hp (p := p) (by rw [List.getElem?_eq_getElem hpl, hpe])] at hw
  simp only [Crs.setAllValues, List.getElem?_map, Option.map_eq_some_iff] at hw
  obtain ⟨_, _, rfl⟩ := hw
  rfl

theorem sumAbsDiagonal_eq {A : Crs K} (n : ℕ) (h : ∀ i < n, (A.at? i i).isSome) :
    sumAbsDiagonal A n = some (∑ i ∈ Finset.range n, |entry A i i|) := by
  induction n with
  | zero => rfl
  | succ n ih =>
    obtain ⟨w, hw⟩ := Option.isSome_iff_exists.mp (h n (Nat.lt_succ_self n))
    rw [sumAbsDiagonal, ih fun i hi => h i (by omega), Option.bind_some, hw, Option.map_some,
      Finset.sum_range_succ]
    simp [entry, hw]

/-- The entry the code puts on the diagonal of constrained rows is positive as soon as one component of
the body is free. -/
theorem diagonalEntry_pos (h : Body val nodeIds X blocks elems)
    (hc : Connected X (elems.map Prod.fst))
    (hs : nonzeroStructure nodeIds 3 blocks = some pairs) {A₀ A : Crs K} (h₀ : HasPattern A₀ pairs)
    (hz : ∀ a b w, A₀.at? a b = some w → w = 0) (hA : assembleTangent nodeIds 3 elems A₀ = some A)
    {sets : NodeSets} {bcs : List (BoundaryCondition K)}
    (hnode : ∀ bc ∈ bcs, ∀ ns, sets bc.nodeSetId = some ns → ∀ n ∈ ns, ∃ e ∈ blocks.flatten, n ∈ e)
    (hsup : Supported X sets bcs)
    (hfree : ∃ d < nodeIds.length * 3, ¬ Constrained sets nodeIds 3 bcs d) :
    ∃ dg, diagonalEntry A (nodeIds.length * 3) = some dg ∧ 0 < dg := by
  classical
  obtain ⟨hadm, hdiag, hrows⟩ := nonzeroStructure_admissible (K := K) hs h.used h.nonempty (by norm_num)
  obtain ⟨hpA, _⟩ := h.entry_eq hs h₀ hz hA
  obtain ⟨d, hd, hnc⟩ := hfree
  have hN : 0 < nodeIds.length * 3 := by omega
  refine ⟨_, by
    rw [diagonalEntry, sumAbsDiagonal_eq _ fun i hi => (at_isSome_iff hadm hpA i i).mpr (hdiag i hi)]
    rfl, ?_⟩
  refine div_pos ?_ (by exact_mod_cast hN)
  refine lt_of_lt_of_le ?_ (Finset.single_le_sum (f := fun i => |entry A i i|)
    (fun i _ => abs_nonneg _) (Finset.mem_range.mpr hd))
  refine abs_pos.mpr fun h0 => ?_
  have he := h.energy_eq hs h₀ hz hA (fun i => if i = d then 1 else 0)
  have hl : ∑ a ∈ Finset.range (nodeIds.length * 3), ∑ b ∈ Finset.range (nodeIds.length * 3),
      (if a = d then (1 : K) else 0) * entry A a b * (if b = d then 1 else 0) = 0 := by
    refine Finset.sum_eq_zero fun a _ => Finset.sum_eq_zero fun b _ => ?_
    by_cases ha : a = d <;> by_cases hb : b = d <;> simp [ha, hb, h0]
  rw [hl] at he
  have := h.zero_energy hc hnode hsup (fun i => if i = d then 1 else 0) (fun i hi => by
    have : i ≠ d := by rintro rfl; exact hnc hi
    simp [this]) he.symm d hd
  simp at this

/-- **C129.**  The whole linear solve of the quasi-static integrator, for a connected, supported elastic
body with at least one free component, for every residual and whatever the container held before: nothing
is rejected, and with an iteration limit above the number of unknowns the solver reports success. With
tolerance zero (exact arithmetic) the result vanishes at the prescribed components and the assembled
stiffness applied to it is the residual at all others. -/
theorem linear_step_succeeds (h : Body val nodeIds X blocks elems)
    (hc : Connected X (elems.map Prod.fst))
    (hs : nonzeroStructure nodeIds 3 blocks = some pairs) {S : Crs K} (hS : HasPattern S pairs)
    {sets : NodeSets} {bcs : List (BoundaryCondition K)} (hw : WellPosed sets nodeIds bcs)
    (hco : ∀ bc ∈ bcs, bc.coordinate < 3)
    (hnode : ∀ bc ∈ bcs, ∀ ns, sets bc.nodeSetId = some ns → ∀ n ∈ ns, ∃ e ∈ blocks.flatten, n ∈ e)
    (hsup : Supported X sets bcs)
    (hfree : ∃ d < nodeIds.length * 3, ¬ Constrained sets nodeIds 3 bcs d)
    (residual : ℕ → K) {scratch : CgScratch K} (hsc : ScratchOk scratch) (cgTol : K) (htol : 0 ≤ cgTol)
    (limit : ℤ) (hl : (nodeIds.length * 3 : ℤ) < limit) :
    ∃ iters u, linearStep sets nodeIds bcs elems S residual scratch cgTol limit = .returned true iters u ∧
      iters ≤ nodeIds.length * 3 ∧
      (cgTol = 0 → (∀ d, Constrained sets nodeIds 3 bcs d → u d = 0) ∧
        ∀ i < nodeIds.length * 3, ¬ Constrained sets nodeIds 3 bcs i →
          ∑ j ∈ Finset.range (nodeIds.length * 3),
            (elems.map fun x => contribution nodeIds 3 x.1 x.2 i j).sum * u j = residual i) := by
  obtain ⟨hadm, hdiag, hrows⟩ := nonzeroStructure_admissible (K := K) hs h.used h.nonempty (by norm_num)
  obtain ⟨h₀, hz⟩ := setAllValues_zero hadm hS
  obtain ⟨A, hA, _, _⟩ := assembleTangent_spec hs h.used h.nonempty (by norm_num) h.posed
    elems (fun x hx => (h.node hx).1) h₀
  obtain ⟨hpA, hent⟩ := h.entry_eq hs h₀ hz hA
  obtain ⟨dg, hdg, hdpos⟩ := diagonalEntry_pos h hc hs h₀ hz hA hnode hsup hfree
  have hCr : ∀ d, Constrained sets nodeIds 3 bcs d → d < nodeIds.length * 3 := by
    rintro d ⟨bc, hbc, _, ns, hns, n, hn, g, hg, rfl⟩
    obtain ⟨e, he, hne⟩ := hnode bc hbc ns hns n hn
    obtain ⟨b, hb, he'⟩ := List.mem_flatten.mp he
    obtain ⟨g', hg', hlt'⟩ := h.posed b hb e he' n hne
    rw [hg] at hg'
    cases hg'
    have := hco bc hbc
    omega
  obtain ⟨D, hD, _⟩ := modifyTangent_crs hadm hpA dg sets nodeIds 3 bcs hw
    (fun d hd => hdiag d (hCr d hd))
  obtain ⟨rhs, hr, _⟩ := modifyRhs_spec sets nodeIds 3 bcs residual hw
  obtain ⟨hspd, hsol, hDr⟩ := supported_spd h hc hs h₀ hz hA hw hco hnode hsup hdpos hD
  have hstep : linearStep sets nodeIds bcs elems S residual scratch cgTol limit
      = cgSolve D rhs scratch (fun _ => 0) cgTol limit := by
    unfold linearStep
    rw [hA]
    simp only [hdg, Option.bind_some, hD, hr]
  obtain ⟨ok, iters, u, h1, h2, h3⟩ := cg_spd hsol hspd hsc rhs (fun _ => 0) cgTol htol limit
  obtain ⟨rfl, _⟩ := h3 (by rw [hDr]; push_cast; exact hl)
  refine ⟨iters, u, hstep.trans h1, by rw [← hDr]; exact h2, ?_⟩
  rintro rfl
  obtain ⟨iters', u', e1, e2, e3⟩ := supported_body_solved h hc hs h₀ hz hA hw hco hnode hsup hdpos hD hr
    hsc (fun _ => 0) limit hl
  rw [h1] at e1
  cases e1
  refine ⟨e2, fun i hi hn => ?_⟩
  rw [← e3 i hi hn]
  simp only [hent]

/-! ## A concrete body: two bricks stacked on a statically determinate support -/

/-- Nodes of two unit cubes, one on top of the other. -/
def stackX : ℕ → Fin 3 → ℚ := fun n =>
  ![if n % 4 = 1 ∨ n % 4 = 2 then 1 else 0, if n % 4 = 2 ∨ n % 4 = 3 then 1 else 0, (n / 4 : ℕ)]

/-- One block with the two elements. -/
def stackBlocks : List Connectivity := [[[0, 1, 2, 3, 4, 5, 6, 7], [4, 5, 6, 7, 8, 9, 10, 11]]]

/-- The linear system numbers the nodes backwards. -/
def stackIds : List ℕ := [11, 10, 9, 8, 7, 6, 5, 4, 3, 2, 1, 0]

/-- Node set 1: the bottom; 2 and 3: two of its corners. -/
def stackSets : NodeSets := fun i =>
  if i = 1 then some [0, 1, 2, 3] else if i = 2 then some [0] else if i = 3 then some [1] else none

/-- The bottom rests on a plane, one corner is pinned, a second one may slide along `x`. -/
def stackBcs : List (BoundaryCondition ℚ) :=
  [⟨.prescribedDisplacement, 1, 2, .inl 0⟩, ⟨.prescribedDisplacement, 2, 0, .inl 0⟩,
   ⟨.prescribedVelocity, 2, 1, .inl 0⟩, ⟨.prescribedDisplacement, 3, 1, .inl 0⟩]

theorem stack_oriented : ∀ e ∈ stackBlocks.flatten, EdgesOriented (elemCoords stackX e) := by
  intro e he a b c
  rw [Hex.det3_eq]
  revert a b c
  simp only [stackBlocks, List.flatten_cons, List.flatten_nil, List.append_nil, List.mem_cons,
    List.not_mem_nil, or_false] at he
  rcases he with rfl | rfl <;> decide +kernel

theorem stack_supported : Supported stackX stackSets stackBcs := by
  intro W c hW h
  have sk := skew_eq W hW
  have hz : ∀ n ∈ [0, 1, 2, 3], rigidAt W c (stackX n) 2 = 0 := fun n hn =>
    h ⟨.prescribedDisplacement, 1, 2, .inl 0⟩ (by simp [stackBcs]) (Or.inl rfl) _ rfl n hn 2 rfl
  have hx := h ⟨.prescribedDisplacement, 2, 0, .inl 0⟩ (by simp [stackBcs]) (Or.inl rfl) _ rfl 0
    (by simp) 0 rfl
  have hy := h ⟨.prescribedVelocity, 2, 1, .inl 0⟩ (by simp [stackBcs]) (Or.inr rfl) _ rfl 0
    (by simp) 1 rfl
  have hy1 := h ⟨.prescribedDisplacement, 3, 1, .inl 0⟩ (by simp [stackBcs]) (Or.inl rfl) _ rfl 1
    (by simp) 1 rfl
  have h0 := hz 0 (by simp)
  have h1 := hz 1 (by simp)
  have h3 := hz 3 (by simp)
  simp [rigidAt, stackX, Fin.sum_univ_three] at h0 h1 h3 hx hy hy1
  have k00 := sk 0 0
  have k11 := sk 1 1
  have k22 := sk 2 2
  have k01 := sk 0 1
  have k12 := sk 1 2
  have k20 := sk 2 0
  constructor
  · ext a b
    rw [Matrix.zero_apply]
    fin_cases a <;> fin_cases b <;> simp only [Fin.zero_eta, Fin.mk_one, Fin.reduceFinMk] <;> linarith
  · funext d
    fin_cases d <;> simp only [Fin.zero_eta, Fin.mk_one, Fin.reduceFinMk, Pi.zero_apply] <;> linarith

theorem stack_connected : Connected stackX stackBlocks.flatten := by
  have hli : LinearIndependent ℚ ![stackX 5 - stackX 4, stackX 7 - stackX 4] := by
    rw [LinearIndependent.pair_iff]
    intro s t h
    have h0 := congrFun h 0
    have h1 := congrFun h 1
    simp [stackX] at h0 h1
    exact ⟨h0, h1⟩
  have f : ∀ a b : List ℕ, (4 ∈ a ∧ 5 ∈ a ∧ 7 ∈ a) → (4 ∈ b ∧ 5 ∈ b ∧ 7 ∈ b) → ShareFace stackX a b :=
    fun a b ha hb => ⟨4, 5, 7, ha, hb, hli⟩
  have all : ∀ e ∈ stackBlocks.flatten, 4 ∈ e ∧ 5 ∈ e ∧ 7 ∈ e := by decide
  intro e he e' he'
  exact Relation.ReflTransGen.single ⟨he, he', f _ _ (all e he) (all e' he')⟩

/-- The two bricks, with any positive moduli, meet every hypothesis of `linear_step_succeeds`. -/
theorem stack_problem (m : Material ℚ) (hk : 0 < m.bulk) (hg : 0 < m.shear) (out : ℕ → ℚ) :
    ∃ (t₁ t₂ : ℕ → ℕ → ℚ) (pairs : List (ℕ × ℕ)),
      computeTangent gaussVal (elemCoords stackX [0, 1, 2, 3, 4, 5, 6, 7]) (getTangent m 8 out) = some t₁ ∧
      computeTangent gaussVal (elemCoords stackX [4, 5, 6, 7, 8, 9, 10, 11]) (getTangent m 8 out) = some t₂ ∧
      nonzeroStructure stackIds 3 stackBlocks = some pairs ∧
      Body gaussVal stackIds stackX stackBlocks
        [([0, 1, 2, 3, 4, 5, 6, 7], t₁), ([4, 5, 6, 7, 8, 9, 10, 11], t₂)] ∧
      WellPosed stackSets stackIds stackBcs ∧ (∀ bc ∈ stackBcs, bc.coordinate < 3) ∧
      (∀ bc ∈ stackBcs, ∀ ns, stackSets bc.nodeSetId = some ns → ∀ n ∈ ns, ∃ e ∈ stackBlocks.flatten, n ∈ e) ∧
      ∃ d < stackIds.length * 3, ¬ Constrained stackSets stackIds 3 stackBcs d := by
  have v1 : (0 : ℚ) < gaussVal := by unfold gaussVal; norm_num
  have v2 : (gaussVal : ℚ) < 1 := by unfold gaussVal; norm_num
  obtain ⟨t₁, ht₁⟩ := oriented_tangent_defined gaussVal v1 v2 _ (getTangent m 8 out)
    (stack_oriented [0, 1, 2, 3, 4, 5, 6, 7] (by decide))
  obtain ⟨t₂, ht₂⟩ := oriented_tangent_defined gaussVal v1 v2 _ (getTangent m 8 out)
    (stack_oriented [4, 5, 6, 7, 8, 9, 10, 11] (by decide))
  set elems : List (List ℕ × (ℕ → ℕ → ℚ)) :=
    [([0, 1, 2, 3, 4, 5, 6, 7], t₁), ([4, 5, 6, 7, 8, 9, 10, 11], t₂)] with helems
  have hbody : Body gaussVal stackIds stackX stackBlocks elems := by
    refine ⟨v1, v2, by decide, ?_, ?_, rfl, ?_⟩
    · have : ∀ b ∈ stackBlocks, ∀ e ∈ b, ∀ n ∈ e, stackIds[n]? = some (11 - n) ∧ 11 - n < 12 := by
        decide
      exact fun b hb e he n hn => ⟨11 - n, this b hb e he n hn⟩
    · intro g hg
      have hg' : g < 12 := hg
      have : ∀ g < 12, ∃ b ∈ stackBlocks, ∃ e ∈ b, ∃ n ∈ e, stackIds[n]? = some g := by decide
      exact this g hg'
    · intro x hx
      simp only [helems, List.mem_cons, List.not_mem_nil, or_false] at hx
      rcases hx with rfl | rfl
      · exact ⟨rfl, stack_oriented [0, 1, 2, 3, 4, 5, 6, 7] (by decide), m, out, hk, hg, ht₁⟩
      · exact ⟨rfl, stack_oriented [4, 5, 6, 7, 8, 9, 10, 11] (by decide), m, out, hk, hg, ht₂⟩
  obtain ⟨pairs, hs⟩ := nonzeroStructure_defined stackIds 3 stackBlocks hbody.posed
  obtain ⟨hadm, hdiag, _⟩ := nonzeroStructure_admissible (K := ℚ) hs hbody.used hbody.nonempty
    (by norm_num)
  have hw : WellPosed stackSets stackIds stackBcs := by
    intro bc hbc
    simp only [stackBcs, List.mem_cons, List.not_mem_nil, or_false] at hbc
    rcases hbc with rfl | rfl | rfl | rfl
    · exact ⟨[0, 1, 2, 3], rfl, by decide⟩
    · exact ⟨[0], rfl, by decide⟩
    · exact ⟨[0], rfl, by decide⟩
    · exact ⟨[1], rfl, by decide⟩
  have hco : ∀ bc ∈ stackBcs, bc.coordinate < 3 := by
    intro bc hbc
    simp only [stackBcs, List.mem_cons, List.not_mem_nil, or_false] at hbc
    rcases hbc with rfl | rfl | rfl | rfl <;> decide
  have hset : ∀ i ns, stackSets i = some ns → ∀ n ∈ ns, n < 4 := by
    intro i ns h n hn
    unfold stackSets at h
    split at h
    · cases h; revert n; decide
    · split at h
      · cases h; revert n; decide
      · split at h
        · cases h; revert n; decide
        · cases h
  have hnode : ∀ bc ∈ stackBcs, ∀ ns, stackSets bc.nodeSetId = some ns → ∀ n ∈ ns,
      ∃ e ∈ stackBlocks.flatten, n ∈ e := by
    intro bc _ ns hns n hn
    have hn4 := hset _ ns hns n hn
    refine ⟨[0, 1, 2, 3, 4, 5, 6, 7], by decide, ?_⟩
    have : ∀ n < 4, n ∈ [0, 1, 2, 3, 4, 5, 6, 7] := by decide
    exact this n hn4
  have hfree : ∃ d < stackIds.length * 3, ¬ Constrained stackSets stackIds 3 stackBcs d := by
    refine ⟨0, by decide, ?_⟩
    rintro ⟨bc, _, _, ns, hns, n, hn, g, hg, he⟩
    have hn4 := hset _ ns hns n hn
    have : ∀ n < 4, ∀ g, stackIds[n]? = some g → g ≠ 0 := by
      intro n hn g
      interval_cases n <;> simp [stackIds] <;> omega
    have := this n hn4 g hg
    omega
  exact ⟨t₁, t₂, pairs, ht₁, ht₂, hs, hbody, hw, hco, hnode, hfree⟩

/-- The two bricks, with any positive moduli: for every residual the linear solve succeeds within the
iteration limit of the code, with the balanced displacement (all hypotheses of `linear_step_succeeds`
hold). -/
theorem stack_solved (m : Material ℚ) (hk : 0 < m.bulk) (hg : 0 < m.shear) (out residual : ℕ → ℚ) :
    ∃ (t₁ t₂ : ℕ → ℕ → ℚ) (pairs : List (ℕ × ℕ)) (iters : ℕ) (u : ℕ → ℚ),
      computeTangent gaussVal (elemCoords stackX [0, 1, 2, 3, 4, 5, 6, 7]) (getTangent m 8 out) = some t₁ ∧
      computeTangent gaussVal (elemCoords stackX [4, 5, 6, 7, 8, 9, 10, 11]) (getTangent m 8 out) = some t₂ ∧
      nonzeroStructure stackIds 3 stackBlocks = some pairs ∧
      linearStep stackSets stackIds stackBcs
        [([0, 1, 2, 3, 4, 5, 6, 7], t₁), ([4, 5, 6, 7, 8, 9, 10, 11], t₂)]
        (allocated Crs.empty pairs) residual CgScratch.fresh 0 1000 = .returned true iters u ∧
      iters ≤ 36 ∧ ∀ d, Constrained stackSets stackIds 3 stackBcs d → u d = 0 := by
  obtain ⟨t₁, t₂, pairs, ht₁, ht₂, hs, hbody, hw, hco, hnode, hfree⟩ := stack_problem m hk hg out
  obtain ⟨iters, u, c1, c2, c3⟩ := linear_step_succeeds hbody
    (by rw [hbody.same]; exact stack_connected) hs (allocated_hasPattern (Crs.empty : Crs ℚ) pairs) hw hco
    hnode stack_supported hfree residual scratch_fresh_ok 0 le_rfl 1000 (by decide)
  exact ⟨t₁, t₂, pairs, iters, u, ht₁, ht₂, hs, c1, c2, (c3 rfl).1⟩

/-- Without supports the statement fails: a translation has no energy. -/
theorem unsupported_not_spd : ¬ Supported stackX stackSets [] := by
  intro h
  have := (h 0 (fun _ => 1) (by simp) (by simp)).2
  exact one_ne_zero (congrFun this 0)

end NimbleSM.Solver
