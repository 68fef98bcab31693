import Verif.Assembly.Assembly
import Verif.Element.HexForces
import Verif.Solver.SparsityProps
import Mathlib.Algebra.BigOperators.Group.Finset.Sigma
import Mathlib.Tactic.IntervalCases

/-!
# C45, C26: assembled internal force and mass
-/

open scoped BigOperators

namespace NimbleSM.Assembly

open NimbleSM.Hex NimbleSM.Constitutive

variable {K : Type*} [Field K] [LinearOrder K]

/-- Specification: the contribution of element `elem` of block `b` to component `d` of node `n`: the
sum of the element's nodal forces over its corners that are node `n`. -/
def contribution (b : Blk K) (f : ℕ → Fin 3 → K) (elem n : ℕ) (d : Fin 3) : K :=
  ∑ c ∈ Finset.range 8, if b.nodeId elem c = n then f c d else 0

/-- Specification: the coordinates of the corners of an element. -/
theorem gather_val (b : Blk K) (elem : ℕ) (data : ℕ → K) {c : ℕ} (hc : c < 8) (d : Fin 3) :
    gather b elem data (3 * c + d) = data (3 * b.nodeId elem c + d) := by
  have h8 : List.range 8 = [0, 1, 2, 3, 4, 5, 6, 7] := rfl
  have h3 : List.range 3 = [0, 1, 2] := rfl
  unfold gather
  rw [h8, h3]
  interval_cases c <;> fin_cases d <;> rfl

theorem put_comm_add (out : ℕ → K) (k j : ℕ) (x : K) :
    put out k (out k + x) j = out j + if k = j then x else 0 := by
  unfold put
  by_cases h : j = k
  · subst h; simp
  · simp [h, Ne.symm h]

theorem flat_inj {a n : ℕ} {i d : Fin 3} : 3 * a + i.val = 3 * n + d.val ↔ a = n ∧ i = d := by
  constructor
  · intro h
    have hi := i.isLt; have hd := d.isLt
    refine ⟨by omega, Fin.ext (by omega)⟩
  · rintro ⟨rfl, rfl⟩; rfl

theorem scatter_node (a : ℕ) (f : Fin 3 → K) (out : ℕ → K) (n : ℕ) (d : Fin 3) :
    (List.finRange 3).foldl (fun out i => put out (3 * a + i.val) (out (3 * a + i.val) + f i)) out
      (3 * n + d) = out (3 * n + d) + if a = n then f d else 0 := by
  have h3 : List.finRange 3 = [0, 1, 2] := rfl
  rw [h3]
  simp only [List.foldl_cons, List.foldl_nil]
  rw [put_comm_add, put_comm_add, put_comm_add]
  simp only [flat_inj]
  by_cases h : a = n
  · fin_cases d <;> simp [h]
  · simp [h]

theorem scatter_val (b : Blk K) (elem : ℕ) (f : ℕ → Fin 3 → K) (out : ℕ → K) (n : ℕ) (d : Fin 3) :
    scatter b elem f out (3 * n + d) = out (3 * n + d) + contribution b f elem n d := by
  unfold scatter contribution
  generalize 8 = k
  induction k generalizing out with
  | zero => simp
  | succ k ih =>
    rw [List.range_succ (n := k), List.foldl_append, List.foldl_cons, List.foldl_nil, scatter_node, ih,
      Finset.sum_range_succ, add_assoc]

/-- A loop of `Option` updates that each add a contribution: it succeeds exactly when every item does,
and then it has added the sum of the contributions. -/
theorem foldlM_add {A S : Type*} (g : A → Option S) (sc : A → S → (ℕ → K) → (ℕ → K))
    (k : ℕ) (w : A → S → K) (hsc : ∀ a s out, sc a s out k = out k + w a s)
    (l : List A) (out : ℕ → K) (r : ℕ → K)
    (h : l.foldlM (fun (out : ℕ → K) a => (g a).map fun s => sc a s out) out = some r) :
    r k = out k + (l.map fun a => (g a).elim 0 (w a)).sum := by
  induction l generalizing out with
  | nil =>
    have : out = r := by simpa using h
    simp [this]
  | cons a l ih =>
    rw [List.foldlM_cons] at h
    cases hg : g a with
    | none => rw [hg] at h; simp at h
    | some s =>
      rw [hg] at h
      rw [ih (sc a s out) (by simpa using h), hsc, List.map_cons, List.sum_cons, hg, Option.elim_some,
        add_assoc]

theorem foldlM_isSome {A S O : Type*} (g : A → Option S) (sc : A → S → O → O) (l : List A) (out : O) :
    (l.foldlM (fun (out : O) a => (g a).map fun s => sc a s out) out).isSome = true ↔
      ∀ a ∈ l, (g a).isSome = true := by
  induction l generalizing out with
  | nil => simp
  | cons a l ih =>
    rw [List.foldlM_cons]
    cases hg : g a with
    | none => simp [hg]
    | some s =>
      have := ih (sc a s out)
      simp only [Option.map_some, Option.bind_eq_bind, Option.bind_some, this, List.mem_cons,
        forall_eq_or_imp, hg, Option.isSome_some, true_and]

/-- Specification: what element `elem` of block `b` adds to component `d` of node `n`. -/
def elemContribution (val : K) (X u : ℕ → K) (n : ℕ) (d : Fin 3) (be : Blk K × ℕ) : K :=
  (elementForce val be.1 X u be.2).elim 0 fun f => contribution be.1 f be.2 n d

/-- The elements of the mesh in the order in which they are processed. -/
def elements (blocks : List (Blk K × List ℕ)) : List (Blk K × ℕ) :=
  blocks.flatMap fun b => b.2.map fun e => (b.1, e)

theorem computeInternalForce_flat (val : K) (X u : ℕ → K) (blocks : List (Blk K × List ℕ)) (out : ℕ → K) :
    blocks.foldlM (fun (out : ℕ → K) b => blockInternalForce val X u b.1 b.2 out) out
      = (elements blocks).foldlM (fun (out : ℕ → K) be =>
          (elementForce val be.1 X u be.2).map fun f => scatter be.1 be.2 f out) out := by
  induction blocks generalizing out with
  | nil => rfl
  | cons b l ih =>
    have : elements (b :: l) = b.2.map (fun e => (b.1, e)) ++ elements l := rfl
    rw [this, List.foldlM_append, List.foldlM_cons, List.foldlM_map]
    unfold blockInternalForce
    congr 1
    funext out
    exact ih out

/-- **C45.**  `ComputeInternalForce` succeeds exactly when every element's force is defined. -/
theorem internal_force_defined (val : K) (X u : ℕ → K) (blocks : List (Blk K × List ℕ)) :
    (∃ F, computeInternalForce val X u blocks = some F) ↔
      ∀ b ∈ blocks, ∀ e ∈ b.2, ∃ f, elementForce val b.1 X u e = some f := by
  unfold computeInternalForce
  rw [computeInternalForce_flat, ← Option.isSome_iff_exists,
    foldlM_isSome (fun be : Blk K × ℕ => elementForce val be.1 X u be.2)
      (fun be f out => scatter be.1 be.2 f out)]
  simp only [elements, List.mem_flatMap, List.mem_map, Option.isSome_iff_exists]
  constructor
  · intro h b hb e he
    exact h (b.1, e) ⟨b, hb, e, he, rfl⟩
  · rintro h _ ⟨b, hb, e, he, rfl⟩
    exact h b hb e he

/-- **C45.**  Every component of every node of the assembled force is the sum, over the elements of
all blocks, of the forces of the element corners at that node. -/
theorem internal_force_sum (val : K) (X u F : ℕ → K) (blocks : List (Blk K × List ℕ))
    (h : computeInternalForce val X u blocks = some F) (n : ℕ) (d : Fin 3) :
    F (3 * n + d) = (blocks.map fun b =>
      (b.2.map fun e => (elementForce val b.1 X u e).elim 0 fun f =>
        ∑ c ∈ Finset.range 8, if b.1.nodeId e c = n then f c d else 0).sum).sum := by
  unfold computeInternalForce at h
  rw [computeInternalForce_flat] at h
  have := foldlM_add _ (fun (be : Blk K × ℕ) f out => scatter be.1 be.2 f out) (3 * n + d)
    (fun be f => contribution be.1 f be.2 n d) (fun be f out => scatter_val be.1 be.2 f out n d) _ _ _ h
  rw [this, zero_add, elements]
  rw [List.map_flatMap, Solver.sum_flatMap']
  simp only [List.map_map]
  rfl

theorem flat_form (k : ℕ) : ∃ (n : ℕ) (d : Fin 3), k = 3 * n + d :=
  ⟨k / 3, ⟨k % 3, Nat.mod_lt _ (by norm_num)⟩, (Nat.div_add_mod k 3).symm⟩

/-- **C45.**  The result does not depend on the order of the blocks, of the elements, nor on how the
elements of a block are scheduled: processing the same elements in any other order gives the same array
(or the same abort). -/
theorem internal_force_order (val : K) (X u : ℕ → K) (blocks blocks' : List (Blk K × List ℕ))
    (hperm : (elements blocks).Perm (elements blocks')) :
    computeInternalForce val X u blocks = computeInternalForce val X u blocks' := by
  have hs := foldlM_isSome (fun be : Blk K × ℕ => elementForce val be.1 X u be.2)
      (fun be f (out : ℕ → K) => scatter be.1 be.2 f out)
  have hv := fun k n d (hk : k = 3 * n + (d : Fin 3).val) =>
    foldlM_add (fun be : Blk K × ℕ => elementForce val be.1 X u be.2)
      (fun be f out => scatter be.1 be.2 f out) k
      (fun be f => contribution be.1 f be.2 n d)
      (fun be f out => by rw [hk]; exact scatter_val be.1 be.2 f out n d)
  unfold computeInternalForce
  rw [computeInternalForce_flat, computeInternalForce_flat]
  have hiff : ((elements blocks).foldlM (fun (out : ℕ → K) be =>
          (elementForce val be.1 X u be.2).map fun f => scatter be.1 be.2 f out) (fun _ => 0)).isSome = true
      ↔ ((elements blocks').foldlM (fun (out : ℕ → K) be =>
          (elementForce val be.1 X u be.2).map fun f => scatter be.1 be.2 f out) (fun _ => 0)).isSome = true := by
    rw [hs, hs]
    exact ⟨fun h a ha => h a (hperm.mem_iff.mpr ha), fun h a ha => h a (hperm.mem_iff.mp ha)⟩
  cases h1 : (elements blocks).foldlM (fun (out : ℕ → K) be =>
          (elementForce val be.1 X u be.2).map fun f => scatter be.1 be.2 f out) (fun _ => 0) with
  | none =>
    rw [h1] at hiff
    cases h2 : (elements blocks').foldlM (fun (out : ℕ → K) be =>
          (elementForce val be.1 X u be.2).map fun f => scatter be.1 be.2 f out) (fun _ => 0) with
    | none => rfl
    | some r => rw [h2] at hiff; simp at hiff
  | some r =>
    rw [h1] at hiff
    cases h2 : (elements blocks').foldlM (fun (out : ℕ → K) be =>
          (elementForce val be.1 X u be.2).map fun f => scatter be.1 be.2 f out) (fun _ => 0) with
    | none => rw [h2] at hiff; simp at hiff
    | some r' =>
      congr 1
      funext k
      obtain ⟨n, d, hk⟩ := flat_form k
      rw [hv k n d hk _ _ _ h1, hv k n d hk _ _ _ h2, (hperm.map _).sum_eq]

/-- **C45.**  A node that is a corner of no element gets zero force. -/
theorem internal_force_outside (val : K) (X u F : ℕ → K) (blocks : List (Blk K × List ℕ))
    (h : computeInternalForce val X u blocks = some F) (n : ℕ)
    (hn : ∀ b ∈ blocks, ∀ e ∈ b.2, ∀ c < 8, b.1.nodeId e c ≠ n) (d : Fin 3) : F (3 * n + d) = 0 := by
  rw [internal_force_sum val X u F blocks h]
  apply List.sum_eq_zero
  intro x hx
  obtain ⟨b, hb, rfl⟩ := List.mem_map.mp hx
  apply List.sum_eq_zero
  intro x hx
  obtain ⟨e, he, rfl⟩ := List.mem_map.mp hx
  cases elementForce val b.1 X u e with
  | none => rfl
  | some f =>
    simp only [Option.elim_some]
    exact Finset.sum_eq_zero fun c hc => if_neg (hn b hb e he c (Finset.mem_range.mp hc))

/-- The serial order is one of the orders covered: every element of every block once. -/
theorem mem_elements_serial (blocks : List (Blk K)) (be : Blk K × ℕ) :
    be ∈ elements (serial blocks) ↔ be.1 ∈ blocks ∧ be.2 < be.1.numElem := by
  simp only [elements, serial, List.mem_flatMap, List.mem_map]
  constructor
  · rintro ⟨_, ⟨b, hb, rfl⟩, e, he, rfl⟩
    exact ⟨hb, List.mem_range.mp he⟩
  · rintro ⟨hb, he⟩
    exact ⟨_, ⟨be.1, hb, rfl⟩, be.2, List.mem_range.mpr he, rfl⟩

/-- Specification: the connectivity of the mesh only mentions nodes below `N`. -/
def InMesh (N : ℕ) (blocks : List (Blk K × List ℕ)) : Prop :=
  ∀ b ∈ blocks, ∀ e ∈ b.2, ∀ c < 8, b.1.nodeId e c < N

theorem list_sum_comm {A : Type*} (l : List A) (N : ℕ) (f : A → ℕ → K) :
    ∑ n ∈ Finset.range N, (l.map fun a => f a n).sum = (l.map fun a => ∑ n ∈ Finset.range N, f a n).sum := by
  induction l with
  | nil => simp
  | cons a l ih => simp only [List.map_cons, List.sum_cons, Finset.sum_add_distrib, ih]

/-- The work of the assembled force on any nodal weights is the sum of the work on the elements. -/
theorem internal_force_work (val : K) (X u F : ℕ → K) (blocks : List (Blk K × List ℕ)) (N : ℕ)
    (hmesh : InMesh N blocks) (h : computeInternalForce val X u blocks = some F) (w : ℕ → K) (d : Fin 3) :
    ∑ n ∈ Finset.range N, w n * F (3 * n + d) = (blocks.map fun b =>
      (b.2.map fun e => (elementForce val b.1 X u e).elim 0 fun f =>
        ∑ c ∈ Finset.range 8, w (b.1.nodeId e c) * f c d).sum).sum := by
  simp only [internal_force_sum val X u F blocks h, ← List.sum_map_mul_left]
  rw [list_sum_comm]
  congr 1
  apply List.map_congr_left
  intro b hb
  rw [list_sum_comm]
  congr 1
  apply List.map_congr_left
  intro e he
  cases elementForce val b.1 X u e with
  | none => simp
  | some f =>
    simp only [Option.elim_some, Finset.mul_sum]
    rw [Finset.sum_comm]
    apply Finset.sum_congr rfl
    intro c hc
    rw [Finset.sum_eq_single (b.1.nodeId e c)]
    · simp
    · intro n _ hn; rw [if_neg (Ne.symm hn), mul_zero]
    · intro hn; exact absurd (Finset.mem_range.mpr (hmesh b hb e he c (Finset.mem_range.mp hc))) hn

section ordered
variable [IsStrictOrderedRing K]

theorem elementForce_nodal {val : K} {b : Blk K} {X u : ℕ → K} {e : ℕ} {f : ℕ → Fin 3 → K}
    (h : elementForce val b X u e = some f) :
    ∃ σ, computeNodalForces val (gather b e fun k => X k + u k) σ = some f := by
  unfold elementForce at h
  simp only [Option.bind_eq_bind, Option.bind_eq_some_iff] at h
  obtain ⟨_, _, σ, _, hf⟩ := h
  exact ⟨σ, hf⟩

/-- **C45.**  The assembled internal forces of a whole mesh sum to zero, whatever the displacement, the
materials and the connectivity. -/
theorem internal_force_resultant (val : K) (X u F : ℕ → K) (blocks : List (Blk K × List ℕ)) (N : ℕ)
    (hmesh : InMesh N blocks) (h : computeInternalForce val X u blocks = some F) (d : Fin 3) :
    ∑ n ∈ Finset.range N, F (3 * n + d) = 0 := by
  have hw := internal_force_work val X u F blocks N hmesh h (fun _ => 1) d
  simp only [one_mul] at hw
  rw [hw]
  apply List.sum_eq_zero
  intro x hx
  obtain ⟨b, hb, rfl⟩ := List.mem_map.mp hx
  apply List.sum_eq_zero
  intro x hx
  obtain ⟨e, he, rfl⟩ := List.mem_map.mp hx
  cases hf : elementForce val b.1 X u e with
  | none => rfl
  | some f =>
    obtain ⟨σ, hσ⟩ := elementForce_nodal hf
    exact nodal_forces_sum_zero val _ σ f hσ d

/-- **C45.**  The assembled internal forces have no moment about any point, at the current positions
`X + u` of the nodes: for each pair of directions `i, j` the moments balance. -/
theorem internal_force_moment (val : K) (X u F : ℕ → K) (blocks : List (Blk K × List ℕ)) (N : ℕ)
    (hmesh : InMesh N blocks) (h : computeInternalForce val X u blocks = some F) (q : Fin 3 → K) :
    ∑ n ∈ Finset.range N,
      crossProduct (fun d : Fin 3 => X (3 * n + d) + u (3 * n + d) - q d) (fun d : Fin 3 => F (3 * n + d)) = 0 := by
  -- elementary moments: `x_i F_j - x_j F_i`
  have key : ∀ i j : Fin 3, ∑ n ∈ Finset.range N,
      ((X (3 * n + i) + u (3 * n + i) - q i) * F (3 * n + j)
        - (X (3 * n + j) + u (3 * n + j) - q j) * F (3 * n + i)) = 0 := by
    intro i j
    rw [Finset.sum_sub_distrib,
      internal_force_work val X u F blocks N hmesh h (fun n => X (3 * n + i) + u (3 * n + i) - q i) j,
      internal_force_work val X u F blocks N hmesh h (fun n => X (3 * n + j) + u (3 * n + j) - q j) i,
      sub_eq_zero]
    congr 1
    apply List.map_congr_left
    intro b hb
    congr 1
    apply List.map_congr_left
    intro e he
    cases hf : elementForce val b.1 X u e with
    | none => rfl
    | some f =>
      simp only [Option.elim_some]
      obtain ⟨σ, hσ⟩ := elementForce_nodal hf
      have hm := nodal_forces_moment_zero val _ σ f hσ q
      have hg : ∀ n ∈ Finset.range 8, ∀ d : Fin 3,
          gather b.1 e (fun k => X k + u k) (3 * n + d)
            = X (3 * b.1.nodeId e n + d) + u (3 * b.1.nodeId e n + d) :=
        fun n hn d => gather_val b.1 e _ (Finset.mem_range.mp hn) d
      have h0 := congrFun hm 0
      have h1 := congrFun hm 1
      have h2 := congrFun hm 2
      rw [Finset.sum_apply] at h0 h1 h2
      simp only [cross_apply, Matrix.cons_val_zero, Matrix.cons_val_one, Matrix.cons_val,
        Pi.zero_apply] at h0 h1 h2
      rw [Finset.sum_congr rfl fun n hn => by rw [hg n hn, hg n hn]] at h0 h1 h2
      rw [Finset.sum_sub_distrib] at h0 h1 h2
      fin_cases i <;> fin_cases j <;> first | rfl | skip
      · exact (sub_eq_zero.mp h2)
      · exact (sub_eq_zero.mp h1).symm
      · exact (sub_eq_zero.mp h2).symm
      · exact (sub_eq_zero.mp h0)
      · exact (sub_eq_zero.mp h1)
      · exact (sub_eq_zero.mp h0).symm
  funext d
  rw [Finset.sum_apply]
  have k0 := key 1 2
  have k1 := key 2 0
  have k2 := key 0 1
  fin_cases d <;> simp [cross_apply] at k0 k1 k2 ⊢ <;> assumption

/-! ## C26: assembled mass -/

theorem scatterMass_val (b : Blk K) (elem : ℕ) (mass : ℕ → K) (out : ℕ → K) (n : ℕ) :
    scatterMass b elem mass out n
      = out n + ∑ c ∈ Finset.range 8, if b.nodeId elem c = n then mass c else 0 := by
  unfold scatterMass
  generalize 8 = k
  induction k generalizing out with
  | zero => simp
  | succ k ih =>
    rw [List.range_succ (n := k), List.foldl_append, List.foldl_cons, List.foldl_nil, put_comm_add, ih,
      Finset.sum_range_succ, add_assoc]

theorem lumpedMass_flat (val : K) (X : ℕ → K) (blocks : List (Blk K)) (out : ℕ → K) :
    computeLumpedMassField val X blocks out
      = (elements (serial blocks)).foldlM (fun (out : ℕ → K) be =>
          (computeLumpedMass val be.1.density (gather be.1 be.2 X)).map fun m =>
            scatterMass be.1 be.2 m out) out := by
  unfold computeLumpedMassField
  induction blocks generalizing out with
  | nil => rfl
  | cons b l ih =>
    have : elements (serial (b :: l))
        = (List.range b.numElem).map (fun e => (b, e)) ++ elements (serial l) := rfl
    rw [this, List.foldlM_append, List.foldlM_cons, List.foldlM_map]
    unfold blockLumpedMass
    congr 1
    funext out
    exact ih out

/-- **C26.**  The assembled nodal mass: what was in the array plus the sum, over all elements, of the
element masses of the corners at that node. -/
theorem lumped_mass_sum (val : K) (X m0 m : ℕ → K) (blocks : List (Blk K))
    (h : computeLumpedMassField val X blocks m0 = some m) (n : ℕ) :
    m n = m0 n + (blocks.map fun b => ((List.range b.numElem).map fun e =>
      (computeLumpedMass val b.density (gather b e X)).elim 0 fun me =>
        ∑ c ∈ Finset.range 8, if b.nodeId e c = n then me c else 0).sum).sum := by
  rw [lumpedMass_flat] at h
  have := foldlM_add _ (fun (be : Blk K × ℕ) m out => scatterMass be.1 be.2 m out) n
    (fun be me => ∑ c ∈ Finset.range 8, if be.1.nodeId be.2 c = n then me c else 0)
    (fun be f out => scatterMass_val be.1 be.2 f out n) _ _ _ h
  rw [this, elements, serial]
  rw [List.map_flatMap, Solver.sum_flatMap']
  simp only [List.map_map]
  rfl

/-- Lumped mass assembly succeeds exactly when every element has positive Jacobians at its integration
points in the reference configuration. -/
theorem lumped_mass_field_defined (val : K) (X m0 : ℕ → K) (blocks : List (Blk K)) :
    (∃ m, computeLumpedMassField val X blocks m0 = some m) ↔
      ∀ b ∈ blocks, ∀ e < b.numElem, ∀ p : Fin 8, 0 < (Jac val (gather b e X) p).det := by
  rw [lumpedMass_flat, ← Option.isSome_iff_exists,
    foldlM_isSome (fun be : Blk K × ℕ => computeLumpedMass val be.1.density (gather be.1 be.2 X))
      (fun be f out => scatterMass be.1 be.2 f out)]
  simp only [Option.isSome_iff_exists, lumped_mass_defined]
  constructor
  · intro h b hb e he
    exact h (b, e) ((mem_elements_serial _ _).mpr ⟨hb, he⟩)
  · intro h be hbe
    obtain ⟨hb, he⟩ := (mem_elements_serial _ _).mp hbe
    exact h _ hb _ he

/-- **C26.**  Starting from a zero array, the total mass of the nodes equals the sum, over all blocks, of
density times the sum of the element volumes (the volumes `ComputeVolumeAverage` reports for the reference
coordinates). -/
theorem lumped_mass_conserved (val : K) (X m : ℕ → K) (blocks : List (Blk K)) (N : ℕ)
    (hmesh : InMesh N (serial blocks)) (h : computeLumpedMassField val X blocks (fun _ => 0) = some m)
    (volume : Blk K → ℕ → K)
    (hvol : ∀ b ∈ blocks, ∀ e < b.numElem, ∃ nq q ave,
      computeVolumeAverage val (gather b e X) nq q = some (volume b e, ave)) :
    ∑ n ∈ Finset.range N, m n
      = (blocks.map fun b => b.density * ((List.range b.numElem).map fun e => volume b e).sum).sum := by
  have hdef := (lumped_mass_field_defined val X (fun _ => 0) blocks).mp ⟨m, h⟩
  simp only [lumped_mass_sum val X _ m blocks h, zero_add]
  rw [list_sum_comm]
  congr 1
  apply List.map_congr_left
  intro b hb
  rw [list_sum_comm, ← List.sum_map_mul_left]
  congr 1
  apply List.map_congr_left
  intro e he
  have he' := List.mem_range.mp he
  obtain ⟨me, hme⟩ := (lumped_mass_defined val b.density (gather b e X)).mpr (hdef b hb e he')
  obtain ⟨nq, q, ave, hv⟩ := hvol b hb e he'
  simp only [hme, Option.elim_some]
  rw [← lumped_mass_total val b.density _ me q nq _ ave hme hv, Finset.sum_comm]
  apply Finset.sum_congr rfl
  intro c hc
  rw [Finset.sum_eq_single (b.nodeId e c)]
  · simp
  · intro n _ hn; rw [if_neg (Ne.symm hn)]
  · intro hn
    exact absurd (Finset.mem_range.mpr (hmesh (b, List.range b.numElem)
      (List.mem_map.mpr ⟨b, hb, rfl⟩) e he c (Finset.mem_range.mp hc))) hn

/-- **C26.**  With positive densities every node that is a corner of some element has positive mass, so
the division by it in the explicit integrator is meaningful. -/
theorem lumped_mass_field_pos (val : K) (X m : ℕ → K) (blocks : List (Blk K)) (hval : |val| < 1)
    (hd : ∀ b ∈ blocks, 0 < b.density)
    (h : computeLumpedMassField val X blocks (fun _ => 0) = some m) (n : ℕ)
    (hn : ∃ b ∈ blocks, ∃ e < b.numElem, ∃ c < 8, b.nodeId e c = n) : 0 < m n := by
  have hdef := (lumped_mass_field_defined val X (fun _ => 0) blocks).mp ⟨m, h⟩
  have hpos : ∀ b ∈ blocks, ∀ e < b.numElem, ∀ c < 8,
      0 < (computeLumpedMass val b.density (gather b e X)).elim 0 fun me => me c := by
    intro b hb e he c hc
    obtain ⟨me, hme⟩ := (lumped_mass_defined val b.density (gather b e X)).mpr (hdef b hb e he)
    rw [hme]
    exact lumped_mass_pos val b.density _ me hval (hd b hb) hme ⟨c, hc⟩
  have hterm : ∀ b ∈ blocks, ∀ e < b.numElem,
      (computeLumpedMass val b.density (gather b e X)).elim 0 (fun me =>
        ∑ c ∈ Finset.range 8, if b.nodeId e c = n then me c else 0)
      = ∑ c ∈ Finset.range 8, if b.nodeId e c = n then
          (computeLumpedMass val b.density (gather b e X)).elim 0 (fun me => me c) else 0 := by
    intro b hb e he
    cases computeLumpedMass val b.density (gather b e X) <;> simp
  have hnn : ∀ b ∈ blocks, ∀ e < b.numElem,
      0 ≤ (computeLumpedMass val b.density (gather b e X)).elim 0 (fun me =>
        ∑ c ∈ Finset.range 8, if b.nodeId e c = n then me c else 0) := by
    intro b hb e he
    rw [hterm b hb e he]
    apply Finset.sum_nonneg
    intro c hc
    split_ifs
    · exact (hpos b hb e he c (Finset.mem_range.mp hc)).le
    · exact le_rfl
  rw [lumped_mass_sum val X _ m blocks h, zero_add]
  obtain ⟨b, hb, e, he, c, hc, hnode⟩ := hn
  have hinner : ∀ b ∈ blocks, ∀ x ∈ ((List.range b.numElem).map fun e =>
      (computeLumpedMass val b.density (gather b e X)).elim 0 fun me =>
        ∑ c ∈ Finset.range 8, if b.nodeId e c = n then me c else 0), 0 ≤ x := by
    intro b hb x hx
    obtain ⟨e, he, rfl⟩ := List.mem_map.mp hx
    exact hnn b hb e (List.mem_range.mp he)
  refine lt_of_lt_of_le ?_ (List.single_le_sum (fun x hx => ?_) _ (List.mem_map.mpr ⟨b, hb, rfl⟩))
  · refine lt_of_lt_of_le ?_ (List.single_le_sum (hinner b hb) _
      (List.mem_map.mpr ⟨e, List.mem_range.mpr he, rfl⟩))
    rw [hterm b hb e he]
    apply Finset.sum_pos'
    · intro c hc
      split_ifs
      · exact (hpos b hb e he c (Finset.mem_range.mp hc)).le
      · exact le_rfl
    · exact ⟨c, Finset.mem_range.mpr hc, by rw [if_pos hnode]; exact hpos b hb e he c hc⟩
  · obtain ⟨b, hb, rfl⟩ := List.mem_map.mp hx
    exact List.sum_nonneg (hinner b hb)

end ordered

end NimbleSM.Assembly
