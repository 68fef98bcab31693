import Verif.Assembly.AssemblyProps
import Verif.Mpi.ReductionProps

/-!
# C66: distributed assembly equals serial assembly

Each rank assembles the forces of its own elements into an array over its own nodes and then takes part
in the vector reduction (`nimble_model_data.cc:621-668`).  The result on every rank is the one a single
process would compute on the whole mesh.
-/

open scoped BigOperators

namespace NimbleSM.Assembly

open NimbleSM.Hex NimbleSM.Constitutive NimbleSM.Mpi

variable {K : Type*} [Field K] [LinearOrder K] {R : ℕ}

/-- What one rank has: the global numbers of its nodes, its part of the mesh and its copy of the nodal
fields. -/
structure Part (K : Type*) where
  /-- global node numbers, by local node -/
  gids : List ℕ
  blocks : List (Blk K × List ℕ)
  X : ℕ → K
  u : ℕ → K

/-- The block with its connectivity written in global node numbers. -/
def Blk.toGlobal (gids : List ℕ) (b : Blk K) : Blk K := { b with conn := fun k => (gids[b.conn k]?).getD 0 }

/-- Specification: the parts are a distribution of one mesh with reference coordinates `X` and
displacements `u` in global numbering: local nodes are distinct, the elements use local nodes, and the
copies of the fields agree with the global ones. -/
structure Distributed (parts : Fin R → Part K) (X u : ℕ → K) : Prop where
  nodup : ∀ r, (parts r).gids.Nodup
  local_nodes : ∀ r, InMesh (parts r).gids.length (parts r).blocks
  coords : ∀ r i (h : i < (parts r).gids.length) (d : Fin 3),
    (parts r).X (3 * i + d) = X (3 * (parts r).gids[i] + d)
  disps : ∀ r i (h : i < (parts r).gids.length) (d : Fin 3),
    (parts r).u (3 * i + d) = u (3 * (parts r).gids[i] + d)

/-- Specification: the whole mesh in global numbering, rank after rank. -/
def wholeMesh (parts : Fin R → Part K) : List (Blk K × List ℕ) :=
  (List.finRange R).flatMap fun r =>
    (parts r).blocks.map fun b => (b.1.toGlobal (parts r).gids, b.2)

theorem gather_congr (b b' : Blk K) (e : ℕ) (X X' : ℕ → K)
    (h : ∀ c < 8, ∀ d : Fin 3, X (3 * b.nodeId e c + d) = X' (3 * b'.nodeId e c + d)) :
    gather b e X = gather b' e X' := by
  have h8 : List.range 8 = [0, 1, 2, 3, 4, 5, 6, 7] := rfl
  have h3 : List.range 3 = [0, 1, 2] := rfl
  unfold gather
  rw [h8, h3]
  have h0 : ∀ c < 8, X (3 * b.nodeId e c + 0) = X' (3 * b'.nodeId e c + 0) := fun c hc => h c hc 0
  have h1 : ∀ c < 8, X (3 * b.nodeId e c + 1) = X' (3 * b'.nodeId e c + 1) := fun c hc => h c hc 1
  have h2 : ∀ c < 8, X (3 * b.nodeId e c + 2) = X' (3 * b'.nodeId e c + 2) := fun c hc => h c hc 2
  simp only [List.foldl_cons, List.foldl_nil]
  rw [h0 0 (by norm_num), h1 0 (by norm_num), h2 0 (by norm_num),
    h0 1 (by norm_num), h1 1 (by norm_num), h2 1 (by norm_num),
    h0 2 (by norm_num), h1 2 (by norm_num), h2 2 (by norm_num),
    h0 3 (by norm_num), h1 3 (by norm_num), h2 3 (by norm_num),
    h0 4 (by norm_num), h1 4 (by norm_num), h2 4 (by norm_num),
    h0 5 (by norm_num), h1 5 (by norm_num), h2 5 (by norm_num),
    h0 6 (by norm_num), h1 6 (by norm_num), h2 6 (by norm_num),
    h0 7 (by norm_num), h1 7 (by norm_num), h2 7 (by norm_num)]

theorem elementForce_congr (val : K) (b b' : Blk K) (hlaw : b.law = b'.law) (e : ℕ) (X X' u u' : ℕ → K)
    (hX : ∀ c < 8, ∀ d : Fin 3, X (3 * b.nodeId e c + d) = X' (3 * b'.nodeId e c + d))
    (hu : ∀ c < 8, ∀ d : Fin 3, u (3 * b.nodeId e c + d) = u' (3 * b'.nodeId e c + d)) :
    elementForce val b X u e = elementForce val b' X' u' e := by
  unfold elementForce
  rw [gather_congr b b' e X X' hX,
    gather_congr b b' e (fun k => X k + u k) (fun k => X' k + u' k)
      (fun c hc d => by rw [hX c hc d, hu c hc d]), hlaw]

variable {parts : Fin R → Part K} {X u : ℕ → K}

theorem toGlobal_nodeId (hD : Distributed parts X u) (r : Fin R) {b : Blk K × List ℕ}
    (hb : b ∈ (parts r).blocks) {e : ℕ} (he : e ∈ b.2) {c : ℕ} (hc : c < 8) :
    (b.1.toGlobal (parts r).gids).nodeId e c
      = (parts r).gids[b.1.nodeId e c]'(hD.local_nodes r b hb e he c hc) := by
  unfold Blk.toGlobal Blk.nodeId
  have := hD.local_nodes r b hb e he c hc
  unfold Blk.nodeId at this
  simp only [List.getElem?_eq_getElem this, Option.getD_some]
  rfl

theorem elementForce_toGlobal (val : K) (hD : Distributed parts X u) (r : Fin R) {b : Blk K × List ℕ}
    (hb : b ∈ (parts r).blocks) {e : ℕ} (he : e ∈ b.2) :
    elementForce val b.1 (parts r).X (parts r).u e
      = elementForce val (b.1.toGlobal (parts r).gids) X u e := by
  apply elementForce_congr
  · rfl
  · intro c hc d
    rw [toGlobal_nodeId hD r hb he hc]
    exact hD.coords r _ _ d
  · intro c hc d
    rw [toGlobal_nodeId hD r hb he hc]
    exact hD.disps r _ _ d

/-- The whole mesh assembles exactly when every rank's part does. -/
theorem parallel_defined (val : K) (hD : Distributed parts X u) :
    (∃ F, computeInternalForce val X u (wholeMesh parts) = some F) ↔
      ∀ r, ∃ F, computeInternalForce val (parts r).X (parts r).u (parts r).blocks = some F := by
  simp only [internal_force_defined, wholeMesh, List.mem_flatMap, List.mem_map, List.mem_finRange, true_and]
  constructor
  · intro h r b hb e he
    rw [elementForce_toGlobal val hD r hb he]
    exact h _ ⟨r, b, hb, rfl⟩ e he
  · rintro h _ ⟨r, b, hb, rfl⟩ e he
    rw [← elementForce_toGlobal val hD r hb he]
    exact h r b hb e he

/-- The array over the nodes of one rank, as the reduction sees it. -/
def nodalArray (N : ℕ) (F : ℕ → K) : List K := (List.range (N * 3)).map F

theorem nodeValue_nodalArray (p : Part K) (hn : p.gids.Nodup) (F : ℕ → K) {i : ℕ} (hi : i < p.gids.length)
    (d : Fin 3) :
    nodeValue 3 (p.gids.map Int.ofNat) (nodalArray p.gids.length F) (Int.ofNat p.gids[i]) d = F (3 * i + d) := by
  have hn' : (p.gids.map Int.ofNat).Nodup := hn.map fun a b h => Int.ofNat.inj h
  have hidx : (p.gids.map Int.ofNat).idxOf (Int.ofNat p.gids[i]) = i := by
    have := hn'.idxOf_getElem i (by simpa using hi)
    simpa using this
  unfold nodeValue
  rw [hidx]
  have hlt : i * 3 + d.val < p.gids.length * 3 := by have := d.isLt; omega
  unfold nodalArray
  rw [List.getElem?_map, List.getElem?_range hlt]
  simp [Nat.mul_comm]

/-- **C66.**  Let the ranks assemble their own elements and reduce.  Then on every rank, when the
reduction loop ends (in whatever order the messages complete), every component of every node has the value
that assembling the whole mesh in one process gives to that node. -/
theorem parallel_assembly_eq_serial (val : K) (hD : Distributed parts X u)
    (F : Fin R → ℕ → K)
    (hF : ∀ r, computeInternalForce val (parts r).X (parts r).u (parts r).blocks = some (F r))
    (G : ℕ → K) (hG : computeInternalForce val X u (wholeMesh parts) = some G)
    (cl : Fin R → List Clique)
    (hcl : ∀ r, generateReductionInfo (fun r => (parts r).gids.map Int.ofNat) r = some (cl r))
    (r : Fin R) (st : ReduceState K)
    (hst : Reachable 3 cl (fun r => nodalArray (parts r).gids.length (F r)) r st) (hend : st.unfinished = [])
    (i : ℕ) (hi : i < (parts r).gids.length) (d : Fin 3) :
    st.data[i * 3 + d]? = some (G (3 * (parts r).gids[i] + d)) := by
  have hn : ∀ r, ((parts r).gids.map Int.ofNat).Nodup := fun r =>
    (hD.nodup r).map fun a b h => Int.ofNat.inj h
  have hlen : ∀ r, (nodalArray (parts r).gids.length (F r)).length
      = ((parts r).gids.map Int.ofNat).length * 3 := by intro r; simp [nodalArray]
  have hred := (vector_reduction_sums (fs := 3) rfl hn hlen hcl r st hst hend).2 i (by simpa using hi) d d.isLt
  rw [hred]
  congr 1
  have hg : ((parts r).gids.map Int.ofNat)[i]'(by simpa using hi) = Int.ofNat (parts r).gids[i] := by simp
  rw [hg]
  set g := (parts r).gids[i] with hgdef
  -- the serial value
  rw [internal_force_sum val X u G _ hG, wholeMesh, List.map_flatMap, Solver.sum_flatMap']
  rw [show ((List.finRange R).map fun r' => (((parts r').blocks.map fun b =>
        (b.1.toGlobal (parts r').gids, b.2)).map fun b : Blk K × List ℕ =>
      (b.2.map fun e => (elementForce val b.1 X u e).elim 0 fun f =>
        ∑ c ∈ Finset.range 8, if b.1.nodeId e c = g then f c d else 0).sum).sum).sum
      = ∑ r' : Fin R, ((parts r').blocks.map fun b =>
        (b.2.map fun e => (elementForce val b.1 (parts r').X (parts r').u e).elim 0 fun f =>
          ∑ c ∈ Finset.range 8, if (b.1.toGlobal (parts r').gids).nodeId e c = g then f c d else 0).sum).sum from ?_]
  · rw [Finset.sum_filter]
    apply Finset.sum_congr rfl
    intro r' _
    by_cases hmem : g ∈ (parts r').gids
    · rw [if_pos (List.mem_map_of_mem hmem)]
      obtain ⟨i', hi', hgi⟩ := List.getElem_of_mem hmem
      rw [← hgi, nodeValue_nodalArray _ (hD.nodup r') _ hi', internal_force_sum _ _ _ _ _ (hF r')]
      congr 1
      apply List.map_congr_left
      intro b hb
      congr 1
      apply List.map_congr_left
      intro e he
      congr 1
      funext f
      apply Finset.sum_congr rfl
      intro c hc
      rw [toGlobal_nodeId hD r' hb he (Finset.mem_range.mp hc)]
      simp only [(hD.nodup r').getElem_inj_iff]
    · rw [if_neg (by
        intro h
        obtain ⟨a, ha, hag⟩ := List.mem_map.mp h
        exact hmem (Int.ofNat.inj hag ▸ ha))]
      symm
      apply List.sum_eq_zero
      intro x hx
      obtain ⟨b, hb, rfl⟩ := List.mem_map.mp hx
      apply List.sum_eq_zero
      intro x hx
      obtain ⟨e, he, rfl⟩ := List.mem_map.mp hx
      cases elementForce val b.1 (parts r').X (parts r').u e with
      | none => rfl
      | some f =>
        simp only [Option.elim_some]
        apply Finset.sum_eq_zero
        intro c hc
        rw [if_neg]
        rw [toGlobal_nodeId hD r' hb he (Finset.mem_range.mp hc)]
        intro h
        exact hmem (h ▸ List.getElem_mem _)
  · rw [← List.sum_ofFn, List.ofFn_eq_map]
    refine congrArg List.sum ?_
    apply List.map_congr_left
    intro r' _
    rw [List.map_map]
    refine congrArg List.sum ?_
    apply List.map_congr_left
    intro b hb
    simp only [Function.comp_apply]
    refine congrArg List.sum ?_
    apply List.map_congr_left
    intro e he
    rw [elementForce_toGlobal val hD r' hb he]

/-! ## Concrete meshes -/

section demo

/-- A block of one sheared cube on the nodes 0..7, linear elastic. -/
def demoBlk : Blk ℚ where
  density := 3
  bulk := 2
  law := fun F => some (elasticStress ⟨3, 2, 1⟩ F)
  numElem := 1
  conn := fun k => k

theorem Jac_gather_demo (p : Fin 8) : Jac gaussVal (gather demoBlk 0 demo) p = Jac gaussVal demo p := by
  ext i j
  change (∑ n : Fin 8, gather demoBlk 0 demo (3 * n + i) * gradN n (gaussPt gaussVal p) j)
    = ∑ n : Fin 8, demo (3 * n + i) * gradN n (gaussPt gaussVal p) j
  apply Finset.sum_congr rfl
  intro n _
  rw [gather_val demoBlk 0 demo n.isLt i]
  simp [Blk.nodeId, demoBlk]

theorem elementForce_defined {K : Type*} [Field K] [LinearOrder K] [IsStrictOrderedRing K] (val : K)
    (b : Blk K) (X u : ℕ → K) (e : ℕ) (hlaw : ∀ F, ∃ σ, b.law F = some σ)
    (hJ : ∀ p : Fin 8, 0 < (Jac val (gather b e X) p).det)
    (hJ' : ∀ p : Fin 8, 0 < (Jac val (gather b e fun k => X k + u k) p).det) :
    ∃ f, elementForce val b X u e = some f := by
  unfold elementForce
  obtain ⟨F, hF⟩ := (deformation_gradients_defined val (gather b e X) (gather b e fun k => X k + u k)).mpr hJ
  have hs : ∃ σ, pointLoop b.law 8 F (fun _ => 0) = some σ := by
    rw [← Option.isSome_iff_exists]
    unfold pointLoop
    rw [foldlM_isSome (fun pt => b.law fun i => F (9 * pt + i.val))
      (fun pt sig (out : ℕ → K) => (List.finRange 6).foldl (fun out c => put out (6 * pt + c.val) (sig c)) out)]
    intro pt _
    exact Option.isSome_iff_exists.mpr (hlaw _)
  obtain ⟨σ, hσ⟩ := hs
  obtain ⟨f, hf⟩ := (nodal_forces_defined val (gather b e fun k => X k + u k) σ).mpr hJ'
  exact ⟨f, by simp only [hF, Option.bind_eq_bind, Option.bind_some, hσ, hf]⟩

theorem demo_elementForce : ∃ f, elementForce gaussVal demoBlk demo (fun _ => 0) 0 = some f := by
  apply elementForce_defined
  · intro F; exact ⟨elasticStress ⟨3, 2, 1⟩ F, rfl⟩
  · intro p
    rw [Jac_gather_demo]
    exact demo_ok p
  · intro p
    simp only [add_zero]
    rw [Jac_gather_demo]
    exact demo_ok p

/-- Two ranks that hold the same eight nodes, each with one element. -/
def demoParts : Fin 2 → Part ℚ := fun _ =>
  { gids := [0, 1, 2, 3, 4, 5, 6, 7], blocks := [(demoBlk, [0])], X := demo, u := fun _ => 0 }

theorem demo_distributed : Distributed demoParts demo (fun _ => 0) where
  nodup := by intro r; simp only [demoParts]; decide
  local_nodes := by
    intro r b hb e he c hc
    simp only [demoParts, List.mem_singleton] at hb
    subst hb
    simp only [List.mem_singleton] at he
    subst he
    simpa [Blk.nodeId, demoBlk, demoParts] using hc
  coords := by
    intro r i h d
    have h' : i < 8 := h
    simp only [demoParts]
    interval_cases i <;> rfl
  disps := by intro r i h d; rfl

/-- Non-vacuity of C45 and C66: all hypotheses hold for this mesh. -/
example : ∃ (F : Fin 2 → ℕ → ℚ) (G : ℕ → ℚ) (cl : Fin 2 → List Clique) (st : ReduceState ℚ),
    (∀ r, computeInternalForce gaussVal (demoParts r).X (demoParts r).u (demoParts r).blocks = some (F r)) ∧
    computeInternalForce gaussVal demo (fun _ => 0) (wholeMesh demoParts) = some G ∧
    (∀ r, generateReductionInfo (fun r => (demoParts r).gids.map Int.ofNat) r = some (cl r)) ∧
    Reachable 3 cl (fun r => nodalArray (demoParts r).gids.length (F r)) 1 st ∧ st.unfinished = [] := by
  have hdef : ∀ r : Fin 2, ∃ F, computeInternalForce gaussVal (demoParts r).X (demoParts r).u
      (demoParts r).blocks = some F := by
    intro r
    rw [internal_force_defined]
    intro b hb e he
    simp only [demoParts, List.mem_singleton] at hb
    subst hb
    simp only [List.mem_singleton] at he
    subst he
    exact demo_elementForce
  have hser := (parallel_defined gaussVal demo_distributed).mpr hdef
  choose F hF using hdef
  obtain ⟨G, hG⟩ := hser
  have hn : ∀ r, ((demoParts r).gids.map Int.ofNat).Nodup := by intro r; simp only [demoParts]; decide
  have hlen : ∀ r, (nodalArray (demoParts r).gids.length (F r)).length
      = ((demoParts r).gids.map Int.ofNat).length * 3 := by intro r; simp [nodalArray]
  obtain ⟨cl, hcl⟩ := initialize_succeeds (fun r => (demoParts r).gids.map Int.ofNat) hn
  obtain ⟨st, h1, h2⟩ := vector_reduction_can_finish (fs := 3) rfl hn hlen hcl 1 _
    Relation.ReflTransGen.refl
  exact ⟨F, G, cl, st, hF, hG, hcl, h1, h2⟩

end demo

end NimbleSM.Assembly
