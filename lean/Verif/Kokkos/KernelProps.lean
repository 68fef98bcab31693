import Verif.Kokkos.Kernels
import Verif.Kokkos.ScheduleProps
import Verif.Assembly.ParallelProps
import Verif.Material.MaterialProps

/-!
# C95: the concurrent element kernels compute what the serial assembly computes
-/

open scoped BigOperators

namespace NimbleSM.Kokkos

open NimbleSM.Hex NimbleSM.Constitutive NimbleSM.Tensor NimbleSM.Assembly

variable {K : Type*} [Field K] [LinearOrder K]

/-! ## One kernel -/

theorem flatten_map_range {α : Type*} (n : ℕ) (f : ℕ → List α) :
    ((List.range n).map f).flatten = (List.range n).flatMap f := rfl

theorem gather_run {b : KBlk K} {data : NodeView K} {v v' : ElemView K}
    (h : ParallelFor write b.numElem (gatherBody b data) v v') {e n : ℕ} (he : e < b.numElem) (hn : n < 8)
    (d : Fin 3) : v' (e, n, d.val) = data (b.conn (8 * e + n), d.val) :=
  run_grid (A := 8) (B := 3) (g := fun e n d => data (b.conn (8 * e + n), d.val)) rfl h he hn d

theorem defGrad_run {val : K} {gX gU v v' : ElemView K} {N : ℕ}
    (h : ParallelFor write N (defGradBody val gX gU) v v') {e p : ℕ} (he : e < N) (hp : p < 8) (i : Fin 9) :
    v' (e, p, i.val) = defGradK val (fun n d => gX (e, n, d)) (fun n d => gU (e, n, d)) p i :=
  run_grid (A := 8) (B := 9)
    (g := fun e p i => defGradK val (fun n d => gX (e, n, d)) (fun n d => gU (e, n, d)) p i) rfl h he hp i

theorem stress_run {b : KBlk K} {F v v' : ElemView K}
    (h : Run write ((List.range b.numElem).flatMap fun i_elem =>
      (List.range 8).map fun i_ipt => stressBody b F i_elem i_ipt) v v') {e p : ℕ} (he : e < b.numElem)
    (hp : p < 8) (c : Fin 6) : v' (e, p, c.val) = b.law (fun i => F (e, p, i.val)) c := by
  refine run_grid (A := 8) (B := 6) (g := fun e p c => b.law (fun i => F (e, p, i.val)) c) ?_ h he hp c
  unfold gridWrites stressBody
  rw [List.flatMap_def, ← List.flatMap_def]
  simp only [List.flatMap_def, List.flatten_flatten, List.map_map]
  rfl

theorem force_run {val : K} {gX gU stress v v' : ElemView K} {N : ℕ}
    (h : ParallelFor write N (forceBody val gX gU stress) v v') {e n : ℕ} (he : e < N) (hn : n < 8)
    (d : Fin 3) :
    v' (e, n, d.val) = nodalForcesK val (fun n d => gX (e, n, d)) (fun n d => gU (e, n, d))
      (fun p c => stress (e, p, c.val)) n d :=
  run_grid (A := 8) (B := 3)
    (g := fun e n d => nodalForcesK val (fun n d => gX (e, n, d)) (fun n d => gU (e, n, d))
      (fun p c => stress (e, p, c.val)) n d) rfl h he hn d

theorem sum_map_range {M : Type*} [AddCommMonoid M] (n : ℕ) (f : ℕ → M) :
    ((List.range n).map f).sum = ∑ i ∈ Finset.range n, f i := by
  induction n with
  | zero => rfl
  | succ n ih => simp [List.range_succ, Finset.sum_range_succ, ih]

theorem scatter_run {b : KBlk K} {g : ElemView K} {f f' : NodeView K}
    (h : ParallelFor atomicAdd b.numElem (scatterBody b g) f f') (n : ℕ) (d : Fin 3) :
    f' (n, d.val) = f (n, d.val) + ∑ e ∈ Finset.range b.numElem, ∑ c ∈ Finset.range 8,
      if b.conn (8 * e + c) = n then g (e, c, d.val) else 0 := by
  rw [run_atomicAdd h]
  congr 1
  rw [flatten_map_range, List.map_flatMap, Solver.sum_flatMap', sum_map_range]
  apply Finset.sum_congr rfl
  intro e _
  unfold scatterBody
  rw [List.map_flatMap, Solver.sum_flatMap', sum_map_range]
  apply Finset.sum_congr rfl
  intro c _
  have h3 : List.finRange 3 = [0, 1, 2] := rfl
  rw [h3]
  by_cases hn : b.conn (8 * e + c) = n
  · fin_cases d <;> simp [hn]
  · simp [hn]

/-! ## One element -/

section ordered
variable [IsStrictOrderedRing K]

omit [IsStrictOrderedRing K] in
/-- Where the serial inverse is defined, the one of the Kokkos build is the same. -/
theorem invert3x3K_eq {m : Fin 3 → Fin 3 → K} {r : (Fin 3 → Fin 3 → K) × K} (h : invert3x3 m = some r) :
    invert3x3K m = r := by
  unfold invert3x3 at h
  simp only at h
  split at h
  · exact absurd h (by simp)
  · exact Option.some.inj h

theorem defGradK_congr (val : K) {X X' u u' : ℕ → ℕ → K} (hX : ∀ n < 8, ∀ d : Fin 3, X n d = X' n d)
    (hu : ∀ n < 8, ∀ d : Fin 3, u n d = u' n d) (p : ℕ) : defGradK val X u p = defGradK val X' u' p := by
  unfold defGradK
  rw [jacobian_congr val X' X hX,
    jacobian_congr val (fun n d => X' n d + u' n d) (fun n d => X n d + u n d)
      (fun n hn d => by rw [hX n hn d, hu n hn d])]

theorem nodalForcesK_congr (val : K) {X X' u u' : ℕ → ℕ → K} {s s' : ℕ → Fin 6 → K}
    (hX : ∀ n < 8, ∀ d : Fin 3, X n d + u n d = X' n d + u' n d) (hs : ∀ p < 8, s p = s' p) :
    nodalForcesK val X u s = nodalForcesK val X' u' s' := by
  unfold nodalForcesK
  apply List.foldl_ext
  intro force p hp
  have hp' := List.mem_range.mp hp
  rw [jacobian_congr val (fun n d => X' n d + u' n d) (fun n d => X n d + u n d) hX, hs p hp']

theorem lumpedMassK_congr (val density : K) {X X' : ℕ → ℕ → K} (hX : ∀ n < 8, ∀ d : Fin 3, X n d = X' n d) :
    lumpedMassK val density X = lumpedMassK val density X' := by
  unfold lumpedMassK
  simp only [jacobian_congr val X' X hX]

omit [IsStrictOrderedRing K] in
/-- A serial loop of steps that may abort: if it completes, every step was defined. -/
theorem foldlM_defined {S B : Type*} {g : ℕ → Option B} {step : S → ℕ → B → S} {L : List ℕ} {s r : S}
    (h : L.foldlM (fun s i => (g i).map (step s i)) s = some r) : ∀ i ∈ L, ∃ b, g i = some b := by
  intro i hi
  exact Option.isSome_iff_exists.mp ((Hex.foldlM_isSome_iff g step L s).mp (by rw [h]; rfl) i hi)

theorem computeDeformationGradients_eq {val : K} {X x out : ℕ → K}
    (h : computeDeformationGradients val X x = some out) {p : ℕ} (hp : p < 8) (i : Fin 9) :
    out (9 * p + i) = defGradK val (view3 X) (view3 fun k => x k - X k) p i := by
  unfold computeDeformationGradients at h
  simp only at h
  have hdef := foldlM_defined (step := fun (out : ℕ → K) int_pt (dg : Fin 9 → K) =>
      (List.finRange 9).foldl (fun out i => put out (9 * int_pt + i.val) (dg i)) out) h
  have hv : ∀ q ∈ List.range 8, defGradAt val (view3 X) (view3 fun k => x k - X k) q
      = some (defGradK val (view3 X) (view3 fun k => x k - X k) q) := by
    intro q hq
    obtain ⟨b, hb⟩ := hdef q hq
    rw [hb]
    unfold defGradAt at hb
    obtain ⟨r, hr, hb⟩ := Option.map_eq_some_iff.mp hb
    rw [← hb]
    unfold defGradK
    simp only [invert3x3K_eq hr]
  have hrun := foldlM_some (g := fun int_pt => defGradAt val (view3 X) (view3 fun k => x k - X k) int_pt)
    (step := fun (out : ℕ → K) int_pt dg =>
        (List.finRange 9).foldl (fun out i => put out (9 * int_pt + i.val) (dg i)) out)
    (List.range 8) (fun _ => (0 : K)) _ hv
  have hout := Option.some.inj (h.symm.trans hrun)
  rw [hout]
  clear h hrun hout hdef hv
  generalize 8 = L at hp
  induction L with
  | zero => omega
  | succ L ih =>
    rw [List.range_succ, List.foldl_append, List.foldl_cons, List.foldl_nil]
    by_cases hL : p = L
    · subst hL
      exact put_fold_hit _ _ _ _
    · rw [put_fold_miss _ _ _ _ (by omega)]
      exact ih (by omega)

theorem computeNodalForces_eq {val : K} {x σ : ℕ → K} {f : ℕ → Fin 3 → K}
    (h : computeNodalForces val x σ = some f) :
    f = nodalForcesK val (view3 x) (fun _ _ => 0) fun p c => σ (6 * p + c.val) := by
  unfold computeNodalForces computeNodalForcesImpl at h
  have hdef := foldlM_defined h
  have hv : ∀ q ∈ List.range 8, invert3x3 (jacobian val (fun n d => view3 x n d + (fun _ _ => (0 : K)) n d) q)
      = some (invert3x3K (jacobian val (fun n d => view3 x n d + (fun _ _ => (0 : K)) n d) q)) := by
    intro q hq
    obtain ⟨b, hb⟩ := hdef q hq
    rw [hb, invert3x3K_eq hb]
  exact Option.some.inj (h.symm.trans (foldlM_some _ _ _ _ _ hv))

theorem computeLumpedMass_eq {val density : K} {x m : ℕ → K} (h : computeLumpedMass val density x = some m)
    {i : ℕ} : m i = lumpedMassK val density (view3 x) i := by
  unfold computeLumpedMass computeConsistentMass at h
  obtain ⟨cons, hc, hm⟩ := Option.map_eq_some_iff.mp h
  obtain ⟨jd, hjd, hcons⟩ := Option.map_eq_some_iff.mp hc
  have hdef := foldlM_defined (step := fun (jac_det : ℕ → K) int_pt (r : (Fin 3 → Fin 3 → K) × K) =>
    put jac_det int_pt r.2) hjd
  have hv : ∀ q ∈ List.range 8, invert3x3 (jacobian val (view3 x) q)
      = some (invert3x3K (jacobian val (view3 x) q)) := by
    intro q hq
    obtain ⟨b, hb⟩ := hdef q hq
    rw [hb, invert3x3K_eq hb]
  have hrun := foldlM_some (fun i => invert3x3 (jacobian val (view3 x) i))
    (fun (jac_det : ℕ → K) int_pt (r : (Fin 3 → Fin 3 → K) × K) => put jac_det int_pt r.2)
    (List.range 8) (fun _ => (0 : K)) _ hv
  have hjd' := Option.some.inj (hjd.symm.trans hrun)
  have hdet : ∀ p < 8, jd p = (invert3x3K (jacobian val (view3 x) p)).2 := fun p hp => by
    rw [hjd', put_range_fold, if_pos hp]
  rw [← hm, ← hcons]
  unfold lumpedMassK
  simp only [foldl_add_sum, zero_add]
  apply Finset.sum_congr rfl
  intro j _
  apply Finset.sum_congr rfl
  intro p hp
  rw [hdet p (Finset.mem_range.mp hp)]

/-- Specification: the block of the default model data is the block of the other one: same density,
elements and connectivity, and the same material law wherever that is defined. -/
structure Agree (b : Blk K) (k : KBlk K) : Prop where
  density : k.density = b.density
  numElem : k.numElem = b.numElem
  conn : ∀ i, k.conn i = b.conn i
  law : ∀ F σ, b.law F = some σ → k.law F = σ

/-- Specification: a two-index view holds the flat nodal array. -/
def Holds (v : NodeView K) (a : ℕ → K) : Prop := ∀ n, ∀ d : Fin 3, v (n, d.val) = a (3 * n + d)

/-- The force of element `e` in the concurrent kernels. -/
def elemForceK (val : K) (X u : NodeView K) (b : KBlk K) (e : ℕ) : ℕ → Fin 3 → K :=
  nodalForcesK val (fun n d => X (b.conn (8 * e + n), d)) (fun n d => u (b.conn (8 * e + n), d))
    fun p => b.law (defGradK val (fun n d => X (b.conn (8 * e + n), d)) (fun n d => u (b.conn (8 * e + n), d)) p)

theorem elemForceK_eq {val : K} {b : Blk K} {k : KBlk K} (hag : Agree b k) {X u : ℕ → K} {vX vu : NodeView K}
    (hX : Holds vX X) (hu : Holds vu u) {e : ℕ} {f : ℕ → Fin 3 → K} (h : elementForce val b X u e = some f) :
    elemForceK val vX vu k e = f := by
  unfold elementForce at h
  simp only [Option.bind_eq_bind, Option.bind_eq_some_iff] at h
  obtain ⟨F, hF, σ, hσ, hf⟩ := h
  rw [computeNodalForces_eq hf]
  unfold elemForceK
  have hconn : ∀ n, k.conn (8 * e + n) = b.nodeId e n := fun n => by
    unfold Blk.nodeId; rw [hag.conn, Nat.mul_comm]
  have gX : ∀ n < 8, ∀ d : Fin 3, vX (k.conn (8 * e + n), d.val) = view3 (gather b e X) n d := by
    intro n hn d
    unfold view3
    rw [hconn, hX, gather_val b e X hn d]
  have gC : ∀ n < 8, ∀ d : Fin 3, vX (k.conn (8 * e + n), d.val) + vu (k.conn (8 * e + n), d.val)
      = view3 (gather b e fun k => X k + u k) n d := by
    intro n hn d
    unfold view3
    rw [hconn, hX, hu, gather_val b e _ hn d]
  refine nodalForcesK_congr val (fun n hn d => by rw [gC n hn d, add_zero]) ?_
  intro p hp
  obtain ⟨sig, hs1, hs2⟩ := (pointLoop_val b.law 8 F _ σ hσ).1 p hp
  funext c
  rw [hs2 c, ← hag.law _ _ hs1]
  congr 1
  funext i
  rw [computeDeformationGradients_eq hF hp i]
  refine congrFun (defGradK_congr val gX ?_ p) i
  intro n hn d
  have h1 := gX n hn d
  have h2 := gC n hn d
  unfold view3 at h1 h2 ⊢
  simp only
  rw [← h2, ← h1]
  ring

/-! ## Whole mesh -/

/-- What a block adds to component `d` of node `n`. -/
def blockForceK (val : K) (X u : NodeView K) (b : KBlk K) (n : ℕ) (d : Fin 3) : K :=
  ∑ e ∈ Finset.range b.numElem, ∑ c ∈ Finset.range 8,
    if b.conn (8 * e + c) = n then elemForceK val X u b e c d else 0

/-- The state of a block's work arrays before the third part. -/
structure Ready (val : K) (X u : NodeView K) (b : KBlk K) (w : Work K) : Prop where
  gX : ∀ e < b.numElem, ∀ n < 8, ∀ d : Fin 3, w.gX (e, n, d.val) = X (b.conn (8 * e + n), d.val)
  gU : ∀ e < b.numElem, ∀ n < 8, ∀ d : Fin 3, w.gU (e, n, d.val) = u (b.conn (8 * e + n), d.val)
  stress : ∀ e < b.numElem, ∀ p < 8, ∀ c : Fin 6, w.stress (e, p, c.val)
    = b.law (defGradK val (fun n d => X (b.conn (8 * e + n), d)) (fun n d => u (b.conn (8 * e + n), d)) p) c

theorem ready_of_run {val : K} {X u : NodeView K} {b : KBlk K} {w w1 w2 : Work K}
    (h1 : Kinematics val X u b w w1) (h2 : Stress b w1 w2) : Ready val X u b w2 where
  gX e he n hn d := by rw [h2.gX]; exact gather_run h1.gatherX he hn d
  gU e he n hn d := by rw [h2.gU]; exact gather_run h1.gatherU he hn d
  stress e he p hp c := by
    rw [stress_run h2.stress he hp c]
    congr 1
    funext i
    rw [defGrad_run h1.defGrad he hp i]
    refine congrFun (defGradK_congr val ?_ ?_ p) i
    · intro n hn d; exact gather_run h1.gatherX he hn d
    · intro n hn d; exact gather_run h1.gatherU he hn d

theorem divergence_run {val : K} {X u : NodeView K} {b : KBlk K} {w w' : Work K} {f f' : NodeView K}
    (hr : Ready val X u b w) (h : Divergence val b w w' f f') (n : ℕ) (d : Fin 3) :
    f' (n, d.val) = f (n, d.val) + blockForceK val X u b n d := by
  rw [scatter_run h.scatter]
  congr 1
  apply Finset.sum_congr rfl
  intro e he
  have he' := Finset.mem_range.mp he
  apply Finset.sum_congr rfl
  intro c hc
  rw [force_run h.nodal he' (Finset.mem_range.mp hc) d]
  have key : nodalForcesK val (fun n d => w.gX (e, n, d)) (fun n d => w.gU (e, n, d))
      (fun p c => w.stress (e, p, c.val)) = elemForceK val X u b e := by
    refine nodalForcesK_congr val ?_ ?_
    · intro n hn d; rw [hr.gX e he' n hn d, hr.gU e he' n hn d]
    · intro p hp; funext c; exact hr.stress e he' p hp c
  rw [key]

theorem divergences_run {val : K} {X u : NodeView K} {bs : List (KBlk K)} {ws ws' : List (Work K)}
    {f f' : NodeView K} (h : Divergences val bs ws ws' f f') (hr : List.Forall₂ (Ready val X u) bs ws)
    (n : ℕ) (d : Fin 3) : f' (n, d.val) = f (n, d.val) + (bs.map fun b => blockForceK val X u b n d).sum := by
  induction h with
  | nil => simp
  | cons hd _ ih =>
    rw [List.forall₂_cons] at hr
    rw [ih hr.2, divergence_run hr.1 hd, List.map_cons, List.sum_cons, add_assoc]

omit [LinearOrder K] [IsStrictOrderedRing K] in
theorem ready_blocks {P : KBlk K → Work K → Work K → Prop} {Q : KBlk K → Work K → Work K → Prop}
    {R : KBlk K → Work K → Prop} (hPQ : ∀ b w w1 w2, P b w w1 → Q b w1 w2 → R b w2) :
    ∀ (bs : List (KBlk K)) (ws ws1 ws2 : List (Work K)), ws.length = bs.length →
      List.Forall₂ (fun (bw : KBlk K × Work K) w' => P bw.1 bw.2 w') (bs.zip ws) ws1 →
      List.Forall₂ (fun (bw : KBlk K × Work K) w' => Q bw.1 bw.2 w') (bs.zip ws1) ws2 →
      List.Forall₂ R bs ws2
  | [], ws, ws1, ws2, _, h1, h2 => by
    simp only [List.zip_nil_left, List.forall₂_nil_left_iff] at h1 h2
    subst h2
    exact List.Forall₂.nil
  | b :: bs, [], ws1, ws2, hl, _, _ => by simp at hl
  | b :: bs, w :: ws, ws1, ws2, hl, h1, h2 => by
    rw [List.zip_cons_cons, List.forall₂_cons_left_iff] at h1
    obtain ⟨w1, t1, h1, ht1, rfl⟩ := h1
    rw [List.zip_cons_cons, List.forall₂_cons_left_iff] at h2
    obtain ⟨w2, t2, h2, ht2, rfl⟩ := h2
    exact List.Forall₂.cons (hPQ _ _ _ _ h1 h2) (ready_blocks hPQ bs ws t1 t2 (by simpa using hl) ht1 ht2)

/-- **C95.**  Let the serial assembly of a mesh be defined.  Then *every* execution of the concurrent
internal-force computation, whatever the interleaving of the elements and whatever the work arrays held
before, ends with exactly the serial forces in every component of every node. -/
theorem concurrent_internal_force_eq_serial (val : K) (X u : ℕ → K) (vX vu : NodeView K) (hX : Holds vX X)
    (hu : Holds vu u) (bs : List (Blk K)) (ks : List (KBlk K)) (hag : List.Forall₂ Agree bs ks)
    (F : ℕ → K) (hF : computeInternalForce val X u (serial bs) = some F)
    (ws ws' : List (Work K)) (hws : ws.length = ks.length) (force : NodeView K)
    (h : InternalForce val vX vu ks ws ws' force) : Holds force F := by
  obtain ⟨ws1, ws2, h1, h2, h3⟩ := h
  have hr := ready_blocks (P := Kinematics val vX vu) (Q := Stress) (R := Ready val vX vu)
    (fun b w w1 w2 a c => ready_of_run a c) ks ws ws1 ws2 hws h1 h2
  intro n d
  rw [divergences_run h3 hr n d, zero_add, internal_force_sum val X u F (serial bs) hF n d]
  have hdef := (internal_force_defined val X u (serial bs)).mp ⟨F, hF⟩
  clear h1 h2 h3 hr hF hws
  unfold serial at hdef ⊢
  rw [List.map_map]
  induction hag with
  | nil => rfl
  | @cons b k bs ks hbk _ ih =>
    rw [List.map_cons, List.map_cons, List.sum_cons, List.sum_cons,
      ih (fun b hb => hdef b (List.mem_cons_of_mem _ hb))]
    congr 1
    simp only [Function.comp_apply]
    rw [sum_map_range]
    unfold blockForceK
    rw [hbk.numElem]
    apply Finset.sum_congr rfl
    intro e he
    obtain ⟨f, hf⟩ := hdef (b, List.range b.numElem) (by simp) e (List.mem_range.mpr (Finset.mem_range.mp he))
    simp only at hf
    rw [hf, Option.elim_some, elemForceK_eq hbk hX hu hf]
    apply Finset.sum_congr rfl
    intro c _
    unfold Blk.nodeId
    rw [hbk.conn, Nat.mul_comm]

/-! ## Executions exist -/

omit [IsStrictOrderedRing K] in
theorem divergences_exist (val : K) : ∀ (bs : List (KBlk K)) (ws : List (Work K)) (f : NodeView K),
    ws.length = bs.length → ∃ ws' f', Divergences val bs ws ws' f f'
  | [], ws, f, h => by
    have : ws = [] := List.length_eq_zero_iff.mp h
    subst this
    exact ⟨[], f, Divergences.nil⟩
  | b :: bs, [], f, h => by simp at h
  | b :: bs, w :: ws, f, h => by
    have h1 := run_seqRun write ((List.range b.numElem).map (forceBody val w.gX w.gU w.stress)) w.gF
    have h2 := run_seqRun atomicAdd ((List.range b.numElem).map (scatterBody b
      (seqRun write ((List.range b.numElem).map (forceBody val w.gX w.gU w.stress)) w.gF))) f
    obtain ⟨ws', f', h'⟩ := divergences_exist val bs ws _ (by simpa using h)
    exact ⟨{ w with gF := _ } :: ws', f', Divergences.cons ⟨h1, h2, rfl, rfl, rfl, rfl⟩ h'⟩

omit [IsStrictOrderedRing K] in
theorem forall₂_exist {α β : Type*} {P : α → β → Prop} (l : List α) (h : ∀ a, ∃ b, P a b) :
    ∃ l', List.Forall₂ P l l' ∧ l'.length = l.length := by
  induction l with
  | nil => exact ⟨[], List.Forall₂.nil, rfl⟩
  | cons a l ih =>
    obtain ⟨b, hb⟩ := h a
    obtain ⟨l', hl, hlen⟩ := ih
    exact ⟨b :: l', List.Forall₂.cons hb hl, by simp [hlen]⟩

omit [IsStrictOrderedRing K] in
/-- The computation has an execution from every state of the work arrays. -/
theorem concurrent_internal_force_exists (val : K) (X u : NodeView K) (ks : List (KBlk K)) (ws : List (Work K))
    (hws : ws.length = ks.length) : ∃ ws' force, InternalForce val X u ks ws ws' force := by
  obtain ⟨ws1, h1, l1⟩ := forall₂_exist (P := fun (bw : KBlk K × Work K) w' => Kinematics val X u bw.1 bw.2 w')
    (ks.zip ws) (fun bw => by
      have a := run_seqRun write ((List.range bw.1.numElem).map (gatherBody bw.1 X)) bw.2.gX
      have b := run_seqRun write ((List.range bw.1.numElem).map (gatherBody bw.1 u)) bw.2.gU
      generalize seqRun write ((List.range bw.1.numElem).map (gatherBody bw.1 X)) bw.2.gX = gX at a
      generalize seqRun write ((List.range bw.1.numElem).map (gatherBody bw.1 u)) bw.2.gU = gU at b
      exact ⟨⟨gX, gU, bw.2.gF,
        seqRun write ((List.range bw.1.numElem).map (defGradBody val gX gU)) bw.2.F, bw.2.stress⟩,
        ⟨a, b, run_seqRun write _ _, rfl, rfl⟩⟩)
  obtain ⟨ws2, h2, l2⟩ := forall₂_exist (P := fun (bw : KBlk K × Work K) w' => Stress bw.1 bw.2 w')
    (ks.zip ws1) (fun bw => ⟨{ bw.2 with stress := _ }, run_seqRun write _ _, rfl, rfl, rfl, rfl⟩)
  obtain ⟨ws', f, h3⟩ := divergences_exist val ks ws2 (fun _ => 0) (by
    rw [l2, List.length_zip, l1, List.length_zip, hws]; simp)
  exact ⟨ws', f, ws1, ws2, h1, h2, h3⟩

/-- **C95.**  The result is deterministic even where the serial code would abort: any two executions, from
any contents of the work arrays, give the same forces. -/
theorem concurrent_internal_force_deterministic (val : K) (X u : NodeView K) (ks : List (KBlk K))
    (ws ws' vs vs' : List (Work K)) (hws : ws.length = ks.length) (hvs : vs.length = ks.length)
    (force force' : NodeView K) (h : InternalForce val X u ks ws ws' force)
    (h' : InternalForce val X u ks vs vs' force') (n : ℕ) (d : Fin 3) :
    force (n, d.val) = force' (n, d.val) := by
  have key : ∀ (ws ws' : List (Work K)) (force : NodeView K), ws.length = ks.length →
      InternalForce val X u ks ws ws' force →
      force (n, d.val) = (ks.map fun b => blockForceK val X u b n d).sum := by
    rintro ws ws' force hws ⟨ws1, ws2, h1, h2, h3⟩
    have hr := ready_blocks (P := Kinematics val X u) (Q := Stress) (R := Ready val X u)
      (fun b w w1 w2 a c => ready_of_run a c) ks ws ws1 ws2 hws h1 h2
    rw [divergences_run h3 hr n d, zero_add]
  rw [key ws ws' force hws h, key vs vs' force' hvs h']

/-- The flat array that the vector reduction sees for a two-index view (nimble_vector_communicator.h
`VectorReduction(3, view)`: node after node, three components). -/
def flatView (N : ℕ) (v : NodeView K) : List K := (List.range (N * 3)).map fun k => v (k / 3, k % 3)

omit [LinearOrder K] [IsStrictOrderedRing K] in
theorem flatView_eq {N : ℕ} {v : NodeView K} {F : ℕ → K} (h : Holds v F) : flatView N v = nodalArray N F := by
  unfold flatView nodalArray
  apply List.map_congr_left
  intro k _
  have := h (k / 3) ⟨k % 3, Nat.mod_lt _ (by norm_num)⟩
  simp only at this
  rw [this, Nat.div_add_mod]

/-- **C95 with C66.**  Ranks that each run the concurrent kernels on their part of a distributed mesh, in
any interleaving, and then reduce, in any order of completion of the messages: every rank ends with the
forces a single serial process computes on the whole mesh. -/
theorem concurrent_distributed_force_eq_serial {R : ℕ} (val : K) {parts : Fin R → Assembly.Part K} {X u : ℕ → K}
    (hD : Distributed parts X u) (bs : Fin R → List (Blk K)) (hbs : ∀ r, (parts r).blocks = serial (bs r))
    (G : ℕ → K) (hG : computeInternalForce val X u (wholeMesh parts) = some G)
    (ks : Fin R → List (KBlk K)) (hag : ∀ r, List.Forall₂ Agree (bs r) (ks r))
    (vX vu force : Fin R → NodeView K) (hX : ∀ r, Holds (vX r) (parts r).X) (hu : ∀ r, Holds (vu r) (parts r).u)
    (ws ws' : Fin R → List (Work K)) (hws : ∀ r, (ws r).length = (ks r).length)
    (hrun : ∀ r, InternalForce val (vX r) (vu r) (ks r) (ws r) (ws' r) (force r))
    (cl : Fin R → List Mpi.Clique)
    (hcl : ∀ r, Mpi.generateReductionInfo (fun r => (parts r).gids.map Int.ofNat) r = some (cl r))
    (r : Fin R) (st : Mpi.ReduceState K)
    (hst : Mpi.Reachable 3 cl (fun r => flatView (parts r).gids.length (force r)) r st)
    (hend : st.unfinished = []) (i : ℕ) (hi : i < (parts r).gids.length) (d : Fin 3) :
    st.data[i * 3 + d]? = some (G (3 * (parts r).gids[i] + d)) := by
  have hdef := (parallel_defined val hD).mp ⟨G, hG⟩
  choose F hF using hdef
  have hflat : (fun r => flatView (parts r).gids.length (force r))
      = fun r => nodalArray (parts r).gids.length (F r) := by
    funext r
    exact flatView_eq (concurrent_internal_force_eq_serial val (parts r).X (parts r).u (vX r) (vu r) (hX r)
      (hu r) (bs r) (ks r) (hag r) (F r) (by rw [← hbs r]; exact hF r) (ws r) (ws' r) (hws r) (force r) (hrun r))
  rw [hflat] at hst
  exact parallel_assembly_eq_serial val hD F hF G hG cl hcl r st hst hend i hi d

/-! ## Lumped mass -/

omit [LinearOrder K] [IsStrictOrderedRing K] in
theorem pair_nodup (N A : ℕ) (g : ℕ → ℕ → K) :
    (((List.range N).flatMap fun e => (List.range A).map fun i => ((e, i), g e i)).map Prod.fst).Nodup := by
  rw [List.map_flatMap, List.nodup_flatMap]
  refine ⟨fun e _ => ?_, ?_⟩
  · rw [List.map_map]
    exact List.nodup_range.map fun a b h => by simpa using h
  · refine List.nodup_range.imp ?_
    intro a b hab x hx hy
    simp only [List.mem_map] at hx hy
    obtain ⟨_, ⟨c, _, rfl⟩, rfl⟩ := hx
    obtain ⟨_, ⟨c', _, rfl⟩, h⟩ := hy
    simp only [Prod.mk.injEq] at h
    exact hab h.1.symm

omit [IsStrictOrderedRing K] in
theorem mass_run {val : K} {b : KBlk K} {gX : ElemView K} {v v' : NodeView K}
    (h : ParallelFor write b.numElem (massBody val b gX) v v') {e i : ℕ} (he : e < b.numElem) (hi : i < 8) :
    v' (e, i) = lumpedMassK val b.density (fun n d => gX (e, n, d)) i := by
  refine (run_write h (pair_nodup _ 8 fun e i => lumpedMassK val b.density (fun n d => gX (e, n, d)) i)
    (e, i)).1 _ ?_
  rw [flatten_map_range]
  simp only [massBody, List.mem_flatMap, List.mem_range, List.mem_map]
  exact ⟨e, he, i, hi, rfl⟩

omit [LinearOrder K] [IsStrictOrderedRing K] in
theorem scatterMass_run {b : KBlk K} {g : NodeView K} {m m' : ℕ → K}
    (h : ParallelFor atomicAdd b.numElem (scatterMassBody b g) m m') (n : ℕ) :
    m' n = m n + ∑ e ∈ Finset.range b.numElem, ∑ c ∈ Finset.range 8,
      if b.conn (8 * e + c) = n then g (e, c) else 0 := by
  rw [run_atomicAdd h]
  congr 1
  rw [flatten_map_range, List.map_flatMap, Solver.sum_flatMap', sum_map_range]
  apply Finset.sum_congr rfl
  intro e _
  unfold scatterMassBody
  rw [List.map_map, sum_map_range]
  rfl

/-- What a block adds to the mass of node `n`. -/
def blockMassK (val : K) (X : NodeView K) (b : KBlk K) (n : ℕ) : K :=
  ∑ e ∈ Finset.range b.numElem, ∑ c ∈ Finset.range 8,
    if b.conn (8 * e + c) = n then lumpedMassK val b.density (fun n d => X (b.conn (8 * e + n), d)) c else 0

theorem blockMass_run {val : K} {X : NodeView K} {b : KBlk K} {m m' : ℕ → K} (h : BlockMass val X b m m')
    (n : ℕ) : m' n = m n + blockMassK val X b n := by
  obtain ⟨gX, gX', gM, gM', h1, h2, h3⟩ := h
  rw [scatterMass_run h3]
  congr 1
  apply Finset.sum_congr rfl
  intro e he
  have he' := Finset.mem_range.mp he
  apply Finset.sum_congr rfl
  intro c hc
  rw [mass_run h2 he' (Finset.mem_range.mp hc),
    lumpedMassK_congr val b.density (X' := fun n d => X (b.conn (8 * e + n), d))
      (fun n hn d => gather_run h1 he' hn d)]

theorem blockMasses_run {val : K} {X : NodeView K} {bs : List (KBlk K)} {m m' : ℕ → K}
    (h : BlockMasses val X bs m m') (n : ℕ) : m' n = m n + (bs.map fun b => blockMassK val X b n).sum := by
  induction h with
  | nil => simp
  | cons hd _ ih => rw [ih, blockMass_run hd, List.map_cons, List.sum_cons, add_assoc]

/-- **C95.**  Every execution of the concurrent lumped mass computation gives every node the mass of the
serial computation on a zero field, whatever the field held before: calling it again changes nothing
(unlike `lumped_mass_twice` for the other model data). -/
theorem concurrent_lumped_mass_eq_serial (val : K) (X : ℕ → K) (vX : NodeView K) (hX : Holds vX X)
    (bs : List (Blk K)) (ks : List (KBlk K)) (hag : List.Forall₂ Agree bs ks) (m : ℕ → K)
    (hm : computeLumpedMassField val X bs (fun _ => 0) = some m) (before after : ℕ → K)
    (h : LumpedMass val vX ks before after) (n : ℕ) : after n = m n := by
  rw [blockMasses_run h n, lumped_mass_sum val X _ m bs hm n]
  have hdef := (lumped_mass_field_defined val X (fun _ => 0) bs).mp ⟨m, hm⟩
  clear h hm
  congr 1
  induction hag with
  | nil => rfl
  | @cons b k bs ks hbk _ ih =>
    rw [List.map_cons, List.map_cons, List.sum_cons, List.sum_cons,
      ih (fun b hb => hdef b (List.mem_cons_of_mem _ hb))]
    congr 1
    rw [sum_map_range]
    unfold blockMassK
    rw [hbk.numElem]
    apply Finset.sum_congr rfl
    intro e he
    obtain ⟨me, hme⟩ := (lumped_mass_defined val b.density (gather b e X)).mpr
      (hdef b (by simp) e (Finset.mem_range.mp he))
    rw [hme, Option.elim_some]
    have hconn : ∀ n, k.conn (8 * e + n) = b.nodeId e n := fun n => by
      unfold Blk.nodeId; rw [hbk.conn, Nat.mul_comm]
    have hl : lumpedMassK val k.density (fun n d => vX (k.conn (8 * e + n), d))
        = lumpedMassK val k.density (view3 (gather b e X)) := by
      refine lumpedMassK_congr val k.density ?_
      intro n hn d
      unfold view3
      rw [hconn, hX, gather_val b e X hn d]
    rw [hl]
    apply Finset.sum_congr rfl
    intro c _
    rw [hconn, computeLumpedMass_eq hme, hbk.density]

omit [IsStrictOrderedRing K] in
/-- The mass computation has an execution. -/
theorem concurrent_lumped_mass_exists (val : K) (X : NodeView K) (ks : List (KBlk K)) (before : ℕ → K) :
    ∃ after, LumpedMass val X ks before after := by
  unfold LumpedMass
  generalize (fun _ => 0 : ℕ → K) = m
  induction ks generalizing m with
  | nil => exact ⟨m, BlockMasses.nil⟩
  | cons b ks ih =>
    obtain ⟨m', h⟩ := ih (seqRun atomicAdd ((List.range b.numElem).map (scatterMassBody b
      (seqRun write ((List.range b.numElem).map (massBody val b
        (seqRun write ((List.range b.numElem).map (gatherBody b X)) (fun _ => 0)))) (fun _ => 0)))) m)
    exact ⟨m', BlockMasses.cons ⟨fun _ => 0, _, fun _ => 0, _, run_seqRun write _ _, run_seqRun write _ _,
      run_seqRun atomicAdd _ _⟩ h⟩

end ordered

/-! ## Inverted elements -/

/-- The demonstration block for the concurrent kernels. -/
def demoK : KBlk ℚ where
  density := 3
  law := elasticStress ⟨3, 2, 1⟩
  numElem := 1
  conn := fun k => k

theorem demo_agree : Agree demoBlk demoK where
  density := rfl
  numElem := rfl
  conn _ := rfl
  law F σ h := Option.some.inj h

/-- The cube of the demonstration mesh turned inside out. -/
def inside : NodeView ℚ := fun nd => -demo (3 * nd.1 + nd.2)

/-- **C95, refuted for inverted elements.**  It is not the case that the computation stops, or gives a
positive mass, when an element is inverted: the cube turned inside out gets negative nodal masses. -/
theorem inverted_element_mass_refuted :
    ¬ ∀ (X : NodeView ℚ) (ks : List (KBlk ℚ)) (before after : ℕ → ℚ), (∀ k ∈ ks, 0 < k.density) →
      LumpedMass gaussVal X ks before after → ∀ n, 0 ≤ after n := by
  intro h
  obtain ⟨m, hm⟩ := concurrent_lumped_mass_exists gaussVal inside [demoK] (fun _ => 0)
  have h0 := h inside [demoK] _ m (by simp [demoK]) hm 0
  rw [blockMasses_run hm 0] at h0
  revert h0
  have : ([demoK].map fun b => blockMassK gaussVal inside b 0).sum < 0 := by decide +kernel
  simpa using this

/-- The serial build aborts on the same element. -/
theorem inverted_element_serial_aborts :
    computeLumpedMassField gaussVal (fun k => -demo k) [demoBlk] (fun _ => 0) = none := by
  cases h : computeLumpedMassField gaussVal (fun k => -demo k) [demoBlk] (fun _ => 0) with
  | none => rfl
  | some m =>
    have hd := (lumped_mass_field_defined gaussVal (fun k => -demo k) (fun _ => 0) [demoBlk]).mp ⟨m, h⟩ demoBlk
      (by simp) 0 (by decide) 0
    exact absurd hd (by
      rw [Matrix.det_fin_three]
      decide +kernel)

/-- Non-vacuity of C95: the demonstration mesh meets all hypotheses, and an execution exists. -/
example : ∃ (F m after : ℕ → ℚ) (ws ws' : List (Work ℚ)) (force : NodeView ℚ),
    computeInternalForce gaussVal demo (fun _ => 0) (serial [demoBlk]) = some F ∧
    ws.length = [demoK].length ∧
    InternalForce gaussVal (fun nd => demo (3 * nd.1 + nd.2)) (fun _ => 0) [demoK] ws ws' force ∧
    Holds force F ∧
    computeLumpedMassField gaussVal demo [demoBlk] (fun _ => 0) = some m ∧
    LumpedMass gaussVal (fun nd => demo (3 * nd.1 + nd.2)) [demoK] (fun _ => 5) after ∧ ∀ n, after n = m n := by
  obtain ⟨F, hF⟩ := (internal_force_defined gaussVal demo (fun _ => 0) (serial [demoBlk])).mpr (by
    intro b hb e he
    simp only [serial, List.map_cons, List.map_nil, List.mem_singleton] at hb
    subst hb
    have : e < 1 := List.mem_range.mp he
    have : e = 0 := by omega
    subst this
    exact demo_elementForce)
  obtain ⟨m, hm⟩ := (lumped_mass_field_defined gaussVal demo (fun _ => 0) [demoBlk]).mpr (by
    intro b hb e he p
    rw [List.mem_singleton] at hb
    subst hb
    have : e < 1 := he
    have : e = 0 := by omega
    subst this
    rw [Jac_gather_demo]
    exact demo_ok p)
  obtain ⟨ws', force, hr⟩ := concurrent_internal_force_exists gaussVal
    (fun nd => demo (3 * nd.1 + nd.2)) (fun _ => 0) [demoK]
    [⟨fun _ => 7, fun _ => 7, fun _ => 7, fun _ => 7, fun _ => 7⟩] rfl
  obtain ⟨after, ha⟩ := concurrent_lumped_mass_exists gaussVal (fun nd => demo (3 * nd.1 + nd.2)) [demoK]
    (fun _ => 5)
  have hag : List.Forall₂ Agree [demoBlk] [demoK] := List.Forall₂.cons demo_agree List.Forall₂.nil
  refine ⟨F, m, after, _, ws', force, hF, rfl, hr, ?_, hm, ha, ?_⟩
  · exact concurrent_internal_force_eq_serial gaussVal demo (fun _ => 0) _ _ (fun n d => rfl) (fun n d => rfl)
      _ _ hag F hF _ _ rfl force hr
  · exact concurrent_lumped_mass_eq_serial gaussVal demo _ (fun n d => rfl) _ _ hag m hm _ after ha

end NimbleSM.Kokkos
