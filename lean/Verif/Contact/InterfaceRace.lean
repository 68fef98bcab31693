import Verif.Contact.InterfaceProps
import Mathlib.LinearAlgebra.CrossProduct

/-!
# C124: how concurrent calls go wrong, and where the force acts
-/

open scoped BigOperators

namespace NimbleSM.Contact

open NimbleSM.Tensor

/-! ## Where the force acts -/

/-- The point of the plane of the triangle with coordinates `α`. -/
def trianglePoint (e : Entity ℝ) (α : Fin 3 → ℝ) : Fin 3 → ℝ := fun d => α 0 * e.coord1 d + α 1 * e.coord2 d + α 2 * e.coord3 d

theorem area_scaled (p1 p2 p3 : Fin 3 → ℝ) (a b c : ℝ) (h : a + b + c = 1) :
    triangleArea (fun d => a * p1 d + b * p2 d + c * p3 d) p2 p3 = |a| * triangleArea p1 p2 p3 := by
  unfold triangleArea Tensor.crossProduct
  simp only [Matrix.cons_val_zero, Matrix.cons_val_one, Matrix.cons_val_two, Matrix.head_cons, Matrix.tail_cons, Matrix.cons_val]
  obtain rfl : a = 1 - b - c := by linarith
  rw [← Real.sqrt_sq_eq_abs, mul_left_comm, ← Real.sqrt_mul (sq_nonneg _)]
  congr 2
  ring

theorem area_scaled' (p1 p2 p3 : Fin 3 → ℝ) (a b c : ℝ) (h : a + b + c = 1) :
    triangleArea p1 (fun d => a * p1 d + b * p2 d + c * p3 d) p3 = |b| * triangleArea p1 p2 p3 := by
  unfold triangleArea Tensor.crossProduct
  simp only [Matrix.cons_val_zero, Matrix.cons_val_one, Matrix.cons_val_two, Matrix.head_cons, Matrix.tail_cons, Matrix.cons_val]
  obtain rfl : b = 1 - a - c := by linarith
  rw [← Real.sqrt_sq_eq_abs, mul_left_comm, ← Real.sqrt_mul (sq_nonneg _)]
  congr 2
  ring

theorem area_ne_zero {p1 p2 p3 : Fin 3 → ℝ} (h : LinearIndependent ℝ ![p2 - p1, p3 - p1]) : triangleArea p1 p2 p3 ≠ 0 := by
  rw [← crossProduct_ne_zero_iff_linearIndependent] at h
  intro h0
  apply h
  unfold triangleArea Tensor.crossProduct at h0
  simp only [Matrix.cons_val_zero, Matrix.cons_val_one, Matrix.cons_val_two, Matrix.head_cons, Matrix.tail_cons, Matrix.cons_val] at h0
  have h1 := (mul_eq_zero.mp h0).resolve_left (by norm_num)
  rw [Real.sqrt_eq_zero'] at h1
  have e0 : ∀ a b c : ℝ, a * a + b * b + c * c ≤ 0 → a = 0 ∧ b = 0 ∧ c = 0 := by
    intro a b c h
    refine ⟨?_, ?_, ?_⟩ <;> nlinarith [mul_self_nonneg a, mul_self_nonneg b, mul_self_nonneg c, h]
  obtain ⟨h2, h3, h4⟩ := e0 _ _ _ h1
  rw [cross_apply]
  funext i
  fin_cases i
  · show (p2 1 - p1 1) * (p3 2 - p1 2) - (p2 2 - p1 2) * (p3 1 - p1 1) = 0
    linarith
  · show (p2 2 - p1 2) * (p3 0 - p1 0) - (p2 0 - p1 0) * (p3 2 - p1 2) = 0
    linarith
  · show (p2 0 - p1 0) * (p3 1 - p1 1) - (p2 1 - p1 1) * (p3 0 - p1 0) = 0
    linarith

/-- The shares of the vertices: the absolute values of the first two coordinates of the closest point, and the rest. -/
theorem shares_area (e : Entity ℝ) (ht : e.type = .triangle)
    (hL : LinearIndependent ℝ ![e.coord2 - e.coord1, e.coord3 - e.coord1]) (α : Fin 3 → ℝ)
    (hα : α 0 + α 1 + α 2 = 1) : shares e (trianglePoint e α) = ![|α 0|, |α 1|, 1 - |α 0| - |α 1|] := by
  have hA := area_ne_zero hL
  unfold shares
  rw [ht]
  unfold trianglePoint
  simp only
  rw [area_scaled _ _ _ _ _ _ hα, area_scaled' _ _ _ _ _ _ hα, mul_div_cancel_right₀ _ hA, mul_div_cancel_right₀ _ hA]

/-- **C124.**  The force on the face acts at the closest point if and only if the point is not beyond the edge opposite the first or the
second vertex; in particular for all points of the triangle. -/
theorem force_acts_at_closest_iff (e : Entity ℝ) (ht : e.type = .triangle)
    (hL : LinearIndependent ℝ ![e.coord2 - e.coord1, e.coord3 - e.coord1])
    (α : Fin 3 → ℝ) (hα : α 0 + α 1 + α 2 = 1) : shares e (trianglePoint e α) = α ↔ 0 ≤ α 0 ∧ 0 ≤ α 1 := by
  rw [shares_area e ht hL α hα]
  constructor
  · intro h
    have h0 := congrFun h 0
    have h1 := congrFun h 1
    simp only [Matrix.cons_val_zero, Matrix.cons_val_one] at h0 h1
    exact ⟨abs_eq_self.mp h0, abs_eq_self.mp h1⟩
  · rintro ⟨h0, h1⟩
    rw [abs_of_nonneg h0, abs_of_nonneg h1]
    funext i
    fin_cases i
    · rfl
    · rfl
    · show 1 - α 0 - α 1 = α 2
      linarith

/-! ## Blocks of accesses -/

theorem run_stores (l : List (Slot × ℝ)) (hnd : (l.map Prod.fst).Nodup) (m : Memory) :
    let m' := (l.map fun s => Access.store s.1 s.2).foldl Access.run m
    m'.force = m.force ∧ (∀ x ∈ l, m'.field x.1 = x.2) ∧ ∀ s, s ∉ l.map Prod.fst → m'.field s = m.field s := by
  induction l generalizing m with
  | nil => exact ⟨rfl, by simp, fun s _ => rfl⟩
  | cons y l ih =>
    rw [List.map_cons, List.nodup_cons] at hnd
    obtain ⟨h1, h2, h3⟩ := ih hnd.2 (Access.run m (.store y.1 y.2))
    simp only [List.map_cons, List.foldl_cons] at h1 h2 h3 ⊢
    refine ⟨by rw [h1]; rfl, ?_, ?_⟩
    · intro x hx
      rcases List.mem_cons.mp hx with rfl | hx
      · rw [h3 _ hnd.1]; simp [Access.run]
      · exact h2 x hx
    · intro s hs
      rw [List.mem_cons, not_or] at hs
      rw [h3 s hs.2]
      simp [Access.run, Function.update_of_ne hs.1]

/-- The addition made by an access with these fields. -/
noncomputable def readAddition (field : Slot → ℝ) (a : Slot × Bool × ℤ) : ℤ × ℝ := (a.2.2, if a.2.1 then field a.1 / 4 else field a.1)

theorem run_adds (l : List (Slot × Bool × ℤ)) (m : Memory) :
    (l.map fun a => Access.add a.1 a.2.1 a.2.2).foldl Access.run m = { m with force := runOps m.force (l.map (readAddition m.field)) } := by
  induction l generalizing m with
  | nil => rfl
  | cons y l ih =>
    rw [List.map_cons, List.foldl_cons, ih]
    rfl

theorem run_block (program : ℕ → List Access) (i k : ℕ) (t : Threads) (hk : t.done i + k ≤ (program i).length) :
    runSchedule program (List.replicate k i) t = Threads.mk (Function.update t.done i (t.done i + k))
      ((((program i).drop (t.done i)).take k).foldl Access.run t.memory) := by
  induction k generalizing t with
  | zero => cases t; simp [runSchedule]
  | succ k ih =>
    have hlt : t.done i < (program i).length := by omega
    have hstep : t.step program i = Threads.mk (Function.update t.done i (t.done i + 1)) ((program i)[t.done i].run t.memory) := by
      unfold Threads.step
      rw [List.getElem?_eq_getElem hlt]
    rw [List.replicate_succ]
    show runSchedule program (List.replicate k i) (t.step program i) = _
    rw [hstep, ih _ (by simp; omega)]
    simp only [Function.update_self, Function.update_idem]
    congr 1
    · congr 1; omega
    · rw [List.drop_eq_getElem_cons hlt, List.take_succ_cons, List.foldl_cons]

theorem resultant_pair (ops : List (ℤ × ℝ)) (n : ℕ) (hops : ∀ op ∈ ops, 0 ≤ op.1 ∧ op.1 < 3 * (n : ℤ)) (d : Fin 3) :
    ∑ i ∈ Finset.range n, runOps (fun _ => 0) ops (3 * (i : ℤ) + d) = pair (fun a => if a % 3 = (d : ℕ) then 1 else 0) ops := by
  have hw := sum_runOps (Finset.Ico (0 : ℤ) (3 * (n : ℤ))) (fun a => if a % 3 = (d : ℕ) then (1 : ℝ) else 0) ops (fun _ => 0)
    (fun op ho => Finset.mem_Ico.mpr (hops op ho))
  rw [sum_flat] at hw
  simp only [mul_zero, Finset.sum_const_zero, zero_add] at hw
  rw [← hw]
  apply Finset.sum_congr rfl
  intro i _
  have h0 : (3 * (i : ℤ)) % 3 = 0 := by omega
  have h1 : (3 * (i : ℤ) + 1) % 3 = 1 := by omega
  have h2 : (3 * (i : ℤ) + 2) % 3 = 2 := by omega
  rw [h0, h1, h2]
  fin_cases d <;> simp

/-- **C124, how the property fails.**  For any two nodes in contact with the same face, there is a schedule of the two calls that leaves
contact forces whose resultant is the difference of the two forces, instead of zero. -/
theorem interactions_race (penalty : ℝ) (nodes faces : ℕ → Entity ℝ) (c0 c1 : Call) (hn0 : (nodes c0.node).type = .node)
    (hn1 : (nodes c1.node).type = .node) (hf : (faces c0.face).type = .triangle) (hg0 : c0.gap < 0) (hg1 : c1.gap < 0)
    (hface : c1.face = c0.face) (hnode : c0.node ≠ c1.node) (field : Slot → ℝ) (n : ℕ)
    (hids : ∀ c ∈ [c0, c1], ∀ id ∈ c.ids nodes faces, 0 ≤ id ∧ id < n) :
    ∃ schedule, Completes penalty nodes faces [c0, c1] schedule field ∧ ∀ d : Fin 3,
      ∑ i ∈ Finset.range n, (computeContact penalty nodes faces [c0, c1] schedule field).memory.force (3 * (i : ℤ) + d)
        = c1.force penalty d - c0.force penalty d := by
  have hf1 : (faces c1.face).type = .triangle := by rw [hface]; exact hf
  obtain ⟨a0, a1, a2⟩ := call_shaped penalty nodes faces c0 hn0 hf
  obtain ⟨b0, b1, b2⟩ := call_shaped penalty nodes faces c1 hn1 hf1
  set S0 := c0.stores penalty faces with hS0
  set S1 := c1.stores penalty faces with hS1
  set A0 := c0.adds nodes faces with hA0
  set A1 := c1.adds nodes faces with hA1
  have e0 : (c0.accesses penalty nodes faces).length = S0.length + A0.length := by rw [a0]; simp
  have e1 : (c1.accesses penalty nodes faces).length = S1.length + A1.length := by rw [b0]; simp
  let prog : ℕ → List Access := fun i => (([c0, c1] : List Call)[i]?.map (Call.accesses penalty nodes faces)).getD []
  have p0 : prog 0 = c0.accesses penalty nodes faces := rfl
  have p1 : prog 1 = c1.accesses penalty nodes faces := rfl
  let sched := List.replicate S0.length 0 ++ (List.replicate S1.length 1 ++ (List.replicate A0.length 0 ++ List.replicate A1.length 1))
  let m0 : Memory := { field := field, force := fun _ => 0 }
  let m1 := (S0.map fun s => Access.store s.1 s.2).foldl Access.run m0
  let m2 := (S1.map fun s => Access.store s.1 s.2).foldl Access.run m1
  obtain ⟨f1, f2, f3⟩ := run_stores S0 a1 m0
  obtain ⟨g1, g2, g3⟩ := run_stores S1 b1 m1
  have hrun : computeContact penalty nodes faces [c0, c1] sched field = Threads.mk
      (Function.update (Function.update (fun _ => 0) 0 (S0.length + A0.length)) 1 (S1.length + A1.length))
      (Memory.mk m2.field (runOps (fun _ => 0) (A0.map (readAddition m2.field) ++ A1.map (readAddition m2.field)))) := by
    show runSchedule prog sched _ = _
    have hsplit : ∀ (x y : List ℕ) t, runSchedule prog (x ++ y) t = runSchedule prog y (runSchedule prog x t) := by
      intro x y t; exact List.foldl_append
    simp only [sched]
    rw [hsplit, run_block prog 0 S0.length _ (by simp only; rw [p0, e0]; omega)]
    rw [hsplit, run_block prog 1 S1.length _ (by
      simp only [Function.update_of_ne (show (1 : ℕ) ≠ 0 by decide)]; rw [p1, e1]; omega)]
    rw [hsplit, run_block prog 0 A0.length _ (by
      simp only [Function.update_of_ne (show (0 : ℕ) ≠ 1 by decide), Function.update_self]; rw [p0, e0]; omega)]
    rw [run_block prog 1 A1.length _ (by
      simp only [Function.update_of_ne (show (1 : ℕ) ≠ 0 by decide), Function.update_self]; rw [p1, e1]; omega)]
    simp only [Function.update_of_ne (show (1 : ℕ) ≠ 0 by decide), Function.update_of_ne (show (0 : ℕ) ≠ 1 by decide), Function.update_self,
      p0, p1, a0, b0]
    have d0 : ((S0.map fun s => Access.store s.1 s.2) ++ A0.map fun a => Access.add a.1 a.2.1 a.2.2).drop (0 + S0.length)
        = A0.map fun a => Access.add a.1 a.2.1 a.2.2 := by rw [zero_add, List.drop_left' (by simp)]
    have d1 : ((S1.map fun s => Access.store s.1 s.2) ++ A1.map fun a => Access.add a.1 a.2.1 a.2.2).drop (0 + S1.length)
        = A1.map fun a => Access.add a.1 a.2.1 a.2.2 := by rw [zero_add, List.drop_left' (by simp)]
    have t0 : (((S0.map fun s => Access.store s.1 s.2) ++ A0.map fun a => Access.add a.1 a.2.1 a.2.2).drop 0).take S0.length
        = S0.map fun s => Access.store s.1 s.2 := by rw [List.drop_zero, List.take_left' (by simp)]
    have t1 : (((S1.map fun s => Access.store s.1 s.2) ++ A1.map fun a => Access.add a.1 a.2.1 a.2.2).drop 0).take S1.length
        = S1.map fun s => Access.store s.1 s.2 := by rw [List.drop_zero, List.take_left' (by simp)]
    rw [d0, d1, t0, t1]
    have u0 : (A0.map fun a => Access.add a.1 a.2.1 a.2.2).take A0.length = A0.map fun a => Access.add a.1 a.2.1 a.2.2 :=
      List.take_of_length_le (by simp)
    have u1 : (A1.map fun a => Access.add a.1 a.2.1 a.2.2).take A1.length = A1.map fun a => Access.add a.1 a.2.1 a.2.2 :=
      List.take_of_length_le (by simp)
    rw [u0, u1, run_adds, run_adds]
    congr 1
    · funext j
      by_cases h1 : j = 1
      · subst h1; simp
      · by_cases h0 : j = 0
        · subst h0; simp
        · simp [Function.update_of_ne h1, Function.update_of_ne h0]
    · show ({ field := m2.field, force := _ } : Memory) = _
      congr 1
      have : m2.force = fun _ => 0 := g1.trans f1
      simp only [runOps, List.foldl_append]
      rw [show ((S1.map fun s => Access.store s.1 s.2).foldl Access.run ((S0.map fun s => Access.store s.1 s.2).foldl Access.run
        { field := field, force := fun _ => 0 })).force = fun _ => 0 from this]
  refine ⟨sched, ?_, fun d => ?_⟩
  · intro i c hc
    rw [hrun]
    match i, hc with
    | 0, hc => obtain rfl : c0 = c := Option.some.inj hc; simp [e0]
    | 1, hc => obtain rfl : c1 = c := Option.some.inj hc; simp [e1]
    | (i + 2), hc => simp at hc
  · rw [hrun]
    simp only
    have hface1 : ∀ v d : Fin 3, m2.field ⟨true, c0.face, v, d⟩ = shares (faces c1.face) c1.closest v * c1.force penalty d := by
      intro v e
      refine g2 (⟨true, c0.face, v, e⟩, _) ?_
      rw [hS1]
      unfold Call.stores
      rw [if_pos hg1, hface]
      fin_cases v <;> fin_cases e <;> simp [vertexStores]
    have hnode1 : ∀ e : Fin 3, m2.field ⟨false, c1.node, 0, e⟩ = 1 * (c1.force penalty e * -1) := by
      intro e
      refine g2 (⟨false, c1.node, 0, e⟩, _) ?_
      rw [hS1]
      unfold Call.stores
      rw [if_pos hg1]
      fin_cases e <;> simp [vertexStores]
    have hnode0 : ∀ e : Fin 3, m2.field ⟨false, c0.node, 0, e⟩ = 1 * (c0.force penalty e * -1) := by
      intro e
      rw [show m2.field ⟨false, c0.node, 0, e⟩ = m1.field ⟨false, c0.node, 0, e⟩ from g3 _ (by
        rw [hS1]
        unfold Call.stores
        rw [if_pos hg1]
        simp [vertexStores, hnode])]
      refine f2 (⟨false, c0.node, 0, e⟩, _) ?_
      rw [hS0]
      unfold Call.stores
      rw [if_pos hg0]
      fin_cases e <;> simp [vertexStores]
    have hsum := shares_sum (faces c1.face) hf1 c1.closest
    have hlist : A0.map (readAddition m2.field) ++ A1.map (readAddition m2.field)
        = (addVec (nodes c0.node).node1 (fun e => - c0.force penalty e) ++
            (addVec (faces c0.face).node1 (fun e => shares (faces c1.face) c1.closest 0 * c1.force penalty e) ++
            (addVec (faces c0.face).node2 (fun e => shares (faces c1.face) c1.closest 1 * c1.force penalty e) ++
            [(faces c0.face).fict 0, (faces c0.face).fict 1, (faces c0.face).fict 2, (faces c0.face).fict 3].flatMap fun id =>
              addVec id (fun e => shares (faces c1.face) c1.closest 2 * c1.force penalty e / 4)))) ++
          c1.additions penalty nodes faces := by
      rw [hA0, hA1]
      unfold Call.adds Call.additions
      rw [if_pos hg0, if_pos hg1, if_pos hg1]
      simp only [vertexAdds, hface, List.map_append, List.map_cons, List.map_nil, List.flatMap_cons, List.flatMap_nil, readAddition,
        hface1, hnode1, hnode0, addVec]
      simp
    rw [hlist, resultant_pair _ n ?_ d]
    · have hw : ∀ (id : ℤ) (v : Fin 3 → ℝ), pair (fun a => if a % 3 = (d : ℕ) then 1 else 0) (addVec id v) = v d := by
        intro id v
        have h0 : (3 * id) % 3 = 0 := by omega
        have h1 : (3 * id + 1) % 3 = 1 := by omega
        have h2 : (3 * id + 2) % 3 = 2 := by omega
        simp only [pair, addVec, List.map_cons, List.map_nil, List.sum_cons, List.sum_nil, h0, h1, h2]
        fin_cases d <;> simp
      unfold Call.additions
      rw [if_pos hg1]
      simp only [List.flatMap_cons, List.flatMap_nil, pair_append, pair_nil, hw]
      linear_combination 2 * c1.force penalty d * hsum
    · intro op hop
      have hb : ∀ (id : ℤ) (v : Fin 3 → ℝ), 0 ≤ id ∧ id < n → op ∈ addVec id v → 0 ≤ op.1 ∧ op.1 < 3 * (n : ℤ) := by
        intro id v h hm
        simp only [addVec, List.mem_cons, List.not_mem_nil, or_false] at hm
        rcases hm with rfl | rfl | rfl <;> simp only <;> omega
      have i0 := hids c0 (by simp)
      have i1 := hids c1 (by simp)
      simp only [Call.ids, List.mem_cons, List.not_mem_nil, or_false, forall_eq_or_imp, forall_eq] at i0 i1
      unfold Call.additions at hop
      rw [if_pos hg1] at hop
      simp only [List.mem_append, List.flatMap_cons, List.flatMap_nil, List.not_mem_nil, or_false] at hop
      rcases hop with (h | h | h | h | h | h | h) | (h | h | h | h | h | h | h) <;>
        exact hb _ _ (by first | exact i0.1 | exact i0.2.1 | exact i0.2.2.1 | exact i0.2.2.2.1 | exact i0.2.2.2.2.1 | exact i0.2.2.2.2.2.1 |
          exact i0.2.2.2.2.2.2 | exact i1.1 | exact i1.2.1 | exact i1.2.2.1 | exact i1.2.2.2.1 | exact i1.2.2.2.2.1 | exact i1.2.2.2.2.2.1 |
          exact i1.2.2.2.2.2.2) h

end NimbleSM.Contact
