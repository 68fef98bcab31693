import Verif.Assembly.ParallelProps
import Verif.Element.HexLength

/-!
# C67: the critical time step; recomputing the mass
-/

open scoped BigOperators

namespace NimbleSM.Assembly

open NimbleSM.Hex NimbleSM.Constitutive

variable {K : Type*} [Field K] [LinearOrder K]

theorem foldl_min {A : Type*} (f : A → K) (l : List A) (start : K) :
    (∀ a ∈ l, l.foldl (fun c a => if f a < c then f a else c) start ≤ f a) ∧
    l.foldl (fun c a => if f a < c then f a else c) start ≤ start ∧
    (l.foldl (fun c a => if f a < c then f a else c) start = start ∨
      ∃ a ∈ l, l.foldl (fun c a => if f a < c then f a else c) start = f a) := by
  induction l generalizing start with
  | nil => simp
  | cons a l ih =>
    obtain ⟨h1, h2, h3⟩ := ih (if f a < start then f a else start)
    simp only [List.foldl_cons]
    have hle : (if f a < start then f a else start) ≤ f a ∧ (if f a < start then f a else start) ≤ start := by
      split_ifs with h
      · exact ⟨le_rfl, h.le⟩
      · exact ⟨not_lt.mp h, le_rfl⟩
    refine ⟨?_, h2.trans hle.2, ?_⟩
    · intro x hx
      rcases List.mem_cons.mp hx with rfl | hx
      · exact h2.trans hle.1
      · exact h1 x hx
    · rcases h3 with h | ⟨x, hx, h⟩
      · by_cases hlt : f a < start
        · right; exact ⟨a, List.mem_cons_self, by rw [h, if_pos hlt]⟩
        · left; rw [h, if_neg hlt]
      · right; exact ⟨x, List.mem_cons_of_mem _ hx, h⟩

/-- Specification: the stable time step estimate of one element: its characteristic length in the
current configuration over the sound speed of its block. -/
def elementTimeStep (sqrt : K → K) (dmax : K) (X u : ℕ → K) (b : Blk K) (e : ℕ) : K :=
  computeCharacteristicLength sqrt dmax (gather b e fun k => X k + u k) / sqrt (b.bulk / b.density)

/-- **C67.**  The critical time step of a rank is the minimum of the estimates of its elements (capped by
the largest `double`): no element's estimate is smaller, and the minimum is attained. -/
theorem critical_time_step_spec (sqrt : K → K) (dmax : K) (X u : ℕ → K) (blocks : List (Blk K)) :
    (∀ b ∈ blocks, ∀ e < b.numElem,
      criticalTimeStep sqrt dmax X u blocks ≤ elementTimeStep sqrt dmax X u b e) ∧
    criticalTimeStep sqrt dmax X u blocks ≤ dmax ∧
    (criticalTimeStep sqrt dmax X u blocks = dmax ∨
      ∃ b ∈ blocks, ∃ e < b.numElem,
        criticalTimeStep sqrt dmax X u blocks = elementTimeStep sqrt dmax X u b e) := by
  have hb : ∀ b : Blk K, (∀ e < b.numElem, blockCriticalTimeStep sqrt dmax X u b
        ≤ elementTimeStep sqrt dmax X u b e) ∧ blockCriticalTimeStep sqrt dmax X u b ≤ dmax ∧
      (blockCriticalTimeStep sqrt dmax X u b = dmax ∨
        ∃ e < b.numElem, blockCriticalTimeStep sqrt dmax X u b = elementTimeStep sqrt dmax X u b e) := by
    intro b
    obtain ⟨h1, h2, h3⟩ := foldl_min (elementTimeStep sqrt dmax X u b) (List.range b.numElem) dmax
    refine ⟨fun e he => h1 e (List.mem_range.mpr he), h2, ?_⟩
    rcases h3 with h | ⟨e, he, h⟩
    · exact .inl h
    · exact .inr ⟨e, List.mem_range.mp he, h⟩
  obtain ⟨h1, h2, h3⟩ := foldl_min (blockCriticalTimeStep sqrt dmax X u) blocks dmax
  refine ⟨fun b hbm e he => (h1 b hbm).trans ((hb b).1 e he), h2, ?_⟩
  rcases h3 with h | ⟨b, hbm, h⟩
  · exact .inl h
  · rcases (hb b).2.2 with h' | ⟨e, he, h'⟩
    · exact .inl (h.trans h')
    · exact .inr ⟨b, hbm, e, he, h.trans h'⟩

/-- A block with the cube shrunk by a factor: smaller stable time step. -/
def smallCube : ℕ → ℚ := fun k => demo k / 10

/-- **C67, refuted for parallel runs.**  `ComputeLumpedMass` never reduces the critical time step over the
ranks and only rank 0 prints it: with the large cube on rank 0 and the small one on rank 1, the value of
rank 0 exceeds the estimate of an element of the mesh. -/
theorem critical_time_step_parallel_refuted :
    ¬ ∀ (sqrt : ℚ → ℚ) (dmax : ℚ) (rank0 rank1 : Part ℚ) (b : Blk ℚ × List ℕ) (e : ℕ), b ∈ rank1.blocks → e ∈ b.2 →
      criticalTimeStep sqrt dmax rank0.X rank0.u (rank0.blocks.map Prod.fst)
        ≤ elementTimeStep sqrt dmax rank1.X rank1.u b.1 e := by
  intro h
  have := h id 1000 ⟨[], [(demoBlk, [0])], demo, fun _ => 0⟩ ⟨[], [(demoBlk, [0])], smallCube, fun _ => 0⟩
    (demoBlk, [0]) 0 List.mem_cons_self List.mem_cons_self
  revert this
  decide +kernel

/-- Calling `ComputeLumpedMass` again does not recompute the mass: it adds the element masses once more. -/
theorem lumped_mass_twice (val : K) (X m m' : ℕ → K) (blocks : List (Blk K)) [IsStrictOrderedRing K]
    (h : computeLumpedMassField val X blocks (fun _ => 0) = some m)
    (h' : computeLumpedMassField val X blocks m = some m') (n : ℕ) : m' n = 2 * m n := by
  have e1 := lumped_mass_sum val X _ m blocks h n
  rw [lumped_mass_sum val X _ m' blocks h' n]
  rw [zero_add] at e1
  rw [← e1]; ring

/-- Non-vacuity of the mass theorems: the one-cube mesh has mass density times volume, all of it on the
eight nodes. -/
example : ∃ m, computeLumpedMassField gaussVal demo [demoBlk] (fun _ => 0) = some m ∧
    ∑ n ∈ Finset.range 8, m n = 24 := by
  obtain ⟨m, hm⟩ := (lumped_mass_field_defined gaussVal demo (fun _ => 0) [demoBlk]).mpr (by
    intro b hb e he p
    rw [List.mem_singleton] at hb
    subst hb
    have : e = 0 := by
      have : e < 1 := he
      omega
    subst this
    rw [Jac_gather_demo]
    exact demo_ok p)
  refine ⟨m, hm, ?_⟩
  have hmesh : InMesh 8 (serial [demoBlk]) := by
    intro b hb e he c hc
    simp only [serial, List.map_cons, List.map_nil, List.mem_singleton] at hb
    subst hb
    have : e < 1 := List.mem_range.mp he
    have : e = 0 := by omega
    subst this
    simpa [Blk.nodeId, demoBlk] using hc
  have := lumped_mass_conserved gaussVal demo m [demoBlk] 8 hmesh hm (fun _ _ => 8) (by
    intro b hb e he
    rw [List.mem_singleton] at hb
    subst hb
    have : e < 1 := he
    have : e = 0 := by omega
    subst this
    obtain ⟨r, hr⟩ := Option.isSome_iff_exists.mp
      ((computeVolumeAverage_val gaussVal (gather demoBlk 0 demo) (fun _ => 0) 0).1.mpr
        (fun p => by rw [Jac_gather_demo]; exact demo_ok p))
    refine ⟨0, fun _ => 0, r.2, ?_⟩
    rw [hr]
    have hv := (volume_spec _ _ _ _ r.1 r.2 hr).1
    have : r.1 = 8 := by
      rw [hv]
      simp only [Jac_gather_demo, Jac_demo, Matrix.det_fin_three]
      simp
    rw [← this])
  rw [this]
  norm_num [demoBlk]

end NimbleSM.Assembly
