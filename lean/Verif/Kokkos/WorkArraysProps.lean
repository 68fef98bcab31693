import Verif.Kokkos.WorkArrays
import Verif.Kokkos.KernelProps

/-!
# C136: the internal force when the work arrays are shared handles
-/

open scoped BigOperators

namespace NimbleSM.Kokkos

open NimbleSM.Hex NimbleSM.Constitutive NimbleSM.Tensor NimbleSM.Assembly

/-! ## Which blocks share an allocation -/

theorem resizeLoop_always (s next : ℕ) (ns : List ℕ) :
    resizeLoop .always s next ns = (List.range ns.length).map (next + ·) := by
  induction ns generalizing next with
  | nil => rfl
  | cons n ns ih =>
    rw [resizeLoop, resizeView]
    simp only [reduceCtorEq, false_and, if_false]
    rw [ih, List.length_cons, List.range_succ_eq_map, List.map_cons, List.map_map]
    congr 1
    apply List.map_congr_left
    intro k _
    simp only [Function.comp_apply]
    omega

theorem resizeLoop_ge (s next : ℕ) (ns : List ℕ) :
    ∀ h ∈ resizeLoop .whenDifferent s next ns, h = s ∧ 1 ∈ ns ∨ next ≤ h := by
  induction ns generalizing next with
  | nil => intro h hh; simp [resizeLoop] at hh
  | cons n ns ih =>
    intro h hh
    rw [resizeLoop, resizeView] at hh
    by_cases hn : n = 1
    · rw [if_pos ⟨rfl, hn⟩] at hh
      rcases List.mem_cons.mp hh with rfl | hh
      · exact .inl ⟨rfl, by simp [hn]⟩
      · rcases ih next h hh with ⟨h1, h2⟩ | h1
        · exact .inl ⟨h1, List.mem_cons_of_mem _ h2⟩
        · exact .inr h1
    · rw [if_neg (fun h => hn h.2)] at hh
      rcases List.mem_cons.mp hh with rfl | hh
      · exact .inr (le_refl _)
      · rcases ih (next + 1) h hh with ⟨h1, h2⟩ | h1
        · exact .inl ⟨h1, List.mem_cons_of_mem _ h2⟩
        · exact .inr (by omega)

theorem resizeLoop_length (rule : ResizeRule) (s next : ℕ) (ns : List ℕ) :
    (resizeLoop rule s next ns).length = ns.length := by
  induction ns generalizing next with
  | nil => rfl
  | cons n ns ih => rw [resizeLoop]; simp only [List.length_cons]; rw [ih]

theorem resizeLoop_mem (s next : ℕ) (ns : List ℕ) (h : 1 ∈ ns) : s ∈ resizeLoop .whenDifferent s next ns := by
  induction ns generalizing next with
  | nil => simp at h
  | cons n ns ih =>
    rw [resizeLoop, resizeView]
    by_cases hn : n = 1
    · rw [if_pos ⟨rfl, hn⟩]; simp
    · rw [if_neg (fun h => hn h.2)]
      rcases List.mem_cons.mp h with h | h
      · exact absurd h.symm hn
      · exact List.mem_cons_of_mem _ (ih _ h)

theorem resizeLoop_nodup_iff (s next : ℕ) (hs : s < next) (ns : List ℕ) :
    (resizeLoop .whenDifferent s next ns).Nodup ↔ ns.count 1 ≤ 1 := by
  induction ns generalizing next with
  | nil => simp [resizeLoop]
  | cons n ns ih =>
    rw [resizeLoop, resizeView]
    by_cases hn : n = 1
    · rw [if_pos ⟨rfl, hn⟩]
      subst hn
      rw [List.nodup_cons, ih next hs, List.count_cons_self]
      constructor
      · rintro ⟨h1, _⟩
        have : 1 ∉ ns := fun h => h1 (resizeLoop_mem s next ns h)
        rw [List.count_eq_zero.mpr this]
      · intro h
        have h0 : ns.count 1 = 0 := by omega
        refine ⟨fun hm => ?_, by omega⟩
        rcases resizeLoop_ge s next ns s hm with ⟨_, h1⟩ | h1
        · exact (List.count_eq_zero.mp h0) h1
        · omega
    · rw [if_neg (fun h => hn h.2)]
      rw [List.nodup_cons, ih (next + 1) (by omega), List.count_cons_of_ne (by simpa using hn)]
      constructor
      · exact fun h => h.2
      · intro h
        refine ⟨fun hm => ?_, h⟩
        rcases resizeLoop_ge s (next + 1) ns next hm with ⟨h1, _⟩ | h1 <;> omega

/-- **C136.**  Where `Kokkos::resize` always allocates, no two blocks share a work array. -/
theorem work_arrays_distinct_when_resize_allocates (ns : List ℕ) :
    (initializeGatheredVector .always ns).Nodup := by
  rw [initializeGatheredVector, resizeLoop_always]
  exact (List.nodup_range).map (fun a b h => by simpa using h)

/-- **C136.**  Where `Kokkos::resize` leaves a view of the right extent alone, the work arrays of the blocks
are distinct exactly if at most one block consists of a single element. -/
theorem work_arrays_distinct_iff (ns : List ℕ) :
    (initializeGatheredVector .whenDifferent ns).Nodup ↔ ns.count 1 ≤ 1 :=
  resizeLoop_nodup_iff 0 1 (by omega) ns

/-! ## Distinct arrays: the computation of `Verif.Kokkos.Kernels` -/

variable {K : Type*} [Field K] [LinearOrder K]

/-- What the blocks see at the end of a loop, and what the loop did, when no handle occurs twice. -/
theorem loop_distinct {step : KBlk K → Work K → Work K → NodeView K → NodeView K → Prop}
    {bs : List (KBlk K)} {hs : List ℕ} {fs fs' : List (BlockFields K)} {H H' : Heap K} {f f' : NodeView K}
    (h : BlockLoop step bs hs fs H f fs' H' f') (hnd : hs.Nodup) :
    fs.length = bs.length ∧ hs.length = bs.length ∧ fs'.length = bs.length ∧
    (∀ k, k ∉ hs → H'.gX k = H.gX k ∧ H'.gU k = H.gU k ∧ H'.gF k = H.gF k) ∧
    ∃ l : List (Work K), l = (hs.zip fs').map (fun p => H'.work p.1 p.2) ∧
      ∃ ff : List (NodeView K), ff.length = bs.length + 1 ∧ ff[0]? = some f ∧ ff[bs.length]? = some f' ∧
      ∀ (i : ℕ) b w w' g g', bs[i]? = some b → ((hs.zip fs).map (fun p => H.work p.1 p.2))[i]? = some w →
        l[i]? = some w' → ff[i]? = some g → ff[i+1]? = some g' → step b w w' g g' := by
  induction h with
  | @nil H f => exact ⟨rfl, rfl, rfl, fun _ _ => ⟨rfl, rfl, rfl⟩, [], rfl, [f], rfl, rfl, rfl, by simp⟩
  | @cons b bs h hs fs fss fss' H H'' f f' f'' w' hstep hrest ih =>
    rw [List.nodup_cons] at hnd
    obtain ⟨l1, l2, l3, hout, l, hl, ff, hf1, hf2, hf3, hff⟩ := ih hnd.2
    obtain ⟨oX, oU, oF⟩ := hout h hnd.1
    simp only [Heap.store, Function.update_self] at oX oU oF
    refine ⟨by simp [l1], by simp [l2], by simp [l3], ?_, _, rfl, f :: ff, by simp [hf1], rfl, by simpa using hf3, ?_⟩
    · intro k hk
      rw [List.mem_cons, not_or] at hk
      obtain ⟨a, b, c⟩ := hout k hk.2
      simp only [Heap.store, Function.update_of_ne hk.1] at a b c
      exact ⟨a, b, c⟩
    · intro i b₁ w₁ w₁' g g' hb hw hw' hg hg'
      cases i with
      | zero =>
        simp only [List.getElem?_cons_zero, Option.some.injEq, List.zip_cons_cons, List.map_cons,
          List.getElem?_cons_succ] at hb hw hw' hg hg'
        subst hb hw hg
        rw [hf2] at hg'
        have e1 : g' = f' := (Option.some.inj hg').symm
        have e2 : w₁' = w' := by
          rw [← hw']
          simp only [Heap.work, oX, oU, oF]
        rw [e1, e2]
        exact hstep
      | succ i =>
        simp only [List.getElem?_cons_succ, List.zip_cons_cons, List.map_cons] at hb hw hw' hg hg'
        refine hff i b₁ w₁ w₁' g g' hb ?_ ?_ hg hg'
        · rw [← hw]
          congr 1
          apply List.map_congr_left
          intro p hp
          have hp1 : p.1 ∈ hs := (List.of_mem_zip hp).1
          have : p.1 ≠ h := fun e => hnd.1 (e ▸ hp1)
          simp only [Heap.work, Heap.store, Function.update_of_ne this]
        · rw [hl]; exact hw'

theorem forall₂_zip_of {α β γ : Type*} {P : α → β → γ → Prop} : ∀ (l : List α) (m : List β) (r : List γ),
    m.length = l.length → r.length = l.length →
    (∀ (i : ℕ) a b c, l[i]? = some a → m[i]? = some b → r[i]? = some c → P a b c) →
    List.Forall₂ (fun (p : α × β) c => P p.1 p.2 c) (l.zip m) r
  | [], m, r, h1, h2, _ => by
    have : m = [] := List.length_eq_zero_iff.mp h1
    have : r = [] := List.length_eq_zero_iff.mp h2
    subst m r
    exact List.Forall₂.nil
  | a :: l, [], r, h1, _, _ => by simp at h1
  | a :: l, b :: m, [], _, h2, _ => by simp at h2
  | a :: l, b :: m, c :: r, h1, h2, h => by
    rw [List.zip_cons_cons]
    exact List.Forall₂.cons (h 0 a b c rfl rfl rfl) (forall₂_zip_of l m r (by simpa using h1) (by simpa using h2)
      fun i a b c ha hb hc => h (i + 1) a b c ha hb hc)

theorem divergences_of (val : K) : ∀ (bs : List (KBlk K)) (ws ws' : List (Work K)) (ff : List (NodeView K))
    (f f' : NodeView K), ws.length = bs.length → ws'.length = bs.length → ff.length = bs.length + 1 →
    ff[0]? = some f → ff[bs.length]? = some f' →
    (∀ (i : ℕ) b w w' g g', bs[i]? = some b → ws[i]? = some w → ws'[i]? = some w' → ff[i]? = some g →
      ff[i+1]? = some g' → Divergence val b w w' g g') → Divergences val bs ws ws' f f'
  | [], ws, ws', ff, f, f', h1, h2, _, h4, h5, _ => by
    have : ws = [] := List.length_eq_zero_iff.mp h1
    have : ws' = [] := List.length_eq_zero_iff.mp h2
    subst ws ws'
    rw [List.length_nil, h4] at h5
    rw [Option.some.inj h5]
    exact Divergences.nil
  | b :: bs, [], _, _, _, _, h1, _, _, _, _, _ => by simp at h1
  | b :: bs, w :: ws, [], _, _, _, _, h2, _, _, _, _ => by simp at h2
  | b :: bs, w :: ws, w' :: ws', [], _, _, _, _, h3, _, _, _ => by simp at h3
  | b :: bs, w :: ws, w' :: ws', [_], _, _, _, _, h3, _, _, _ => by simp at h3
  | b :: bs, w :: ws, w' :: ws', g :: g' :: ff, f, f', h1, h2, h3, h4, h5, h => by
    have e : g = f := by simpa using h4
    subst e
    refine Divergences.cons (h 0 b w w' g g' rfl rfl rfl rfl rfl) ?_
    exact divergences_of val bs ws ws' (g' :: ff) g' f' (by simpa using h1) (by simpa using h2)
      (by simpa using h3) rfl (by simpa using h5)
      fun i b w w' g g' hb hw hw' hg hg' => h (i + 1) b w w' g g' hb hw hw' hg hg'

/-- If no two blocks share an allocation, every execution on the handles is an execution in which every
block has its own arrays. -/
theorem shared_of_distinct (val : K) (X u : NodeView K) (bs : List (KBlk K)) (hs : List ℕ)
    (fs : List (BlockFields K)) (H : Heap K) (force' : NodeView K) (hnd : hs.Nodup)
    (h : SharedInternalForce val X u bs hs fs H force') :
    ∃ ws', InternalForce val X u bs ((hs.zip fs).map fun p => H.work p.1 p.2) ws' force' ∧
      ((hs.zip fs).map fun p => H.work p.1 p.2).length = bs.length := by
  obtain ⟨fs1, fs2, fs3, H1, H2, H3, hk, hst, hd⟩ := h
  obtain ⟨a1, a2, a3, _, l1, rfl, ff1, b1, _, _, c1⟩ := loop_distinct hk hnd
  obtain ⟨_, _, a4, _, l2, rfl, ff2, b2, _, _, c2⟩ := loop_distinct hst hnd
  obtain ⟨_, _, a5, _, l3, rfl, ff3, b3, d3, e3, c3⟩ := loop_distinct hd hnd
  have len : ∀ (H : Heap K) (fs : List (BlockFields K)), fs.length = bs.length →
      ((hs.zip fs).map fun p => H.work p.1 p.2).length = bs.length := by
    intro H fs hfs
    rw [List.length_map, List.length_zip, a2, hfs, min_self]
  refine ⟨(hs.zip fs3).map fun p => H3.work p.1 p.2, ⟨(hs.zip fs1).map fun p => H1.work p.1 p.2,
    (hs.zip fs2).map fun p => H2.work p.1 p.2, ?_, ?_,
    divergences_of val bs _ _ ff3 _ _ (len H2 fs2 a4) (len H3 fs3 a5) b3 d3 e3 c3⟩, len H fs a1⟩
  · refine forall₂_zip_of bs _ _ (len H fs a1) (len H1 fs1 a3) ?_
    intro i b w w' hb hw hw'
    have hi : i < bs.length := (List.getElem?_eq_some_iff.mp hb).1
    exact (c1 i b w w' _ _ hb hw hw' (List.getElem?_eq_getElem (by omega)) (List.getElem?_eq_getElem (by omega))).1
  · refine forall₂_zip_of bs _ _ (len H1 fs1 a3) (len H2 fs2 a4) ?_
    intro i b w w' hb hw hw'
    have hi : i < bs.length := (List.getElem?_eq_some_iff.mp hb).1
    exact (c2 i b w w' _ _ hb hw hw' (List.getElem?_eq_getElem (by omega)) (List.getElem?_eq_getElem (by omega))).1

/-! ## Executions exist, whatever is shared -/

theorem loop_exists {step : KBlk K → Work K → Work K → NodeView K → NodeView K → Prop}
    (hstep : ∀ b w f, ∃ w' f', step b w w' f f') : ∀ (bs : List (KBlk K)) (hs : List ℕ) (fs : List (BlockFields K))
    (H : Heap K) (f : NodeView K), hs.length = bs.length → fs.length = bs.length →
    ∃ fs' H' f', BlockLoop step bs hs fs H f fs' H' f' ∧ fs'.length = bs.length
  | [], hs, fs, H, f, h1, h2 => by
    have : hs = [] := List.length_eq_zero_iff.mp h1
    have : fs = [] := List.length_eq_zero_iff.mp h2
    subst hs fs
    exact ⟨[], H, f, BlockLoop.nil, rfl⟩
  | b :: bs, [], _, _, _, h1, _ => by simp at h1
  | b :: bs, h :: hs, [], _, _, _, h2 => by simp at h2
  | b :: bs, h :: hs, fs :: fss, H, f, h1, h2 => by
    obtain ⟨w', f', hs'⟩ := hstep b (H.work h fs) f
    obtain ⟨fs'', H'', f'', hl, hlen⟩ := loop_exists hstep bs hs fss (H.store h w') f' (by simpa using h1)
      (by simpa using h2)
    exact ⟨_, H'', f'', BlockLoop.cons hs' hl, by simp [hlen]⟩

theorem loop_force_unchanged {P : KBlk K → Work K → Work K → Prop} {bs : List (KBlk K)} {hs : List ℕ}
    {fs fs' : List (BlockFields K)} {H H' : Heap K} {f f' : NodeView K}
    (h : BlockLoop (fun b w w' f f' => P b w w' ∧ f' = f) bs hs fs H f fs' H' f') : f' = f := by
  induction h with
  | nil => rfl
  | cons h _ ih => rw [ih, h.2]

theorem shared_internal_force_exists (val : K) (X u : NodeView K) (bs : List (KBlk K)) (hs : List ℕ)
    (fs : List (BlockFields K)) (H : Heap K) (hhs : hs.length = bs.length) (hfs : fs.length = bs.length) :
    ∃ force', SharedInternalForce val X u bs hs fs H force' := by
  obtain ⟨fs1, H1, f1, h1, l1⟩ := loop_exists (K := K)
    (step := fun b w w' f f' => Kinematics val X u b w w' ∧ f' = f) (fun b w f => by
      have e1 := run_seqRun write ((List.range b.numElem).map (gatherBody b X)) w.gX
      have e2 := run_seqRun write ((List.range b.numElem).map (gatherBody b u)) w.gU
      generalize seqRun write ((List.range b.numElem).map (gatherBody b X)) w.gX = gX at e1
      generalize seqRun write ((List.range b.numElem).map (gatherBody b u)) w.gU = gU at e2
      exact ⟨⟨gX, gU, w.gF,
        seqRun write ((List.range b.numElem).map (defGradBody val gX gU)) w.F, w.stress⟩, f,
        ⟨e1, e2, run_seqRun write _ _, rfl, rfl⟩, rfl⟩) bs hs fs H (fun _ => 0) hhs hfs
  have e1 := loop_force_unchanged h1
  subst e1
  obtain ⟨fs2, H2, f2, h2, l2⟩ := loop_exists (K := K)
    (step := fun b w w' f f' => Stress b w w' ∧ f' = f) (fun b w f =>
      ⟨{ w with stress := _ }, f, ⟨run_seqRun write _ _, rfl, rfl, rfl, rfl⟩, rfl⟩) bs hs fs1 H1 (fun _ => 0) hhs l1
  have e2 := loop_force_unchanged h2
  subst e2
  obtain ⟨fs3, H3, f3, h3, l3⟩ := loop_exists (K := K)
    (step := fun b w w' f f' => Divergence val b w w' f f') (fun b w f =>
      ⟨{ w with gF := _ }, _, run_seqRun write _ _, run_seqRun atomicAdd _ _, rfl, rfl, rfl, rfl⟩)
      bs hs fs2 H2 (fun _ => 0) hhs l2
  exact ⟨f3, fs1, fs2, fs3, H1, H2, H3, h1, h2, h3⟩

/-! ## Two blocks of one element each on one allocation -/

variable [IsStrictOrderedRing K]

/-- **C136, what happens when two one-element blocks share their work arrays**: the first block's stresses
are right, but they are integrated over the *second* block's element. -/
theorem shared_pair_force (val : K) (X u : NodeView K) (b₁ b₂ : KBlk K) (h1 : b₁.numElem = 1) (h2 : b₂.numElem = 1)
    (h : ℕ) (fs : List (BlockFields K)) (H : Heap K) (force' : NodeView K)
    (hrun : SharedInternalForce val X u [b₁, b₂] [h, h] fs H force') (n : ℕ) (d : Fin 3) :
    force' (n, d.val) =
      (∑ c ∈ Finset.range 8, if b₁.conn c = n then
        nodalForcesK val (fun n d => X (b₂.conn n, d)) (fun n d => u (b₂.conn n, d))
          (fun p => b₁.law (defGradK val (fun n d => X (b₁.conn n, d)) (fun n d => u (b₁.conn n, d)) p)) c d else 0) +
      blockForceK val X u b₂ n d := by
  obtain ⟨fs1, fs2, fs3, H1, H2, H3, hk, hst, hd⟩ := hrun
  rcases hk with _ | ⟨hk₁, _ | ⟨hk₂, _ | _⟩⟩
  rcases hst with _ | ⟨hs₁, _ | ⟨hs₂, _ | _⟩⟩
  rcases hd with _ | ⟨hd₁, _ | ⟨hd₂, _ | _⟩⟩
  rename_i fs₁ _ k₁ fs₂ k₂ _ s₁ s₂ f₁ d₁ d₂
  simp only [Heap.work, Heap.store, Function.update_self] at hk₁ hk₂ hs₁ hs₂ hd₁ hd₂
  replace hk₁ := hk₁.1; replace hk₂ := hk₂.1; replace hs₁ := hs₁.1; replace hs₂ := hs₂.1
  have eX : s₂.gX = k₂.gX := hs₂.gX.trans hs₁.gX
  have eU : s₂.gU = k₂.gU := hs₂.gU.trans hs₁.gU
  have hr : Ready val X u b₂ ⟨d₁.gX, d₁.gU, d₁.gF, s₂.F, s₂.stress⟩ :=
    { gX := fun e he n hn d => by
        change d₁.gX (e, n, d.val) = _
        rw [hd₁.gX]; change s₂.gX _ = _; rw [eX]; exact gather_run hk₂.gatherX he hn d
      gU := fun e he n hn d => by
        change d₁.gU (e, n, d.val) = _
        rw [hd₁.gU]; change s₂.gU _ = _; rw [eU]; exact gather_run hk₂.gatherU he hn d
      stress := fun e he p hp c => by
        change s₂.stress (e, p, c.val) = _
        rw [stress_run hs₂.stress he hp c]
        change b₂.law (fun i => k₂.F (e, p, i.val)) c = _
        congr 1
        funext i
        rw [defGrad_run hk₂.defGrad he hp i]
        refine congrFun (defGradK_congr val ?_ ?_ p) i
        · intro n hn d; exact gather_run hk₂.gatherX he hn d
        · intro n hn d; exact gather_run hk₂.gatherU he hn d }
  rw [divergence_run hr hd₂ n d]
  congr 1
  rw [scatter_run hd₁.scatter, zero_add, h1, Finset.sum_range_one]
  apply Finset.sum_congr rfl
  intro c hc
  rw [Nat.mul_zero, Nat.zero_add]
  have hc8 := Finset.mem_range.mp hc
  have z1 : 0 < b₁.numElem := by omega
  have z2 : 0 < b₂.numElem := by omega
  rw [force_run hd₁.nodal z1 hc8 d]
  have key : nodalForcesK val (fun n d => s₂.gX (0, n, d)) (fun n d => s₂.gU (0, n, d))
      (fun p c => s₁.stress (0, p, c.val)) = nodalForcesK val (fun n d => X (b₂.conn n, d))
        (fun n d => u (b₂.conn n, d))
        (fun p => b₁.law (defGradK val (fun n d => X (b₁.conn n, d)) (fun n d => u (b₁.conn n, d)) p)) := by
    refine nodalForcesK_congr val ?_ ?_
    · intro n hn d
      rw [eX, eU, gather_run hk₂.gatherX z2 hn d, gather_run hk₂.gatherU z2 hn d]
      simp
    · intro p hp
      funext c
      rw [stress_run hs₁.stress z1 hp c]
      change b₁.law (fun i => k₁.F (0, p, i.val)) c = _
      congr 1
      funext i
      rw [defGrad_run hk₁.defGrad z1 hp i]
      refine congrFun (defGradK_congr val ?_ ?_ p) i
      · intro n hn d; rw [gather_run hk₁.gatherX z1 hn d]; simp
      · intro n hn d; rw [gather_run hk₁.gatherU z1 hn d]; simp
  rw [key]

/-! ## The property -/

/-- **C136, full statement** for a release of Kokkos: on the work arrays that `InitializeGatheredVectors`
makes, whatever they and the element fields hold, every execution ends with the forces of the serial
assembly. -/
def WorkArraysIndependent (rule : ResizeRule) : Prop :=
  ∀ (val : ℚ) (X u : ℕ → ℚ) (vX vu : NodeView ℚ), Holds vX X → Holds vu u →
    ∀ (bs : List (Blk ℚ)) (ks : List (KBlk ℚ)), List.Forall₂ Agree bs ks →
    ∀ F : ℕ → ℚ, computeInternalForce val X u (serial bs) = some F →
    ∀ (fs : List (BlockFields ℚ)) (H : Heap ℚ) (force' : NodeView ℚ),
      SharedInternalForce val vX vu ks (initializeGatheredVector rule (ks.map KBlk.numElem)) fs H force' →
      Holds force' F

/-- **C136, proved** where the arrays are distinct: with a `Kokkos::resize` that always allocates, or at
most one block of a single element. -/
theorem work_arrays_independent_partial (rule : ResizeRule) (val : K) (X u : ℕ → K) (vX vu : NodeView K)
    (hX : Holds vX X) (hu : Holds vu u) (bs : List (Blk K)) (ks : List (KBlk K)) (hag : List.Forall₂ Agree bs ks)
    (hone : rule = .always ∨ (bs.map Blk.numElem).count 1 ≤ 1)
    (F : ℕ → K) (hF : computeInternalForce val X u (serial bs) = some F)
    (fs : List (BlockFields K)) (H : Heap K) (force' : NodeView K)
    (h : SharedInternalForce val vX vu ks (initializeGatheredVector rule (ks.map KBlk.numElem)) fs H force') :
    Holds force' F := by
  have hn : ks.map KBlk.numElem = bs.map Blk.numElem := by
    clear hF hone h
    induction hag with
    | nil => rfl
    | cons hbk _ ih => rw [List.map_cons, List.map_cons, ih, hbk.numElem]
  have hnd : (initializeGatheredVector rule (ks.map KBlk.numElem)).Nodup := by
    cases rule with
    | always => exact work_arrays_distinct_when_resize_allocates _
    | whenDifferent =>
      rw [work_arrays_distinct_iff, hn]
      exact hone.resolve_left (by simp)
  obtain ⟨ws', hi, hlen⟩ := shared_of_distinct val vX vu ks _ fs H force' hnd h
  exact concurrent_internal_force_eq_serial val X u vX vu hX hu bs ks hag F hF _ ws' hlen force' hi

theorem work_arrays_independent_when_resize_allocates : WorkArraysIndependent .always :=
  fun val X u vX vu hX hu bs ks hag F hF fs H force' h =>
    work_arrays_independent_partial .always val X u vX vu hX hu bs ks hag (.inl rfl) F hF fs H force' h

/-! ## A mesh on which it fails -/

/-- A sheared cube on nodes 0..7 and one twice as large on nodes 8..15. -/
def pairX : ℕ → ℚ := fun k => if k < 24 then demo k else 2 * demo (k - 24)

/-- The first cube is stretched along the first axis by a tenth. -/
def pairU : ℕ → ℚ := fun k => if k < 24 ∧ k % 3 = 0 then demo k / 10 else 0

/-- The block of the second cube. -/
def secondBlk : Blk ℚ := { demoBlk with conn := fun k => 8 + k }

def secondK : KBlk ℚ := { demoK with conn := fun k => 8 + k }

theorem second_agree : Agree secondBlk secondK where
  density := rfl
  numElem := rfl
  conn _ := rfl
  law F σ h := Option.some.inj h

theorem pair_defined : ∃ F, computeInternalForce gaussVal pairX pairU (serial [demoBlk, secondBlk]) = some F := by
  rw [internal_force_defined]
  intro b hb e he
  simp only [serial, List.map_cons, List.map_nil, List.mem_cons, List.not_mem_nil, or_false] at hb
  rcases hb with rfl | rfl
  all_goals
    have he1 : e < 1 := List.mem_range.mp he
    have he0 : e = 0 := by omega
    subst he0
    apply elementForce_defined
    · intro F; exact ⟨elasticStress ⟨3, 2, 1⟩ F, rfl⟩
    · intro p
      rw [Matrix.det_fin_three]
      revert p
      decide +kernel
    · intro p
      rw [Matrix.det_fin_three]
      revert p
      decide +kernel

/-- **C136, refuted** for the releases of Kokkos whose `resize` keeps a view of the right extent: two blocks
of one element each, one stretched; the force on a corner of the stretched cube comes out wrong. -/
theorem work_arrays_shared_refuted : ¬ WorkArraysIndependent .whenDifferent := by
  intro hall
  obtain ⟨F, hF⟩ := pair_defined
  have hag : List.Forall₂ Agree [demoBlk, secondBlk] [demoK, secondK] :=
    List.Forall₂.cons demo_agree (List.Forall₂.cons second_agree List.Forall₂.nil)
  let vX : NodeView ℚ := fun nd => pairX (3 * nd.1 + nd.2)
  let vu : NodeView ℚ := fun nd => pairU (3 * nd.1 + nd.2)
  let z : BlockFields ℚ := ⟨fun _ => 0, fun _ => 0⟩
  obtain ⟨force, hr⟩ := shared_internal_force_exists gaussVal vX vu [demoK, secondK] [0, 0] [z, z]
    ⟨fun _ _ => 0, fun _ _ => 0, fun _ _ => 0⟩ rfl rfl
  have h1 := hall gaussVal pairX pairU vX vu (fun _ _ => rfl) (fun _ _ => rfl) _ _ hag F hF [z, z]
    ⟨fun _ _ => 0, fun _ _ => 0, fun _ _ => 0⟩ force hr 0 0
  obtain ⟨force₂, hr₂⟩ := shared_internal_force_exists gaussVal vX vu [demoK, secondK]
    (initializeGatheredVector .always ([demoK, secondK].map KBlk.numElem)) [z, z]
    ⟨fun _ _ => 0, fun _ _ => 0, fun _ _ => 0⟩ rfl rfl
  have h2 := work_arrays_independent_when_resize_allocates gaussVal pairX pairU vX vu (fun _ _ => rfl)
    (fun _ _ => rfl) _ _ hag F hF [z, z] _ force₂ hr₂ 0 0
  obtain ⟨ws', ⟨ws1, ws2, g1, g2, g3⟩, hlen⟩ := shared_of_distinct gaussVal vX vu _ _ _ _ _
    (work_arrays_distinct_when_resize_allocates _) hr₂
  have hrdy := ready_blocks (P := Kinematics gaussVal vX vu) (Q := Stress) (R := Ready gaussVal vX vu)
    (fun b w w1 w2 a c => ready_of_run a c) _ _ ws1 ws2 hlen g1 g2
  rw [divergences_run g3 hrdy 0 0, zero_add] at h2
  rw [shared_pair_force gaussVal vX vu demoK secondK rfl rfl 0 _ _ force hr 0 0, ← h2] at h1
  revert h1
  decide +kernel

/-- Non-vacuity: on the same mesh with a second element in the second block the hypotheses of
`work_arrays_independent_partial` hold for every release, and executions exist. -/
example : ([demoBlk, { secondBlk with numElem := 2 }].map Blk.numElem).count 1 ≤ 1 ∧
    initializeGatheredVector .whenDifferent [1, 2, 1, 0, 1] = [0, 1, 0, 2, 0] ∧
    initializeGatheredVector .always [1, 2, 1, 0, 1] = [1, 2, 3, 4, 5] := by
  refine ⟨by decide, by decide, by decide⟩

/-- Non-vacuity: one block, an execution on the shared allocation, and its forces. -/
example : ∃ (F : ℕ → ℚ) (force : NodeView ℚ),
    SharedInternalForce gaussVal (fun nd => demo (3 * nd.1 + nd.2)) (fun _ => 0) [demoK]
      (initializeGatheredVector .whenDifferent [1]) [⟨fun _ => 7, fun _ => 7⟩]
      ⟨fun _ _ => 7, fun _ _ => 7, fun _ _ => 7⟩ force ∧ Holds force F := by
  obtain ⟨F, hF⟩ := (internal_force_defined gaussVal demo (fun _ => 0) (serial [demoBlk])).mpr (by
    intro b hb e he
    simp only [serial, List.map_cons, List.map_nil, List.mem_singleton] at hb
    subst hb
    have : e < 1 := List.mem_range.mp he
    have : e = 0 := by omega
    subst this
    exact demo_elementForce)
  obtain ⟨force, hr⟩ := shared_internal_force_exists gaussVal (fun nd => demo (3 * nd.1 + nd.2)) (fun _ => 0) [demoK]
    (initializeGatheredVector .whenDifferent [1]) [⟨fun _ => 7, fun _ => 7⟩]
    ⟨fun _ _ => 7, fun _ _ => 7, fun _ _ => 7⟩ rfl rfl
  exact ⟨F, force, hr, work_arrays_independent_partial .whenDifferent gaussVal demo (fun _ => 0) _ _
    (fun _ _ => rfl) (fun _ _ => rfl) [demoBlk] [demoK] (List.Forall₂.cons demo_agree List.Forall₂.nil)
    (.inr (by decide)) F hF _ _ force hr⟩

end NimbleSM.Kokkos
