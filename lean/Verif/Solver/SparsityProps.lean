import Verif.Solver.TangentProps

/-!
# C21 and C64: the sparsity structure of the tangent, and the assembly into it
-/

namespace NimbleSM.Solver

variable {K : Type*} [Field K]

/-! ## Specification -/

/-- `i` is a degree of freedom of element `e`: `g * dim + k` for the linear-system number `g` of a node of
the element and a direction `k`. -/
def IsDof (nodeIds : List ℕ) (dim : ℕ) (e : List ℕ) (i : ℕ) : Prop :=
  ∃ n ∈ e, ∃ g, nodeIds[n]? = some g ∧ ∃ k < dim, i = g * dim + k

/-- The degrees of freedom `i` and `j` share an element of some block. -/
def ShareElement (nodeIds : List ℕ) (dim : ℕ) (blocks : List Connectivity) (i j : ℕ) : Prop :=
  ∃ block ∈ blocks, ∃ e ∈ block, IsDof nodeIds dim e i ∧ IsDof nodeIds dim e j

/-- Every node of every element has a linear-system number, and that number is in range. -/
def MeshWellPosed (nodeIds : List ℕ) (blocks : List Connectivity) : Prop :=
  ∀ block ∈ blocks, ∀ e ∈ block, ∀ n ∈ e, ∃ g, nodeIds[n]? = some g ∧ g < nodeIds.length

/-! ## Sets -/

theorem mem_setInsert (x y : ℕ) (l : List ℕ) : y ∈ setInsert x l ↔ y = x ∨ y ∈ l := by
  induction l with
  | nil => simp [setInsert]
  | cons z l ih =>
    unfold setInsert
    split
    · simp
    · split
      · rename_i h; subst h; simp
      · simp only [List.mem_cons, ih]; tauto

theorem setInsert_sorted (x : ℕ) (l : List ℕ) (h : l.Pairwise (· < ·)) :
    (setInsert x l).Pairwise (· < ·) := by
  induction l with
  | nil => simp [setInsert]
  | cons z l ih =>
    obtain ⟨h1, h2⟩ := List.pairwise_cons.mp h
    unfold setInsert
    split
    · rename_i hz
      refine List.pairwise_cons.mpr ⟨?_, h⟩
      intro y hy
      rcases List.mem_cons.mp hy with rfl | hy
      · exact hz
      · exact Nat.lt_trans hz (h1 y hy)
    · split
      · exact h
      · refine List.pairwise_cons.mpr ⟨?_, ih h2⟩
        intro y hy
        rcases (mem_setInsert x y l).mp hy with rfl | hy
        · omega
        · exact h1 y hy

theorem mem_insertPair (nz : ℕ → List ℕ) (row col r c : ℕ) :
    c ∈ insertPair nz row col r ↔ c ∈ nz r ∨ (r = row ∧ c = col) ∨ (r = col ∧ c = row) := by
  unfold insertPair upd
  by_cases h1 : r = col
  · subst h1
    simp only [if_true, mem_setInsert, true_and]
    by_cases h2 : r = row
    · subst h2; simp only [if_true, mem_setInsert, true_and]; tauto
    · simp only [h2, if_false, false_and]; tauto
  · simp only [h1, if_false, false_and, or_false]
    by_cases h2 : r = row
    · subst h2; simp only [if_true, mem_setInsert, true_and]; tauto
    · simp [h2]

theorem insertPair_sorted (nz : ℕ → List ℕ) (h : ∀ r, (nz r).Pairwise (· < ·)) (row col r : ℕ) :
    (insertPair nz row col r).Pairwise (· < ·) := by
  unfold insertPair upd
  by_cases h1 : r = col
  · subst h1
    simp only [if_true]
    apply setInsert_sorted
    split
    · exact setInsert_sorted _ _ (h _)
    · exact h _
  · simp only [h1, if_false]
    split
    · exact setInsert_sorted _ _ (h _)
    · exact h _

theorem innerFold_mem (row : ℕ) (cols : List ℕ) (nz : ℕ → List ℕ) (r c : ℕ) :
    c ∈ cols.foldl (fun (nz : ℕ → List ℕ) col => insertPair nz row col) nz r ↔
      c ∈ nz r ∨ (r = row ∧ c ∈ cols) ∨ (r ∈ cols ∧ c = row) := by
  induction cols generalizing nz with
  | nil => simp
  | cons x xs ih =>
    simp only [List.foldl_cons]
    rw [ih, mem_insertPair]
    simp only [List.mem_cons]
    tauto

theorem outerFold_mem (rows cols : List ℕ) (nz : ℕ → List ℕ) (r c : ℕ) :
    c ∈ rows.foldl (fun (nz : ℕ → List ℕ) row =>
        cols.foldl (fun (nz : ℕ → List ℕ) col => insertPair nz row col) nz) nz r ↔
      c ∈ nz r ∨ (r ∈ rows ∧ c ∈ cols) ∨ (r ∈ cols ∧ c ∈ rows) := by
  induction rows generalizing nz with
  | nil => simp
  | cons x xs ih =>
    simp only [List.foldl_cons]
    rw [ih, innerFold_mem]
    simp only [List.mem_cons]
    tauto

theorem mem_insertElement (dofs : List ℕ) (nz : ℕ → List ℕ) (r c : ℕ) :
    c ∈ insertElement dofs nz r ↔ c ∈ nz r ∨ (r ∈ dofs ∧ c ∈ dofs) := by
  unfold insertElement
  rw [outerFold_mem]
  tauto

theorem insertElement_sorted (dofs : List ℕ) (nz : ℕ → List ℕ) (h : ∀ r, (nz r).Pairwise (· < ·)) :
    ∀ r, (insertElement dofs nz r).Pairwise (· < ·) := by
  unfold insertElement
  have inner : ∀ (cols : List ℕ) (row : ℕ) (nz : ℕ → List ℕ), (∀ r, (nz r).Pairwise (· < ·)) →
      ∀ r, (cols.foldl (fun (nz : ℕ → List ℕ) col => insertPair nz row col) nz r).Pairwise (· < ·) := by
    intro cols row
    induction cols with
    | nil => intro nz h; exact h
    | cons x xs ih => intro nz h; exact ih _ (insertPair_sorted nz h row x)
  have outer : ∀ (rows : List ℕ) (nz : ℕ → List ℕ), (∀ r, (nz r).Pairwise (· < ·)) →
      ∀ r, (rows.foldl (fun (nz : ℕ → List ℕ) row =>
        dofs.foldl (fun (nz : ℕ → List ℕ) col => insertPair nz row col) nz) nz r).Pairwise (· < ·) := by
    intro rows
    induction rows with
    | nil => intro nz h; exact h
    | cons x xs ih => intro nz h; exact ih _ (inner dofs x nz h)
  exact outer dofs nz h

/-! ## Elements -/

/-- The linear-system numbers of the nodes of an element. -/
theorem mapM_getElem? (nodeIds e : List ℕ) :
    (∃ gs, e.mapM (fun n => nodeIds[n]?) = some gs) ↔ ∀ n ∈ e, n < nodeIds.length := by
  induction e with
  | nil => simp
  | cons n e ih =>
    rw [List.mapM_cons]
    simp only [List.mem_cons, forall_eq_or_imp]
    rw [← ih]
    constructor
    · rintro ⟨gs, h⟩
      cases h1 : nodeIds[n]? with
      | none => rw [h1] at h; simp at h
      | some g =>
        refine ⟨(List.getElem?_eq_some_iff.mp h1).1, ?_⟩
        cases h2 : e.mapM (fun n => nodeIds[n]?) with
        | none => rw [h1, h2] at h; simp at h
        | some gs => exact ⟨gs, rfl⟩
    · rintro ⟨h1, gs, h2⟩
      exact ⟨nodeIds[n] :: gs, by simp [h1, h2]⟩

theorem mapM_getElem?_eq {nodeIds e gs : List ℕ} (h : e.mapM (fun n => nodeIds[n]?) = some gs) :
    gs = e.map fun n => nodeIds.getD n 0 := by
  induction e generalizing gs with
  | nil => simpa using h.symm
  | cons n e ih =>
    rw [List.mapM_cons] at h
    cases h1 : nodeIds[n]? with
    | none => rw [h1] at h; simp at h
    | some g =>
      cases h2 : e.mapM (fun n => nodeIds[n]?) with
      | none => rw [h1, h2] at h; simp at h
      | some gs' =>
        rw [h1, h2] at h
        simp at h
        rw [← h, ih h2]
        simp [List.getD_eq_getElem?_getD, h1]

theorem elementDofs_mem {nodeIds : List ℕ} {dim : ℕ} {e ds : List ℕ}
    (h : elementDofs nodeIds dim e = some ds) (i : ℕ) : i ∈ ds ↔ IsDof nodeIds dim e i := by
  unfold elementDofs at h
  obtain ⟨gs, hgs, rfl⟩ := Option.map_eq_some_iff.mp h
  have hr := (mapM_getElem? nodeIds e).mp ⟨gs, hgs⟩
  rw [mapM_getElem?_eq hgs]
  simp only [List.mem_flatMap, List.mem_map, List.mem_range, IsDof]
  constructor
  · rintro ⟨g, ⟨n, hn, rfl⟩, k, hk, rfl⟩
    exact ⟨n, hn, _, by simp [List.getD_eq_getElem?_getD, hr n hn], k, hk, rfl⟩
  · rintro ⟨n, hn, g, hg, k, hk, rfl⟩
    exact ⟨g, ⟨n, hn, by simp [List.getD_eq_getElem?_getD, hg]⟩, k, hk, rfl⟩

theorem elementDofs_isSome {nodeIds : List ℕ} {dim : ℕ} {e : List ℕ} (h : ∀ n ∈ e, n < nodeIds.length) :
    ∃ ds, elementDofs nodeIds dim e = some ds := by
  obtain ⟨gs, hgs⟩ := (mapM_getElem? nodeIds e).mpr h
  exact ⟨_, by unfold elementDofs; rw [hgs]; rfl⟩

theorem collectNonzeros_spec (nodeIds : List ℕ) (dim : ℕ) (es : List (List ℕ)) (nz nz' : ℕ → List ℕ)
    (hs : ∀ r, (nz r).Pairwise (· < ·)) (h : collectNonzeros nodeIds dim es nz = some nz') :
    (∀ r, (nz' r).Pairwise (· < ·)) ∧
    (∀ e ∈ es, ∀ i, IsDof nodeIds dim e i → i < nodeIds.length * dim) ∧
    ∀ r c, c ∈ nz' r ↔ c ∈ nz r ∨ ∃ e ∈ es, IsDof nodeIds dim e r ∧ IsDof nodeIds dim e c := by
  induction es generalizing nz with
  | nil => simp only [collectNonzeros, Option.some.injEq] at h; subst h; exact ⟨hs, by simp, by simp⟩
  | cons e es ih =>
    simp only [collectNonzeros] at h
    obtain ⟨ds, hds, h⟩ := Option.bind_eq_some_iff.mp h
    split at h
    · rename_i hall
      obtain ⟨h1, h2, h3⟩ := ih (insertElement ds nz) (insertElement_sorted ds nz hs) h
      refine ⟨h1, ?_, ?_⟩
      · intro e' he' i hi
        rcases List.mem_cons.mp he' with rfl | he'
        · have := (elementDofs_mem hds i).mpr hi
          have := List.all_eq_true.mp hall i this
          simpa using this
        · exact h2 e' he' i hi
      · intro r c
        rw [h3, mem_insertElement, elementDofs_mem hds, elementDofs_mem hds]
        simp only [List.mem_cons, exists_eq_or_imp]
        tauto
    · simp at h

theorem collectNonzeros_isSome (nodeIds : List ℕ) (dim : ℕ) (es : List (List ℕ)) (nz : ℕ → List ℕ)
    (h : ∀ e ∈ es, ∀ n ∈ e, ∃ g, nodeIds[n]? = some g ∧ g < nodeIds.length) :
    ∃ nz', collectNonzeros nodeIds dim es nz = some nz' := by
  induction es generalizing nz with
  | nil => exact ⟨nz, rfl⟩
  | cons e es ih =>
    obtain ⟨ds, hds⟩ := elementDofs_isSome (nodeIds := nodeIds) (dim := dim) (e := e)
      (fun n hn => by
        obtain ⟨g, hg, _⟩ := h e List.mem_cons_self n hn
        exact (List.getElem?_eq_some_iff.mp hg).1)
    obtain ⟨nz', hnz⟩ := ih (insertElement ds nz) (fun e' he' => h e' (List.mem_cons_of_mem _ he'))
    refine ⟨nz', ?_⟩
    simp only [collectNonzeros, hds, Option.bind_some]
    rw [if_pos, hnz]
    rw [List.all_eq_true]
    intro i hi
    obtain ⟨n, hn, g, hg, k, hk, rfl⟩ := (elementDofs_mem hds i).mp hi
    obtain ⟨g', hg', hlt⟩ := h e List.mem_cons_self n hn
    rw [hg] at hg'; cases hg'
    have : (g + 1) * dim ≤ nodeIds.length * dim := Nat.mul_le_mul_right dim hlt
    rw [Nat.add_mul, Nat.one_mul] at this
    simp only [decide_eq_true_eq]
    omega

/-! ## C21 -/

/-- **C21 (a)** the structure is determined whenever every node of every element is numbered. -/
theorem nonzeroStructure_defined (nodeIds : List ℕ) (dim : ℕ) (blocks : List Connectivity)
    (h : MeshWellPosed nodeIds blocks) : ∃ pairs, nonzeroStructure nodeIds dim blocks = some pairs := by
  obtain ⟨nz, hnz⟩ := collectNonzeros_isSome nodeIds dim blocks.flatten (fun _ => []) (by
    intro e he n hn
    obtain ⟨b, hb, he⟩ := List.mem_flatten.mp he
    exact h b hb e he n hn)
  exact ⟨_, by unfold nonzeroStructure; rw [hnz]; rfl⟩

/-- **C21 (b)** the pairs are listed in strictly increasing row-major order, and `(i,j)` is listed exactly
when the degrees of freedom `i` and `j` share an element. -/
theorem nonzeroStructure_spec {nodeIds : List ℕ} {dim : ℕ} {blocks : List Connectivity}
    {pairs : List (ℕ × ℕ)} (h : nonzeroStructure nodeIds dim blocks = some pairs) :
    pairs.Pairwise rowMajorLT ∧
    (∀ i j, (i, j) ∈ pairs ↔ ShareElement nodeIds dim blocks i j) ∧
    (∀ i j, (i, j) ∈ pairs → i < nodeIds.length * dim ∧ j < nodeIds.length * dim) := by
  unfold nonzeroStructure at h
  obtain ⟨nz, hnz, rfl⟩ := Option.map_eq_some_iff.mp h
  obtain ⟨h1, h2, h3⟩ := collectNonzeros_spec nodeIds dim _ _ _ (by simp) hnz
  have hshare : ∀ i j, j ∈ nz i ↔ ShareElement nodeIds dim blocks i j := by
    intro i j
    rw [h3]
    simp only [List.not_mem_nil, false_or, List.mem_flatten, ShareElement]
    constructor
    · rintro ⟨e, ⟨b, hb, he⟩, r⟩; exact ⟨b, hb, e, he, r⟩
    · rintro ⟨b, hb, e, he, r⟩; exact ⟨e, ⟨b, hb, he⟩, r⟩
  have hlt : ∀ i j, ShareElement nodeIds dim blocks i j →
      i < nodeIds.length * dim ∧ j < nodeIds.length * dim := by
    rintro i j ⟨b, hb, e, he, r1, r2⟩
    have he' : e ∈ blocks.flatten := List.mem_flatten.mpr ⟨b, hb, he⟩
    exact ⟨h2 e he' i r1, h2 e he' j r2⟩
  have hmem : ∀ i j, (i, j) ∈ ((List.range (nodeIds.length * dim)).flatMap fun r =>
      (nz r).map fun c => (r, c)) ↔ ShareElement nodeIds dim blocks i j := by
    intro i j
    simp only [List.mem_flatMap, List.mem_range, List.mem_map, Prod.mk.injEq]
    constructor
    · rintro ⟨r, hr, c, hc, rfl, rfl⟩; exact (hshare _ _).mp hc
    · intro hs; exact ⟨i, (hlt i j hs).1, j, (hshare i j).mpr hs, rfl, rfl⟩
  refine ⟨?_, hmem, fun i j hm => hlt i j ((hmem i j).mp hm)⟩
  rw [List.pairwise_flatMap]
  constructor
  · intro r _
    rw [List.pairwise_map]
    exact (h1 r).imp fun h => Or.inr ⟨rfl, h⟩
  · refine List.pairwise_lt_range.imp ?_
    intro a b hab x hx y hy
    obtain ⟨c, _, rfl⟩ := List.mem_map.mp hx
    obtain ⟨c', _, rfl⟩ := List.mem_map.mp hy
    exact Or.inl hab

/-- **C21 (c)** the structure is symmetric, and contains the diagonal of every row it touches. -/
theorem nonzeroStructure_symmetric {nodeIds : List ℕ} {dim : ℕ} {blocks : List Connectivity}
    {pairs : List (ℕ × ℕ)} (h : nonzeroStructure nodeIds dim blocks = some pairs) {i j : ℕ}
    (hm : (i, j) ∈ pairs) : (j, i) ∈ pairs ∧ (i, i) ∈ pairs := by
  obtain ⟨_, h2, _⟩ := nonzeroStructure_spec h
  rw [h2] at hm
  obtain ⟨b, hb, e, he, r1, r2⟩ := hm
  exact ⟨(h2 _ _).mpr ⟨b, hb, e, he, r2, r1⟩, (h2 _ _).mpr ⟨b, hb, e, he, r1, r1⟩⟩

/-- Every linear-system number belongs to a node of some element. -/
def EveryIdUsed (nodeIds : List ℕ) (blocks : List Connectivity) : Prop :=
  ∀ g < nodeIds.length, ∃ block ∈ blocks, ∃ e ∈ block, ∃ n ∈ e, nodeIds[n]? = some g

/-- **C21 (d)** if moreover every number is used, the structure is one `AllocateNonzeros`/`operator()`
support (no empty row), the matrix has `num_nodes * dim` rows and the full diagonal. -/
theorem nonzeroStructure_admissible {nodeIds : List ℕ} {dim : ℕ} {blocks : List Connectivity}
    {pairs : List (ℕ × ℕ)} (h : nonzeroStructure nodeIds dim blocks = some pairs)
    (hu : EveryIdUsed nodeIds blocks) (hn : nodeIds ≠ []) (hd : 0 < dim) :
    Admissible pairs ∧ (∀ i < nodeIds.length * dim, (i, i) ∈ pairs) ∧
      ∀ A : Crs K, HasPattern A pairs → A.numRows = nodeIds.length * dim := by
  obtain ⟨h1, h2, h3⟩ := nonzeroStructure_spec h
  have hdiag : ∀ i < nodeIds.length * dim, (i, i) ∈ pairs := by
    intro i hi
    have hg : i / dim < nodeIds.length := by
      rw [Nat.div_lt_iff_lt_mul hd]; exact hi
    obtain ⟨b, hb, e, he, n, hn', hg'⟩ := hu _ hg
    have : IsDof nodeIds dim e i := ⟨n, hn', _, hg', i % dim, Nat.mod_lt _ hd, by
      rw [Nat.mul_comm]; exact (Nat.div_add_mod i dim).symm⟩
    exact (h2 _ _).mpr ⟨b, hb, e, he, this, this⟩
  refine ⟨⟨h1, ?_⟩, hdiag, ?_⟩
  · rintro ⟨i, j⟩ hp r hr
    have := (h3 i j hp).1
    exact ⟨r, hdiag r (by simp only at hr; omega)⟩
  · intro A hA
    have hpos : 0 < nodeIds.length * dim := Nat.mul_pos (List.length_pos_of_ne_nil hn) hd
    rw [hA.numRows_eq]
    have hlast := hdiag (nodeIds.length * dim - 1) (by omega)
    have ha : nodeIds.length * dim - 1 ≤ maxRow (pairs.map Prod.fst) :=
      le_maxRow (List.mem_map.mpr ⟨_, hlast, rfl⟩)
    have hb : maxRow (pairs.map Prod.fst) ∈ pairs.map Prod.fst :=
      maxRow_mem (by simpa using List.ne_nil_of_mem hlast)
    obtain ⟨⟨i, j⟩, hp, he⟩ := List.mem_map.mp hb
    have hi := (h3 i j hp).1
    simp only at he
    omega

/-! ## C64: assembly -/

/-- What element `(e, t)` contributes to entry `(a,b)` of the assembled matrix: the sum of the entries of
its tangent whose row is `a` and whose column is `b` in the linear system. -/
def contribution (nodeIds : List ℕ) (dim : ℕ) (e : List ℕ) (t : ℕ → ℕ → K) (a b : ℕ) : K :=
  ∑ r ∈ Finset.range e.length, ∑ c ∈ Finset.range e.length,
    ∑ i ∈ Finset.range dim, ∑ j ∈ Finset.range dim,
      if nodeIds.getD (e.getD r 0) 0 * dim + i = a ∧ nodeIds.getD (e.getD c 0) 0 * dim + j = b
      then t (r * dim + i) (c * dim + j) else 0

theorem sum_map_range {M : Type*} [AddCommMonoid M] (n : ℕ) (f : ℕ → M) :
    ((List.range n).map f).sum = ∑ i ∈ Finset.range n, f i := by
  induction n with
  | zero => simp
  | succ n ih => rw [List.range_succ (n := n), List.map_append, List.sum_append, ih,
      Finset.sum_range_succ]; simp

theorem sum_map_zipIdx {M : Type*} [AddCommMonoid M] (l : List ℕ) (f : ℕ × ℕ → M) :
    (l.zipIdx.map f).sum = ∑ r ∈ Finset.range l.length, f (l.getD r 0, r) := by
  rw [← sum_map_range]
  congr 1
  apply List.ext_getElem
  · simp
  · intro r h1 h2
    have h1' : r < l.length := by simpa using h1
    simp [List.getD_eq_getElem?_getD, h1']

theorem sum_flatMap' {A M : Type*} [AddCommMonoid M] (l : List A) (f : A → List M) :
    (l.flatMap f).sum = (l.map fun a => (f a).sum).sum := by
  induction l with
  | nil => simp
  | cons a l ih => simp [List.flatMap_cons, ih]

theorem addEntries_spec {pairs : List (ℕ × ℕ)} (hA : Admissible pairs) (L : List (ℕ × ℕ × K))
    (hL : ∀ x ∈ L, (x.1, x.2.1) ∈ pairs) {A : Crs K} (h : HasPattern A pairs) :
    ∃ B, L.foldl (fun (A : Option (Crs K)) x => A.bind fun A => A.addEntry x.1 x.2.1 x.2.2) (some A)
        = some B ∧ HasPattern B pairs ∧
      ∀ a b, B.at? a b = (A.at? a b).map
        (· + (L.map fun x => if x.1 = a ∧ x.2.1 = b then x.2.2 else 0).sum) := by
  induction L generalizing A with
  | nil => exact ⟨A, rfl, h, by simp⟩
  | cons x L ih =>
    obtain ⟨B, h1, h2, h3⟩ := addEntry_spec hA h x.2.2 (hL x List.mem_cons_self)
    obtain ⟨D, g1, g2, g3⟩ := ih (fun y hy => hL y (List.mem_cons_of_mem _ hy)) h2
    refine ⟨D, ?_, g2, ?_⟩
    · simp only [List.foldl_cons, Option.bind_some, h1]; exact g1
    · intro a b
      rw [g3, h3]
      simp only [List.map_cons, List.sum_cons]
      by_cases e : (a, b) = (x.1, x.2.1)
      · obtain ⟨e1, e2⟩ := Prod.mk.inj e
        rw [if_pos e, Option.map_map, if_pos ⟨e1.symm, e2.symm⟩]
        congr 1
        funext y
        simp only [Function.comp]; ring
      · rw [if_neg e, if_neg (by rintro ⟨e1, e2⟩; exact e (by rw [e1, e2])), zero_add]

/-- All `(row, column, value)` triples of an element, in the order of the source loops. -/
def elementEntries (dim : ℕ) (gs : List ℕ) (t : ℕ → ℕ → K) : List (ℕ × ℕ × K) :=
  gs.zipIdx.flatMap fun rg => gs.zipIdx.flatMap fun cg =>
    (List.range dim).flatMap fun i => (List.range dim).map fun j =>
      (rg.1 * dim + i, cg.1 * dim + j, t (rg.2 * dim + i) (cg.2 * dim + j))

theorem scatterElement_eq (nodeIds : List ℕ) (dim : ℕ) (e : List ℕ) (t : ℕ → ℕ → K) (A : Crs K) :
    scatterElement nodeIds dim e t A = (e.mapM fun n => nodeIds[n]?).bind fun gs =>
      (elementEntries dim gs t).foldl
        (fun (A : Option (Crs K)) x => A.bind fun A => A.addEntry x.1 x.2.1 x.2.2) (some A) := by
  unfold scatterElement elementEntries
  congr 1
  funext gs
  simp only [List.foldl_flatMap, List.foldl_map]

theorem scatterElement_spec {pairs : List (ℕ × ℕ)} (hA : Admissible pairs) (nodeIds : List ℕ) (dim : ℕ)
    (e : List ℕ) (t : ℕ → ℕ → K) (he : ∀ n ∈ e, n < nodeIds.length)
    (hp : ∀ i j, IsDof nodeIds dim e i → IsDof nodeIds dim e j → (i, j) ∈ pairs)
    {A : Crs K} (h : HasPattern A pairs) :
    ∃ B, scatterElement nodeIds dim e t A = some B ∧ HasPattern B pairs ∧
      ∀ a b, B.at? a b = (A.at? a b).map (· + contribution nodeIds dim e t a b) := by
  obtain ⟨gs, hgs⟩ := (mapM_getElem? nodeIds e).mpr he
  have hge := mapM_getElem?_eq hgs
  have hzip : ∀ x ∈ gs.zipIdx, ∃ n ∈ e, nodeIds[n]? = some x.1 := by
    intro x hx
    have : x.1 ∈ gs := by
      have := List.mem_zipIdx' hx
      exact List.mem_of_getElem? (by rw [List.getElem?_eq_getElem this.1, ← this.2])
    rw [hge] at this
    obtain ⟨n, hn, hx⟩ := List.mem_map.mp this
    exact ⟨n, hn, by rw [← hx]; simp [List.getD_eq_getElem?_getD, he n hn]⟩
  obtain ⟨B, h1, h2, h3⟩ := addEntries_spec hA (elementEntries dim gs t) (by
    intro x hx
    simp only [elementEntries, List.mem_flatMap, List.mem_map, List.mem_range] at hx
    obtain ⟨rg, hr, cg, hc, i, hi, j, hj, rfl⟩ := hx
    obtain ⟨n, hn, hn'⟩ := hzip rg hr
    obtain ⟨m, hm, hm'⟩ := hzip cg hc
    exact hp _ _ ⟨n, hn, _, hn', i, hi, rfl⟩ ⟨m, hm, _, hm', j, hj, rfl⟩) h
  refine ⟨B, by rw [scatterElement_eq, hgs]; exact h1, h2, ?_⟩
  intro a b
  rw [h3]
  congr 1
  funext y
  congr 1
  unfold elementEntries contribution
  simp only [List.map_flatMap, sum_flatMap', List.map_map, Function.comp_def, sum_map_zipIdx,
    sum_map_range]
  have hl : gs.length = e.length := by rw [hge]; simp
  rw [hl]
  have hgd : ∀ r ∈ Finset.range e.length, gs.getD r 0 = nodeIds.getD (e.getD r 0) 0 := by
    intro r hr
    have hr' := Finset.mem_range.mp hr
    rw [hge]
    simp [List.getD_eq_getElem?_getD, hr']
  refine Finset.sum_congr rfl fun r hr => Finset.sum_congr rfl fun c hc => ?_
  rw [hgd r hr, hgd c hc]

/-- **C64** with the sparsity structure computed for the mesh, assembling the element tangents never
fails, and every entry grows by exactly the sum of the contributions of all elements. -/
theorem assembleTangent_spec {nodeIds : List ℕ} {dim : ℕ} {blocks : List Connectivity}
    {pairs : List (ℕ × ℕ)} (hs : nonzeroStructure nodeIds dim blocks = some pairs)
    (hu : EveryIdUsed nodeIds blocks) (hn : nodeIds ≠ []) (hd : 0 < dim)
    (hm : MeshWellPosed nodeIds blocks)
    (elems : List (List ℕ × (ℕ → ℕ → K))) (hel : ∀ x ∈ elems, ∃ b ∈ blocks, x.1 ∈ b)
    {A : Crs K} (h : HasPattern A pairs) :
    ∃ B, assembleTangent nodeIds dim elems A = some B ∧ HasPattern B pairs ∧
      ∀ a b, B.at? a b =
        (A.at? a b).map (· + (elems.map fun x => contribution nodeIds dim x.1 x.2 a b).sum) := by
  obtain ⟨hadm, _, _⟩ := nonzeroStructure_admissible (K := K) hs hu hn hd
  obtain ⟨_, hshare, _⟩ := nonzeroStructure_spec hs
  induction elems generalizing A with
  | nil => exact ⟨A, rfl, h, by simp⟩
  | cons x xs ih =>
    obtain ⟨e, t⟩ := x
    obtain ⟨bl, hb, he⟩ := hel (e, t) List.mem_cons_self
    obtain ⟨B, h1, h2, h3⟩ := scatterElement_spec hadm nodeIds dim e t
      (fun n hn => by obtain ⟨g, hg, _⟩ := hm bl hb e he n hn; exact (List.getElem?_eq_some_iff.mp hg).1)
      (fun i j hi hj => (hshare i j).mpr ⟨bl, hb, e, he, hi, hj⟩) h
    obtain ⟨D, g1, g2, g3⟩ := ih (fun y hy => hel y (List.mem_cons_of_mem _ hy)) h2
    refine ⟨D, ?_, g2, ?_⟩
    · simp only [assembleTangent, h1, Option.bind_some, g1]
    · intro a b
      rw [g3, h3, Option.map_map]
      congr 1
      funext y
      simp only [Function.comp, List.map_cons, List.sum_cons]; ring

/-- The assembled matrix does not depend on the order in which the elements are visited. -/
theorem assembleTangent_order {nodeIds : List ℕ} {dim : ℕ} {blocks : List Connectivity}
    {pairs : List (ℕ × ℕ)} (hs : nonzeroStructure nodeIds dim blocks = some pairs)
    (hu : EveryIdUsed nodeIds blocks) (hn : nodeIds ≠ []) (hd : 0 < dim)
    (hm : MeshWellPosed nodeIds blocks)
    {elems elems' : List (List ℕ × (ℕ → ℕ → K))} (hel : ∀ x ∈ elems, ∃ b ∈ blocks, x.1 ∈ b)
    (hperm : elems.Perm elems') {A : Crs K} (h : HasPattern A pairs) :
    ∃ B B', assembleTangent nodeIds dim elems A = some B ∧ assembleTangent nodeIds dim elems' A = some B' ∧
      ∀ a b, B.at? a b = B'.at? a b := by
  obtain ⟨B, h1, _, h3⟩ := assembleTangent_spec hs hu hn hd hm elems hel h
  obtain ⟨B', g1, _, g3⟩ := assembleTangent_spec hs hu hn hd hm elems'
    (fun x hx => hel x (hperm.mem_iff.mpr hx)) h
  refine ⟨B, B', h1, g1, fun a b => ?_⟩
  rw [h3, g3, (hperm.map _).sum_eq]

/-! ### Concrete case: two bar elements on three nodes, numbered 2, 0, 1 -/

/-- Elements (0,1) and (1,2) in two blocks. -/
def exBlocks : List Connectivity := [[[0, 1]], [[1, 2]]]

example : nonzeroStructure [2, 0, 1] 1 exBlocks
    = some [(0, 0), (0, 1), (0, 2), (1, 0), (1, 1), (2, 0), (2, 2)] := by decide

example : MeshWellPosed [2, 0, 1] exBlocks ∧ EveryIdUsed [2, 0, 1] exBlocks := by
  unfold MeshWellPosed EveryIdUsed exBlocks
  constructor
  · intro b hb e he n hn
    simp only [List.mem_cons, List.not_mem_nil, or_false] at hb
    rcases hb with rfl | rfl <;> simp only [List.mem_cons, List.not_mem_nil, or_false] at he <;>
      subst he <;> simp only [List.mem_cons, List.not_mem_nil, or_false] at hn <;>
      rcases hn with rfl | rfl <;> simp
  · intro g hg
    have : g = 0 ∨ g = 1 ∨ g = 2 := by simp at hg; omega
    rcases this with rfl | rfl | rfl
    · exact ⟨[[0, 1]], by simp, [0, 1], by simp, 1, by simp, rfl⟩
    · exact ⟨[[1, 2]], by simp, [1, 2], by simp, 2, by simp, rfl⟩
    · exact ⟨[[0, 1]], by simp, [0, 1], by simp, 0, by simp, rfl⟩

/-- Finding: a node that belongs to no element leaves an empty row, and then the structure is not one the
matrix container supports — assembling the entry `(0,0)`, which *is* listed, throws. -/
theorem unattached_node_breaks_assembly :
    ∃ pairs, nonzeroStructure [0, 1, 2] 1 [[[0, 2]]] = some pairs ∧
      assembleTangent [0, 1, 2] 1 [([0, 2], fun _ _ => (1 : ℚ))] (allocated Crs.empty pairs) = none := by
  refine ⟨[(0, 0), (0, 2), (2, 0), (2, 2)], by decide, by decide +kernel⟩

end NimbleSM.Solver
