import Verif.Contact.Visualization
import Verif.Contact.IdProps
import Verif.Mesh.ExodusStepsProps
import Mathlib.Tactic.Ring
import Mathlib.Tactic.Linarith

/-!
# C108: the contact visualization shows the contact entities; C109: the contact report
-/

namespace NimbleSM.Contact

open NimbleSM.Genesis (Mesh)
open NimbleSM.ExodusOut
open NimbleSM.Fields (Str)

variable {K : Type}

/-! ## Specification -/

/-- The points of the visualization in their order: three vertices per face, then the nodes; with the contact
status of their entity. -/
def visPoints (faces nodes : List (Entity K)) : List ((Fin 3 → K) × Bool) :=
  (faces.flatMap fun f => [(f.coord1, f.status), (f.coord2, f.status), (f.coord3, f.status)]) ++
    nodes.map fun n => (n.coord1, n.status)

theorem visPoints_length (faces nodes : List (Entity K)) :
    (visPoints faces nodes).length = 3 * faces.length + nodes.length := by
  unfold visPoints
  rw [List.length_append, List.length_map]
  congr 1
  induction faces with
  | nil => rfl
  | cons f fs ih => simp only [List.flatMap_cons, List.length_append, List.length_cons, List.length_nil, ih]; ring

/-- Point `3 i + k` is vertex `k` of face `i`. -/
theorem visPoints_face {faces : List (Entity K)} (nodes : List (Entity K)) {i : ℕ} {f : Entity K}
    (h : faces[i]? = some f) :
    (visPoints faces nodes)[3 * i]? = some (f.coord1, f.status) ∧
    (visPoints faces nodes)[3 * i + 1]? = some (f.coord2, f.status) ∧
    (visPoints faces nodes)[3 * i + 2]? = some (f.coord3, f.status) := by
  unfold visPoints
  induction faces generalizing i with
  | nil => simp at h
  | cons g fs ih =>
    cases i with
    | zero =>
      obtain rfl : g = f := by simpa using h
      simp
    | succ i =>
      obtain ⟨h0, h1, h2⟩ := ih (by simpa using h)
      have e : ∀ j, ((g :: fs).flatMap (fun f => [(f.coord1, f.status), (f.coord2, f.status), (f.coord3, f.status)]) ++
          nodes.map fun n => (n.coord1, n.status))[3 * (i + 1) + j]? =
          (fs.flatMap (fun f => [(f.coord1, f.status), (f.coord2, f.status), (f.coord3, f.status)]) ++
          nodes.map fun n => (n.coord1, n.status))[3 * i + j]? := by
        intro j
        rw [List.flatMap_cons, List.append_assoc, List.getElem?_append_right (by simp; omega)]
        congr 1
        simp only [List.length_cons, List.length_nil]
        omega
      exact ⟨(e 0).trans h0, (e 1).trans h1, (e 2).trans h2⟩

/-- Point `3 nf + i` is node `i`. -/
theorem visPoints_node (faces : List (Entity K)) {nodes : List (Entity K)} {i : ℕ} {n : Entity K}
    (h : nodes[i]? = some n) : (visPoints faces nodes)[3 * faces.length + i]? = some (n.coord1, n.status) := by
  have hl : (faces.flatMap fun f => [(f.coord1, f.status), (f.coord2, f.status), (f.coord3, f.status)]).length =
      3 * faces.length := by
    have := visPoints_length faces []
    simpa [visPoints] using this
  unfold visPoints
  rw [List.getElem?_append_right (by omega), hl]
  simp [h]

/-! ## The mesh -/

theorem foldl_visFace (m : ℤ) (faces : List (Entity K)) (s : VisLists K) :
    faces.foldl (visFace m) s =
      { nodeGid := s.nodeGid ++ faces.flatMap fun f =>
          [int32 (3 * f.gid + m + 9), int32 (3 * f.gid + m + 10), int32 (3 * f.gid + m + 11)]
        x := s.x ++ (visPoints faces []).map fun q => q.1 0
        y := s.y ++ (visPoints faces []).map fun q => q.1 1
        z := s.z ++ (visPoints faces []).map fun q => q.1 2
        elemGid := s.elemGid ++ faces.map fun f => f.gid
        conn := s.conn ++ (List.range (3 * faces.length)).map fun (i : ℕ) => s.nodeIndex + (i : ℤ)
        nodeIndex := s.nodeIndex + 3 * (faces.length : ℤ) } := by
  induction faces generalizing s with
  | nil => simp [visPoints]
  | cons f fs ih =>
    rw [List.foldl_cons, ih]
    have hr : List.range (3 * (f :: fs).length) = [0, 1, 2] ++ (List.range (3 * fs.length)).map fun i => 3 + i := by
      rw [List.length_cons, show 3 * (fs.length + 1) = 3 + 3 * fs.length by ring, List.range_add]
      rfl
    unfold visFace VisLists.pushNode VisLists.pushElem visPoints
    rw [hr]
    simp only [List.flatMap_cons, List.map_append, List.map_cons, List.map_nil, List.append_assoc, List.length_cons,
      List.map_map, List.cons_append, List.nil_append, Function.comp_def]
    congr 1
    · congr 2
      · push_cast; ring
      · congr 2
        · push_cast; ring
        · apply List.map_congr_left
          intro i _
          push_cast; ring
    · push_cast; ring

theorem foldl_visNode (nodes : List (Entity K)) (s : VisLists K) :
    nodes.foldl visNode s =
      { nodeGid := s.nodeGid ++ nodes.map fun n => n.gid
        x := s.x ++ nodes.map fun n => n.coord1 0
        y := s.y ++ nodes.map fun n => n.coord1 1
        z := s.z ++ nodes.map fun n => n.coord1 2
        elemGid := s.elemGid ++ nodes.map fun n => n.gid
        conn := s.conn ++ (List.range nodes.length).map fun (i : ℕ) => s.nodeIndex + (i : ℤ)
        nodeIndex := s.nodeIndex + (nodes.length : ℤ) } := by
  induction nodes generalizing s with
  | nil => simp
  | cons n ns ih =>
    rw [List.foldl_cons, ih]
    unfold visNode VisLists.pushNode VisLists.pushElem
    have hr : List.range (n :: ns).length = [0] ++ (List.range ns.length).map fun i => 1 + i := by
      rw [List.length_cons, show ns.length + 1 = 1 + ns.length by ring, List.range_add]
      rfl
    rw [hr]
    simp only [List.map_append, List.map_cons, List.map_nil, List.append_assoc, List.length_cons, List.map_map,
      List.cons_append, List.nil_append, Function.comp_def]
    congr 1
    · congr 2
      · push_cast; ring
      · apply List.map_congr_left
        intro i _
        push_cast; ring
    · push_cast; ring

/-- **C108.**  The mesh of the visualization: the points are the vertices of the faces and the nodes; face `i`
is the triangle of the points `3i, 3i+1, 3i+2` and node `i` the point `3 nf + i`; element ids are entity ids. -/
theorem visMesh_spec (m : ℤ) (faces nodes : List (Entity K)) :
    (visMesh m faces nodes).x = (visPoints faces nodes).map (fun q => q.1 0) ∧
    (visMesh m faces nodes).y = (visPoints faces nodes).map (fun q => q.1 1) ∧
    (visMesh m faces nodes).z = (visPoints faces nodes).map (fun q => q.1 2) ∧
    (visMesh m faces nodes).nodeGid = (faces.flatMap fun f =>
      [int32 (3 * f.gid + m + 9), int32 (3 * f.gid + m + 10), int32 (3 * f.gid + m + 11)]) ++ nodes.map (fun n => n.gid) ∧
    (visMesh m faces nodes).elemGid = faces.map (fun f => f.gid) ++ nodes.map (fun n => n.gid) ∧
    (visMesh m faces nodes).blockIds = [1, 2] ∧ (visMesh m faces nodes).nodesPerElem = [(1, 3), (2, 1)] ∧
    (visMesh m faces nodes).conn = [(1, (List.range (3 * faces.length)).map fun (i : ℕ) => (i : ℤ)),
      (2, (List.range nodes.length).map fun (i : ℕ) => 3 * (faces.length : ℤ) + (i : ℤ))] := by
  unfold visMesh
  dsimp only
  rw [foldl_visFace, foldl_visNode]
  have h : ∀ d, (visPoints faces ([] : List (Entity K))).map (fun q => q.1 d) ++ nodes.map (fun n => n.coord1 d) =
      (visPoints faces nodes).map fun q => q.1 d := by
    intro d
    simp [visPoints, Function.comp_def]
  refine ⟨?_, ?_, ?_, ?_, ?_, rfl, rfl, ?_⟩ <;> simp [h]

/-! ## Ids -/

theorem le_foldl_raiseId (l : List (Entity K)) (m : ℤ) :
    m ≤ l.foldl raiseId m ∧ ∀ e ∈ l, e.gid ≤ l.foldl raiseId m := by
  induction l generalizing m with
  | nil => simp
  | cons e l ih =>
    obtain ⟨h1, h2⟩ := ih (raiseId m e)
    have h3 : m ≤ raiseId m e ∧ e.gid ≤ raiseId m e := by
      unfold raiseId
      split <;> constructor <;> omega
    refine ⟨h3.1.trans h1, fun x hx => ?_⟩
    rcases List.mem_cons.mp hx with rfl | hx
    · exact h3.2.trans h1
    · exact h2 x hx

theorem foldl_max_le (l : List ℤ) (m : ℤ) : m ≤ l.foldl max m ∧ ∀ e ∈ l, e ≤ l.foldl max m := by
  induction l generalizing m with
  | nil => simp
  | cons e l ih =>
    obtain ⟨h1, h2⟩ := ih (max m e)
    refine ⟨(le_max_left _ _).trans h1, fun x hx => ?_⟩
    rcases List.mem_cons.mp hx with rfl | hx
    · exact (le_max_right _ _).trans h1
    · exact h2 x hx

theorem gid_le_globalMax (ranks : List (List (Entity K) × List (Entity K))) :
    ∀ r ∈ ranks, ∀ e ∈ r.1 ++ r.2, e.gid ≤ globalMaxEntityId ranks := by
  intro r hr e he
  have h1 := (foldl_max_le (ranks.map fun r => maxEntityId r.1 r.2) 0).2 _ (List.mem_map_of_mem hr)
  refine le_trans ?_ h1
  unfold maxEntityId
  rcases List.mem_append.mp he with h | h
  · exact ((le_foldl_raiseId r.1 0).2 e h).trans (le_foldl_raiseId r.2 _).1
  · exact (le_foldl_raiseId r.2 _).2 e h

theorem int32_of_lt {x : ℤ} (h0 : 0 ≤ x) (h1 : x < 2 ^ 31) : int32 x = x := by
  unfold int32
  rw [Int.bmod_eq_of_le (by omega) (by omega)]

theorem nodup_triples (l : List ℤ) (m : ℤ) (h : l.Nodup) :
    (l.flatMap fun g => [3 * g + m + 9, 3 * g + m + 10, 3 * g + m + 11]).Nodup := by
  induction l with
  | nil => simp
  | cons g l ih =>
    rw [List.nodup_cons] at h
    rw [List.flatMap_cons, List.nodup_append]
    refine ⟨?_, ih h.2, ?_⟩
    · simp only [List.nodup_cons, List.mem_cons, List.not_mem_nil, List.nodup_nil, or_false, not_or, not_false_eq_true, and_true]
      omega
    · intro a ha b hb hab
      subst hab
      obtain ⟨g', hg', hb⟩ := List.mem_flatMap.mp hb
      have hne : g ≠ g' := fun he => h.1 (he ▸ hg')
      simp only [List.mem_cons, List.not_mem_nil, or_false] at ha hb
      omega

/-- All node ids (element ids) of the visualization files of all ranks. -/
def allNodeIds (ranks : List (List (Entity K) × List (Entity K))) : List ℤ :=
  ranks.flatMap fun r => (visMesh (globalMaxEntityId ranks) r.1 r.2).nodeGid

def allElemIds (ranks : List (List (Entity K) × List (Entity K))) : List ℤ :=
  ranks.flatMap fun r => (visMesh (globalMaxEntityId ranks) r.1 r.2).elemGid

/-- **C108, ids (partial).**  If the entity ids of all ranks are distinct and not negative, and the largest one,
`M`, satisfies `4 M + 11 < 2^31`, then all node ids of all visualization files are distinct and not negative. -/
theorem visualization_node_ids_partial (ranks : List (List (Entity K) × List (Entity K)))
    (hd : (ranks.flatMap fun r => (r.1 ++ r.2).map fun e => e.gid).Nodup)
    (h0 : ∀ r ∈ ranks, ∀ e ∈ r.1 ++ r.2, 0 ≤ e.gid) (hM : 4 * globalMaxEntityId ranks + 11 < 2 ^ 31) :
    (allNodeIds ranks).Nodup ∧ ∀ i ∈ allNodeIds ranks, 0 ≤ i := by
  have hle := gid_le_globalMax ranks
  have hMpos : 0 ≤ globalMaxEntityId ranks := (foldl_max_le _ 0).1
  unfold allNodeIds
  set M := globalMaxEntityId ranks
  -- the ids of one rank
  have hids : ∀ r ∈ ranks, (visMesh M r.1 r.2).nodeGid =
      ((r.1.map fun f => f.gid).flatMap fun g => [3 * g + M + 9, 3 * g + M + 10, 3 * g + M + 11]) ++ r.2.map (fun n => n.gid) := by
    intro r hr
    rw [(visMesh_spec M r.1 r.2).2.2.2.1, List.flatMap_map]
    congr 1
    apply List.flatMap_congr
    intro f hf
    have a := h0 r hr f (by simp [hf])
    have b := hle r hr f (by simp [hf])
    rw [int32_of_lt (by omega) (by omega), int32_of_lt (by omega) (by omega), int32_of_lt (by omega) (by omega)]
  clear_value M
  induction ranks with
  | nil => simp
  | cons r rs ih =>
    rw [List.flatMap_cons, List.nodup_append] at hd
    obtain ⟨hd1, hd2, hd3⟩ := hd
    obtain ⟨i1, i2⟩ := ih hd2 (fun r' hr' => h0 r' (by simp [hr'])) (fun r' hr' => hle r' (by simp [hr']))
      (fun r' hr' => hids r' (by simp [hr']))
    have hr := hids r (by simp)
    rw [List.map_append, List.nodup_append] at hd1
    obtain ⟨f1, f2, f3⟩ := hd1
    have bound : ∀ e ∈ r.1 ++ r.2, 0 ≤ e.gid ∧ e.gid ≤ M := fun e he => ⟨h0 r (by simp) e he, hle r (by simp) e he⟩
    -- membership of an id
    have hmem : ∀ r' ∈ r :: rs, ∀ i ∈ (visMesh M r'.1 r'.2).nodeGid,
        (∃ f ∈ r'.1, i = 3 * f.gid + M + 9 ∨ i = 3 * f.gid + M + 10 ∨ i = 3 * f.gid + M + 11) ∨ ∃ n ∈ r'.2, i = n.gid := by
      intro r' hr' i hi
      rw [hids r' hr'] at hi
      rcases List.mem_append.mp hi with hi | hi
      · left
        obtain ⟨g, hg, hi⟩ := List.mem_flatMap.mp hi
        obtain ⟨f, hf, rfl⟩ := List.mem_map.mp hg
        exact ⟨f, hf, by simpa using hi⟩
      · right
        obtain ⟨n, hn, rfl⟩ := List.mem_map.mp hi
        exact ⟨n, hn, rfl⟩
    rw [List.flatMap_cons, List.nodup_append]
    refine ⟨⟨?_, i1, ?_⟩, ?_⟩
    · rw [hr, List.nodup_append]
      refine ⟨nodup_triples _ M f1, f2, ?_⟩
      intro a ha b hb hab
      obtain ⟨g, hg, ha⟩ := List.mem_flatMap.mp ha
      obtain ⟨f, hf, rfl⟩ := List.mem_map.mp hg
      obtain ⟨n, hn, rfl⟩ := List.mem_map.mp hb
      have := bound f (by simp [hf])
      have := bound n (by simp [hn])
      simp only [List.mem_cons, List.not_mem_nil, or_false] at ha
      omega
    · intro a ha b hb hab
      subst hab
      obtain ⟨r', hr', hb⟩ := List.mem_flatMap.mp hb
      have hne : ∀ e ∈ r.1 ++ r.2, ∀ e' ∈ r'.1 ++ r'.2, e.gid ≠ e'.gid := by
        intro e he e' he'
        exact hd3 e.gid (List.mem_map_of_mem he) e'.gid (List.mem_flatMap.mpr ⟨r', hr', List.mem_map_of_mem he'⟩)
      have b' : ∀ e ∈ r'.1 ++ r'.2, 0 ≤ e.gid ∧ e.gid ≤ M := fun e he =>
        ⟨h0 r' (by simp [hr']) e he, hle r' (by simp [hr']) e he⟩
      rcases hmem r (by simp) a ha with ⟨f, hf, h1⟩ | ⟨n, hn, h1⟩ <;>
        rcases hmem r' (by simp [hr']) a hb with ⟨f', hf', h2⟩ | ⟨n', hn', h2⟩
      · have := hne f (by simp [hf]) f' (by simp [hf']); omega
      · have := bound f (by simp [hf]); have := b' n' (by simp [hn']); omega
      · have := bound n (by simp [hn]); have := b' f' (by simp [hf']); omega
      · have := hne n (by simp [hn]) n' (by simp [hn']); omega
    · intro i hi
      rcases List.mem_append.mp hi with hi | hi
      · rcases hmem r (by simp) i hi with ⟨f, hf, h1⟩ | ⟨n, hn, h1⟩
        · have := bound f (by simp [hf]); omega
        · have := bound n (by simp [hn]); omega
      · exact i2 i hi

/-- **C108.**  Element ids are distinct over all ranks if the entity ids are. -/
theorem visualization_elem_ids (ranks : List (List (Entity K) × List (Entity K)))
    (hd : (ranks.flatMap fun r => (r.1 ++ r.2).map fun e => e.gid).Nodup) : (allElemIds ranks).Nodup := by
  have : allElemIds ranks = ranks.flatMap fun r => (r.1 ++ r.2).map fun e => e.gid := by
    unfold allElemIds
    apply List.flatMap_congr
    intro r _
    rw [(visMesh_spec _ r.1 r.2).2.2.2.2.1, List.map_append]
  rw [this]; exact hd

/-! ## The refutation for large ids -/

/-- A contact face, and a contact node, with an id. -/
def faceWithId (g : ℤ) : Entity ℚ := { (defaultEntity : Entity ℚ) with type := .triangle, numNodes := 3, gid := g }
def nodeWithId (g : ℤ) : Entity ℚ := { (defaultEntity : Entity ℚ) with type := .node, numNodes := 1, gid := g }

/-- C108 for all ids: false.  The face below has the entity id of face 0 of element 1 in a mesh whose largest
node id is `2^25 - 1`; its first point gets the id of the contact node 9, although all entity ids are distinct,
not negative and in the range of `int`. -/
theorem visualization_ids_refuted :
    (faceWithId (entityId (2 ^ 25 - 1) 1 0 0).toInt).gid = 2 ^ 30 ∧
    ¬ (allNodeIds [([faceWithId (entityId (2 ^ 25 - 1) 1 0 0).toInt], [nodeWithId 9])]).Nodup := by
  decide +kernel

/-! ## The steps -/

section
variable [AddGroup K] [One K]

/-- The loops over faces and nodes as one loop over points. -/
def putAll (m : Mesh K) : List ((Fin 3 → K) × Bool) → VisRows K → Option (VisRows K)
  | [], s => some s
  | q :: qs, s => (visPut m q.1 q.2 s).bind (putAll m qs)

theorem putAll_append (m : Mesh K) (a b : List ((Fin 3 → K) × Bool)) (s : VisRows K) :
    putAll m (a ++ b) s = (putAll m a s).bind (putAll m b) := by
  induction a generalizing s with
  | nil => rfl
  | cons q qs ih =>
    rw [List.cons_append, putAll, putAll, Option.bind_assoc]
    congr 1
    funext s'
    exact ih s'

theorem visPutFaces_eq (m : Mesh K) (fs : List (Entity K)) (s : VisRows K) :
    visPutFaces m fs s = putAll m (fs.flatMap fun f => [(f.coord1, f.status), (f.coord2, f.status), (f.coord3, f.status)]) s := by
  induction fs generalizing s with
  | nil => rfl
  | cons f fs ih =>
    rw [List.flatMap_cons, putAll_append, visPutFaces]
    simp only [putAll, Option.bind_eq_bind, Option.bind_assoc, Option.bind_some]
    congr 1; funext s1; congr 1; funext s2; congr 1; funext s3
    exact ih s3

theorem visPutNodes_eq (m : Mesh K) (ns : List (Entity K)) (s : VisRows K) :
    visPutNodes m ns s = putAll m (ns.map fun n => (n.coord1, n.status)) s := by
  induction ns generalizing s with
  | nil => rfl
  | cons n ns ih =>
    rw [List.map_cons, putAll, visPutNodes]
    congr 1; funext s1
    exact ih s1

/-- Values written so far. -/
structure RowsFor (m : Mesh K) (L : ℕ) (pts : List ((Fin 3 → K) × Bool)) (s : VisRows K) : Prop where
  index : s.index = pts.length
  len : s.dx.length = L ∧ s.dy.length = L ∧ s.dz.length = L ∧ s.status.length = L
  val : ∀ (i : ℕ) q X Y Z, pts[i]? = some q → m.x[i]? = some X → m.y[i]? = some Y → m.z[i]? = some Z →
    s.dx[i]? = some (q.1 0 - X) ∧ s.dy[i]? = some (q.1 1 - Y) ∧ s.dz[i]? = some (q.1 2 - Z) ∧
      s.status[i]? = some (boolValue q.2)

theorem putAll_spec (m : Mesh K) (L : ℕ) (hx : m.x.length = L) (hy : m.y.length = L) (hz : m.z.length = L)
    (qs done : List ((Fin 3 → K) × Bool)) (s : VisRows K) (hs : RowsFor m L done s) (hL : done.length + qs.length ≤ L) :
    ∃ s', putAll m qs s = some s' ∧ RowsFor m L (done ++ qs) s' := by
  induction qs generalizing done s with
  | nil => exact ⟨s, rfl, by simpa using hs⟩
  | cons q qs ih =>
    simp only [List.length_cons] at hL
    have hi := hs.index
    obtain ⟨l1, l2, l3, l4⟩ := hs.len
    have ex : m.x[s.index]? = some (m.x[s.index]'(by omega)) := List.getElem?_eq_getElem _
    have ey : m.y[s.index]? = some (m.y[s.index]'(by omega)) := List.getElem?_eq_getElem _
    have ez : m.z[s.index]? = some (m.z[s.index]'(by omega)) := List.getElem?_eq_getElem _
    have e : visPut m q.1 q.2 s = some { index := s.index + 1
                                         dx := s.dx.set s.index (q.1 0 - m.x[s.index]'(by omega))
                                         dy := s.dy.set s.index (q.1 1 - m.y[s.index]'(by omega))
                                         dz := s.dz.set s.index (q.1 2 - m.z[s.index]'(by omega))
                                         status := s.status.set s.index (boolValue q.2) } := by
      unfold visPut
      rw [ex, ey, ez]
      rfl
    rw [putAll, e, Option.bind_some]
    clear e
    obtain ⟨s', h1, h2⟩ := ih (done ++ [q])
      { index := s.index + 1
        dx := s.dx.set s.index (q.1 0 - m.x[s.index]'(by omega))
        dy := s.dy.set s.index (q.1 1 - m.y[s.index]'(by omega))
        dz := s.dz.set s.index (q.1 2 - m.z[s.index]'(by omega))
        status := s.status.set s.index (boolValue q.2) } (by
      refine ⟨by simp [hi], by simp [l1, l2, l3, l4], ?_⟩
      intro i p X Y Z hp hX hY hZ
      dsimp only
      rcases lt_or_ge i done.length with hlt | hge
      · rw [List.getElem?_append_left hlt] at hp
        obtain ⟨v1, v2, v3, v4⟩ := hs.val i p X Y Z hp hX hY hZ
        rw [List.getElem?_set_ne (by omega), List.getElem?_set_ne (by omega), List.getElem?_set_ne (by omega),
          List.getElem?_set_ne (by omega)]
        exact ⟨v1, v2, v3, v4⟩
      · have hieq : i = s.index := by
          have : i < (done ++ [q]).length := (List.getElem?_eq_some_iff.mp hp).1
          simp only [List.length_append, List.length_cons, List.length_nil] at this
          omega
        subst hieq
        rw [List.getElem?_append_right (by omega), hi, Nat.sub_self] at hp
        obtain rfl : q = p := by simpa using hp
        rw [ex] at hX; rw [ey] at hY; rw [ez] at hZ
        obtain rfl := Option.some.inj hX
        obtain rfl := Option.some.inj hY
        obtain rfl := Option.some.inj hZ
        rw [List.getElem?_set_self (by omega), List.getElem?_set_self (by omega), List.getElem?_set_self (by omega),
          List.getElem?_set_self (by omega)]
        exact ⟨rfl, rfl, rfl, rfl⟩) (by simp; omega)
    exact ⟨s', h1, by simpa using h2⟩

theorem numActive_eq (faces : List (Entity K)) : numActive faces = faces.countP fun f => f.status := by
  unfold numActive
  have : ∀ n, faces.foldl (fun n f => n + (if f.status then 1 else 0)) n = n + faces.countP fun f => f.status := by
    induction faces with
    | nil => intro n; rfl
    | cons f fs ih =>
      intro n
      rw [List.foldl_cons, ih, List.countP_cons]
      omega
  rw [this, Nat.zero_add]

/-- The arguments of `WriteStep`. -/
theorem visStep_spec (ofNat : ℕ → K) (M : ℤ) (faces0 nodes0 faces nodes : List (Entity K)) (t : K)
    (hf : faces.length = faces0.length) (hn : nodes.length = nodes0.length) :
    ∃ dx dy dz st a, visStep ofNat (visMesh M faces0 nodes0) t faces nodes = some a ∧ a.time = t ∧
      a.globals = [ofNat (faces.countP fun f => f.status)] ∧ a.node = [dx, dy, dz, st] ∧
      a.names = (fun b => if b = 1 ∨ b = 2 then some [] else none) ∧ a.elem = (fun _ => none) ∧
      a.derivedNames = (fun b => if b = 1 ∨ b = 2 then some [] else none) ∧ a.derived = (fun _ => none) ∧
      (∀ d ∈ [dx, dy, dz, st], d.length = 3 * faces0.length + nodes0.length) ∧
      ∀ (i : ℕ) q0 q, (visPoints faces0 nodes0)[i]? = some q0 → (visPoints faces nodes)[i]? = some q →
        dx[i]? = some (q.1 0 - q0.1 0) ∧ dy[i]? = some (q.1 1 - q0.1 1) ∧ dz[i]? = some (q.1 2 - q0.1 2) ∧
          st[i]? = some (boolValue q.2) := by
  obtain ⟨mx, my, mz, -⟩ := visMesh_spec M faces0 nodes0
  have hL : (visPoints faces0 nodes0).length = 3 * faces0.length + nodes0.length := visPoints_length _ _
  set L := 3 * faces0.length + nodes0.length with hLdef
  have hx : (visMesh M faces0 nodes0).x.length = L := by rw [mx, List.length_map, hL]
  have hy : (visMesh M faces0 nodes0).y.length = L := by rw [my, List.length_map, hL]
  have hz : (visMesh M faces0 nodes0).z.length = L := by rw [mz, List.length_map, hL]
  obtain ⟨s, h1, h2⟩ := putAll_spec (visMesh M faces0 nodes0) L hx hy hz (visPoints faces nodes) []
    ⟨0, List.replicate L 0, List.replicate L 0, List.replicate L 0, List.replicate L 0⟩
    ⟨rfl, by simp, by simp⟩ (by rw [visPoints_length]; simp only [List.length_nil]; omega)
  have e : visStep ofNat (visMesh M faces0 nodes0) t faces nodes = some
      { time := t
        globals := [ofNat (numActive faces)]
        node := [s.dx, s.dy, s.dz, s.status]
        names := fun b => if b = 1 ∨ b = 2 then some [] else none
        elem := fun _ => none
        derivedNames := fun b => if b = 1 ∨ b = 2 then some [] else none
        derived := fun _ => none } := by
    unfold visStep
    dsimp only
    rw [hx, visPutFaces_eq]
    unfold visPoints at h1
    rw [putAll_append] at h1
    obtain ⟨s1, e1, e2⟩ := Option.bind_eq_some_iff.mp h1
    rw [e1]
    simp only [Option.bind_eq_bind, Option.bind_some]
    rw [visPutNodes_eq, e2]
    rfl
  obtain ⟨l1, l2, l3, l4⟩ := h2.len
  refine ⟨s.dx, s.dy, s.dz, s.status, _, e, rfl, by rw [numActive_eq], rfl, rfl, rfl, rfl, rfl, ?_, ?_⟩
  · intro d hd
    simp only [List.mem_cons, List.not_mem_nil, or_false] at hd
    rcases hd with rfl | rfl | rfl | rfl <;> assumption
  · intro i q0 q h0 hq
    exact h2.val i q _ _ _ (by simpa using hq) (by rw [mx, List.getElem?_map, h0]; rfl)
      (by rw [my, List.getElem?_map, h0]; rfl) (by rw [mz, List.getElem?_map, h0]; rfl)

/-- The declared variables. -/
theorem visInit_defined (M : ℤ) (faces nodes : List (Entity K)) (numElem : ℤ → ℕ) :
    ∃ out, visInit (visMesh M faces nodes) numElem = some out ∧ out.blockIds = [1, 2] ∧
      out.numNodes = 3 * faces.length + nodes.length ∧ out.db.globalNames = ["num_contacts".toList] ∧
      (0 < out.numNodes → out.db.nodeNames.length = 4) := by
  have hx : (visMesh M faces nodes).x.length = 3 * faces.length + nodes.length := by
    rw [(visMesh_spec M faces nodes).1, List.length_map, visPoints_length]
  unfold visInit
  rw [hx]
  set L := 3 * faces.length + nodes.length
  have c1 : copyNames ["num_contacts".toList] = some ["num_contacts".toList] := by decide +kernel
  have c2 : copyNames ["displacement_x".toList, "displacement_y".toList, "displacement_z".toList,
      "contact_status".toList] = some ["displacement_x".toList, "displacement_y".toList, "displacement_z".toList,
      "contact_status".toList] := by decide +kernel
  obtain ⟨nn, hn, hnl⟩ : ∃ nn, declareNodes L ["displacement_x".toList, "displacement_y".toList, "displacement_z".toList,
      "contact_status".toList] = some nn ∧ (0 < L → nn.length = 4) := by
    unfold declareNodes
    by_cases h : 0 < L
    · rw [if_pos ⟨by simp, h⟩]; exact ⟨_, c2, fun _ => rfl⟩
    · rw [if_neg (fun hc => h hc.2)]; exact ⟨_, rfl, fun hc => absurd hc h⟩
  have hu : uniqueNames (fun b : ℤ => if b = 1 ∨ b = 2 then some [] else none)
      (fun b : ℤ => if b = 1 ∨ b = 2 then some [] else none) [1, 2] [] = some [] := by decide +kernel
  refine ⟨{ numNodes := L, blockIds := [1, 2], numElem := numElem, index := indexNames 0 [] (fun _ => none), count := 0,
            db := { globalNames := ["num_contacts".toList], nodeNames := nn, elemNames := [] } }, ?_, rfl, rfl, rfl, hnl⟩
  unfold initVariables
  dsimp only
  rw [c1, hn, show (visMesh M faces nodes).blockIds = [1, 2] from rfl, hu]
  rfl

theorem visStep_writable (out : Out K) (a : StepArgs K) (hb : out.blockIds = [1, 2]) (hg : out.db.globalNames.length = 1)
    (hnn : 0 < out.numNodes → out.db.nodeNames.length = 4) (ag : a.globals.length = 1) (an : a.node.length = 4)
    (al : ∀ d ∈ a.node, out.numNodes ≤ d.length) (h1 : a.names = (fun b => if b = 1 ∨ b = 2 then some [] else none))
    (h2 : a.derivedNames = (fun b => if b = 1 ∨ b = 2 then some [] else none)) :
    ∃ out', writeStep out a = some out' ∧ out'.blockIds = out.blockIds ∧ out'.numNodes = out.numNodes ∧
      out'.db.globalNames = out.db.globalNames ∧ out'.db.nodeNames = out.db.nodeNames := by
  obtain ⟨db1, e1, n1, g1⟩ : ∃ db1, putGlobals (out.count + 1) a out.db = some db1 ∧
      db1.nodeNames = out.db.nodeNames ∧ db1.globalNames = out.db.globalNames := by
    unfold putGlobals
    dsimp only
    rw [if_pos (by omega), if_pos (by omega)]
    exact ⟨_, rfl, rfl, rfl⟩
  obtain ⟨db2, e2, n2, g2⟩ : ∃ db2, putAllNodes out.numNodes (out.count + 1) a.node db1 = some db2 ∧
      db2.nodeNames = db1.nodeNames ∧ db2.globalNames = db1.globalNames := by
    unfold putAllNodes
    split
    next hp =>
      obtain ⟨db2, e⟩ := putNodes_defined out.numNodes (out.count + 1) 0 a.node db1 (by rw [n1, hnn hp]; omega) al
      refine ⟨db2, e, ?_⟩
      clear e1
      revert e
      generalize (0 : ℕ) = i
      generalize a.node = ds
      induction ds generalizing i db1 with
      | nil => intro e; obtain rfl := Option.some.inj e; exact ⟨rfl, rfl⟩
      | cons d ds ih =>
        intro e
        rw [putNodes] at e
        split at e
        · exact ih (db1.putNode (out.count + 1) (i + 1) (d.take out.numNodes)) n1 g1 _ e
        · exact absurd e (by simp)
    next => exact ⟨db1, rfl, rfl, rfl⟩
  have e3 : putBlocks out (out.count + 1) a [1, 2] db2 = some db2 := by
    simp [putBlocks, h1, h2, arraysAt, putElems]
  refine ⟨{ out with count := out.count + 1, db := db2 }, ?_, rfl, rfl, ?_, ?_⟩
  · unfold writeStep
    simp only [Option.bind_eq_bind, e1, Option.bind_some, e2, hb, e3]
    rfl
  · exact g2.trans g1
  · exact n2.trans n1

/-- **C108.**  For every history of steps the visualization can be written, and a reader of the file finds at
every step: the number of contact faces in contact, and at every point (vertex of a face, or node) the displacement
that takes its position at initialization to its position at that step, and the contact status of its entity. -/
theorem visualization_shows_contact (ofNat : ℕ → K) (M : ℤ) (faces0 nodes0 : List (Entity K)) (numElem : ℤ → ℕ)
    (steps : List (K × List (Entity K) × List (Entity K)))
    (hlen : ∀ s ∈ steps, s.2.1.length = faces0.length ∧ s.2.2.length = nodes0.length) :
    ∃ out, visHistory ofNat M faces0 nodes0 numElem steps = some out ∧
      ∀ (k : ℕ) t faces nodes, steps[k]? = some (t, faces, nodes) →
        out.db.times (k + 1) = some t ∧
        out.db.globals (k + 1) = some [ofNat (faces.countP fun f => f.status)] ∧
        (0 < 3 * faces0.length + nodes0.length → ∃ dx dy dz st,
          readNode out.db "displacement_x".toList (k + 1) = some dx ∧
          readNode out.db "displacement_y".toList (k + 1) = some dy ∧
          readNode out.db "displacement_z".toList (k + 1) = some dz ∧
          readNode out.db "contact_status".toList (k + 1) = some st ∧
          ∀ (i : ℕ) q0 q, (visPoints faces0 nodes0)[i]? = some q0 → (visPoints faces nodes)[i]? = some q →
            dx[i]? = some (q.1 0 - q0.1 0) ∧ dy[i]? = some (q.1 1 - q0.1 1) ∧ dz[i]? = some (q.1 2 - q0.1 2) ∧
              st[i]? = some (boolValue q.2)) := by
  obtain ⟨out0, i1, i2, i3, i4, i5⟩ := visInit_defined M faces0 nodes0 numElem
  have hcalls : ∃ calls, (steps.mapM fun s => visStep ofNat (visMesh M faces0 nodes0) s.1 s.2.1 s.2.2) = some calls ∧
      calls.length = steps.length ∧ ∀ (k : ℕ) s, steps[k]? = some s →
        ∃ a, calls[k]? = some a ∧ visStep ofNat (visMesh M faces0 nodes0) s.1 s.2.1 s.2.2 = some a := by
    clear i1
    induction steps with
    | nil => exact ⟨[], rfl, rfl, by simp⟩
    | cons s ss ih =>
      obtain ⟨calls, h1, h2, h3⟩ := ih (fun x hx => hlen x (by simp [hx]))
      obtain ⟨-, -, -, -, a, ha, -⟩ := visStep_spec ofNat M faces0 nodes0 s.2.1 s.2.2 s.1 (hlen s (by simp)).1 (hlen s (by simp)).2
      refine ⟨a :: calls, ?_, by simp [h2], ?_⟩
      · rw [List.mapM_cons, ha, h1]; rfl
      · intro k x hx
        cases k with
        | zero =>
          obtain rfl : s = x := by simpa using hx
          exact ⟨a, rfl, ha⟩
        | succ k => simpa using h3 k x (by simpa using hx)
  obtain ⟨calls, hc, hcl, hck⟩ := hcalls
  -- every call can be written
  have hwrite : ∀ (cs : List (StepArgs K)) (o : Out K), (∀ a ∈ cs, a ∈ calls) → o.blockIds = [1, 2] →
      o.db.globalNames.length = 1 → (0 < o.numNodes → o.db.nodeNames.length = 4) →
      o.numNodes = 3 * faces0.length + nodes0.length → ∃ out, writeSteps cs o = some out := by
    intro cs
    induction cs with
    | nil => intro o _ _ _ _ _; exact ⟨o, rfl⟩
    | cons a as ih =>
      intro o hm hb hg hnn hnum
      obtain ⟨k, hk⟩ := List.mem_iff_getElem?.mp (hm a (by simp))
      have hkl : k < steps.length := by
        rw [← hcl]; exact (List.getElem?_eq_some_iff.mp hk).1
      obtain ⟨a', ha', hs⟩ := hck k _ (List.getElem?_eq_getElem hkl)
      obtain rfl : a = a' := Option.some.inj (hk.symm.trans ha')
      have hl := hlen _ (List.getElem_mem hkl)
      obtain ⟨dx, dy, dz, st, a'', ea, -, g1, g2, g3, -, g5, -, g7, -⟩ := visStep_spec ofNat M faces0 nodes0
        steps[k].2.1 steps[k].2.2 steps[k].1 hl.1 hl.2
      obtain rfl : a = a'' := Option.some.inj (hs.symm.trans ea)
      obtain ⟨o', e1, e2, e3, e4, e5⟩ := visStep_writable o a hb hg hnn (by rw [g1]; rfl) (by rw [g2]; rfl)
        (by rw [g2]; intro d hd; rw [g7 d hd, hnum]) g3 g5
      obtain ⟨out, h⟩ := ih o' (fun x hx => hm x (by simp [hx])) (e2.trans hb) (by rw [e4]; exact hg)
        (by rw [e3, e5]; exact hnn) (e3.trans hnum)
      exact ⟨out, by rw [writeSteps, e1, Option.bind_some]; exact h⟩
  obtain ⟨out, hout⟩ := hwrite calls out0 (fun _ h => h) i2 (by rw [i4]; rfl) i5 i3
  refine ⟨out, ?_, ?_⟩
  · unfold visHistory
    simp only [Option.bind_eq_bind, i1, Option.bind_some, hc, hout]
  · intro k t faces nodes hk
    obtain ⟨a, hak, hs⟩ := hck k _ hk
    have hl := hlen (t, faces, nodes) (List.mem_of_getElem? hk)
    obtain ⟨dx, dy, dz, st, a', ea, g0, g1, g2, -, -, -, -, g7, g8⟩ := visStep_spec ofNat M faces0 nodes0 faces nodes t hl.1 hl.2
    obtain rfl : a = a' := Option.some.inj (hs.symm.trans ea)
    have hx : (visMesh M faces0 nodes0).x.length = 3 * faces0.length + nodes0.length := by
      rw [(visMesh_spec M faces0 nodes0).1, List.length_map, visPoints_length]
    unfold visInit at i1
    rw [hx] at i1
    obtain ⟨r1, r2, r3, -, -⟩ := results_readable _ _ (show ([1, 2] : List ℤ).Nodup by decide) numElem _ _ _ _ calls out0 out i1 hout hak
    refine ⟨by rw [r1, g0], by rw [r2 (by rw [g1]; simp), g1], fun hpos => ?_⟩
    obtain ⟨-, -, r4⟩ := r3 hpos
    have nd : ["displacement_x".toList, "displacement_y".toList, "displacement_z".toList, "contact_status".toList].Nodup := by
      decide +kernel
    have tk : ∀ d ∈ [dx, dy, dz, st], d.take (3 * faces0.length + nodes0.length) = d := fun d hd =>
      List.take_of_length_le (le_of_eq (g7 d hd))
    refine ⟨dx, dy, dz, st, ?_, ?_, ?_, ?_, g8⟩
    · rw [r4 nd 0 _ dx rfl (by rw [g2]; rfl), tk dx (by simp)]
    · rw [r4 nd 1 _ dy rfl (by rw [g2]; rfl), tk dy (by simp)]
    · rw [r4 nd 2 _ dz rfl (by rw [g2]; rfl), tk dz (by simp)]
    · rw [r4 nd 3 _ st rfl (by rw [g2]; rfl), tk st (by simp)]

end

/-! ## C109: the contact report of the explicit integrator -/

theorem numSet_eq (l : List Bool) : numSet l = l.countP fun b => b := by
  unfold numSet
  have : ∀ n, l.foldl (fun n b => n + (if b then 1 else 0)) n = n + l.countP fun b => b := by
    induction l with
    | nil => intro n; rfl
    | cons f fs ih =>
      intro n
      rw [List.foldl_cons, ih, List.countP_cons]
      omega
  rw [this, Nat.zero_add]

section Report

variable {F : Type*} [Field F] [LinearOrder F]

/-- `j` is the last output step before step `k`. -/
def LastOutputBefore (c : NimbleSM.Integrate.Config F) (k j : ℕ) : Prop :=
  j < k ∧ c.isOutputStep j = true ∧ ∀ i, j < i → i < k → c.isOutputStep i = false

theorem reportFold (vis : Bool) (c : NimbleSM.Integrate.Config F) (numFaces : ℕ) (active : ℕ → List Bool) (N : ℕ) :
    let s := (List.range N).foldl (fun s k => reportStep vis (c.isOutputStep k) k (active k) s)
      { host := List.replicate numFaces false, device := List.replicate numFaces false }
    ((vis = true → ∀ j, LastOutputBefore c N j → s.host = active j) ∧
     ((vis = false ∨ ∀ j < N, c.isOutputStep j = false) → s.host = List.replicate numFaces false)) ∧
    ∀ k n, (k, n) ∈ s.info ↔ (k < N ∧ n ≠ 0 ∧ vis = true ∧ ∃ j, LastOutputBefore c k j ∧ n = (active j).countP fun b => b) := by
  have hrep : ∀ n, (List.replicate n false).countP (fun b => b) = 0 := by
    intro n; rw [List.countP_replicate]; simp
  induction N with
  | zero =>
    refine ⟨⟨fun _ j hj => absurd hj.1 (by omega), fun _ => rfl⟩, fun k n => ?_⟩
    simp
  | succ N ih =>
    dsimp only at ih ⊢
    rw [List.range_succ, List.foldl_append, List.foldl_cons, List.foldl_nil]
    generalize (List.range N).foldl (fun s k => reportStep vis (c.isOutputStep k) k (active k) s)
      { host := List.replicate numFaces false, device := List.replicate numFaces false } = s at ih ⊢
    obtain ⟨⟨ih1, ih2⟩, ih3⟩ := ih
    unfold reportStep
    dsimp only
    refine ⟨⟨?_, ?_⟩, ?_⟩
    · intro hv j hj
      by_cases ho : c.isOutputStep N = true
      · rw [if_pos (by simp [ho, hv])]
        rcases Nat.lt_or_ge j N with h | h
        · exact absurd (hj.2.2 N h (by omega)) (by simp [ho])
        · obtain rfl : j = N := by have := hj.1; omega
          rfl
      · rw [if_neg (by simp [ho])]
        have hjN : j ≠ N := by rintro rfl; exact ho hj.2.1
        exact ih1 hv j ⟨by have := hj.1; omega, hj.2.1, fun i hi hi' => hj.2.2 i hi (by omega)⟩
    · intro h
      rw [if_neg]
      · exact ih2 (h.imp id fun h j hj => h j (by omega))
      · rcases h with h | h
        · simp [h]
        · simp [h N (by omega)]
    · intro k n
      have hhost : numSet s.host ≠ 0 ∧ n = numSet s.host ↔
          n ≠ 0 ∧ vis = true ∧ ∃ j, LastOutputBefore c N j ∧ n = (active j).countP fun b => b := by
        rw [numSet_eq]
        constructor
        · rintro ⟨h0, rfl⟩
          cases vis with
          | false => rw [ih2 (Or.inl rfl), hrep] at h0; exact absurd rfl h0
          | true =>
            refine ⟨h0, rfl, ?_⟩
            by_contra hno
            have hnone : ∀ j < N, c.isOutputStep j = false := by
              by_contra hex
              push Not at hex
              obtain ⟨j0, hj0, ho0⟩ := hex
              -- the last one
              let P : ℕ → Prop := fun i => i < N ∧ c.isOutputStep i = true
              have hP : P j0 := ⟨hj0, by simpa using ho0⟩
              have hlast : ∃ j, P j ∧ ∀ i, j < i → i < N → c.isOutputStep i = false := by
                clear hno ih1 ih2 ih3 h0
                by_contra hc
                push Not at hc
                have : ∀ d, ∃ j, P j ∧ j0 + d ≤ j := by
                  intro d
                  induction d with
                  | zero => exact ⟨j0, hP, by omega⟩
                  | succ d ihd =>
                    obtain ⟨j, hj, hd⟩ := ihd
                    obtain ⟨i, h1, h2, h3⟩ := hc j hj
                    exact ⟨i, ⟨h2, by simpa using h3⟩, by omega⟩
                obtain ⟨j, hj, hd⟩ := this N
                have := hj.1
                omega
              obtain ⟨j, hj, hl⟩ := hlast
              exact hno ⟨j, ⟨hj.1, hj.2, hl⟩, by rw [ih1 rfl j ⟨hj.1, hj.2, hl⟩]⟩
            rw [ih2 (Or.inr hnone), hrep] at h0
            exact h0 rfl
        · rintro ⟨h0, hv, j, hj, hn⟩
          have hh := ih1 hv j hj
          rw [hh]
          exact ⟨by omega, hn⟩
      have hsplit : (k, n) ∈ (if numSet s.host ≠ 0 then s.info ++ [(N, numSet s.host)] else s.info) ↔
          (k, n) ∈ s.info ∨ (k = N ∧ (numSet s.host ≠ 0 ∧ n = numSet s.host)) := by
        split
        next h => simp [h]
        next h => simp [h]
      rw [hsplit, ih3, hhost]
      constructor
      · rintro (⟨h1, h2⟩ | ⟨rfl, h2⟩)
        · exact ⟨by omega, h2⟩
        · exact ⟨by omega, h2⟩
      · rintro ⟨h1, h2⟩
        rcases Nat.lt_or_ge k N with h | h
        · exact Or.inl ⟨h, h2⟩
        · obtain rfl : k = N := by omega
          exact Or.inr ⟨rfl, h2⟩

/-- **C109, what the report holds (partial).**  The entry of step `k` is the number of contact faces that were in contact at
the last output step *before* `k`, and only with contact visualization. -/
theorem contact_report_partial (vis : Bool) (c : NimbleSM.Integrate.Config F) (numFaces : ℕ) (active : ℕ → List Bool) (k n : ℕ) :
    (k, n) ∈ (reportRun vis c numFaces active).info ↔ (k < c.numSteps ∧ n ≠ 0 ∧ vis = true ∧
      ∃ j, (j < k ∧ c.isOutputStep j = true ∧ ∀ i, j < i → i < k → c.isOutputStep i = false) ∧
        n = (active j).countP fun b => b) :=
  (reportFold vis c numFaces active c.numSteps).2 k n

/-- What a user reads in the report: the steps with contact and the number of faces in contact. -/
def ReportsContact (c : NimbleSM.Integrate.Config F) (active : ℕ → List Bool) (info : List (ℕ × ℕ)) : Prop :=
  ∀ k n, (k, n) ∈ info ↔ k < c.numSteps ∧ n ≠ 0 ∧ n = (active k).countP fun b => b

/-- **C109 is false without visualization**: whatever the contact, the report has no entry. -/
theorem contact_report_empty_without_visualization (c : NimbleSM.Integrate.Config F) (numFaces : ℕ) (active : ℕ → List Bool) :
    (reportRun false c numFaces active).info = [] := by
  apply List.eq_nil_iff_forall_not_mem.mpr
  rintro ⟨k, n⟩ h
  have := (contact_report_partial false c numFaces active k n).mp h
  simp at this

/-- **C109 is false**: a run without visualization in which a face is in contact at some step is never reported as it is. -/
theorem contact_report_refuted (c : NimbleSM.Integrate.Config F) (numFaces : ℕ) (active : ℕ → List Bool)
    {k : ℕ} (hk : k < c.numSteps) (h : true ∈ active k) :
    ¬ ReportsContact c active (reportRun false c numFaces active).info := by
  intro hr
  rw [contact_report_empty_without_visualization] at hr
  have := (hr k ((active k).countP fun b => b)).mpr ⟨hk, by
    rw [← Nat.pos_iff_ne_zero, List.countP_pos_iff]; exact ⟨true, h, rfl⟩, rfl⟩
  simp at this

/-- **C109 is false with visualization too**: with an output at every step the report is late by one step, so it
is wrong as soon as the number of faces in contact changes (here: contact begins) within the run. -/
theorem contact_report_late (c : NimbleSM.Integrate.Config F) (numFaces : ℕ) (active : ℕ → List Bool)
    (hall : ∀ k < c.numSteps, c.isOutputStep k = true) (k n : ℕ) :
    (k, n) ∈ (reportRun true c numFaces active).info ↔
      1 ≤ k ∧ k < c.numSteps ∧ n ≠ 0 ∧ n = (active (k - 1)).countP fun b => b := by
  rw [contact_report_partial]
  constructor
  · rintro ⟨h1, h2, -, j, ⟨hj1, hj2, hj3⟩, hn⟩
    have : j = k - 1 := by
      by_contra hne
      have := hj3 (k - 1) (by omega) (by omega)
      rw [hall (k - 1) (by omega)] at this
      exact absurd this (by simp)
    subst this
    exact ⟨by omega, h1, h2, hn⟩
  · rintro ⟨h0, h1, h2, hn⟩
    exact ⟨h1, h2, rfl, k - 1, ⟨by omega, hall _ (by omega), fun i _ _ => by omega⟩, hn⟩

theorem contact_report_late_refuted (c : NimbleSM.Integrate.Config F) (numFaces : ℕ) (active : ℕ → List Bool)
    (hall : ∀ k < c.numSteps, c.isOutputStep k = true) {k : ℕ} (hk : k + 1 < c.numSteps)
    (h0 : ∀ b ∈ active k, b = false) (h : true ∈ active (k + 1)) :
    ¬ ReportsContact c active (reportRun true c numFaces active).info := by
  intro hr
  have h1 := (hr (k + 1) ((active (k + 1)).countP fun b => b)).mpr ⟨hk, by
    rw [← Nat.pos_iff_ne_zero, List.countP_pos_iff]; exact ⟨true, h, rfl⟩, rfl⟩
  rw [contact_report_late c numFaces active hall] at h1
  obtain ⟨-, -, h2, h3⟩ := h1
  rw [h3, Nat.add_sub_cancel] at h2
  exact h2 (List.countP_eq_zero.mpr fun b hb => by simp [h0 b hb])

end Report

/-! ## Instances -/

section Examples

/-- Three steps, output at every step. -/
def reportConfig : NimbleSM.Integrate.Config ℚ :=
  { manager := { sets := fun _ => none, bcs := [], dim := 3, scheme := .explicit }, X := fun _ _ => 0, mass := fun _ => 1,
    initialTime := 0, finalTime := 3, numSteps := 3, frequency := 1 }

example : (∀ k < reportConfig.numSteps, reportConfig.isOutputStep k = true) ∧ 0 + 1 < reportConfig.numSteps ∧
    (reportRun true reportConfig 2 (fun k => [decide (1 ≤ k), false])).info = [(2, 1)] ∧
    (reportRun false reportConfig 2 (fun k => [decide (1 ≤ k), false])).info = [] := by
  refine ⟨?_, by decide, ?_, ?_⟩ <;> decide +kernel

/-- A face that moves by `(1, 0, 0)` and comes into contact, and a node at rest. -/
def visFace0 : Entity ℚ :=
  { faceWithId 5 with coord1 := ![0, 0, 0], coord2 := ![1, 0, 0], coord3 := ![0, 1, 0] }
def visFace1 : Entity ℚ :=
  { faceWithId 5 with coord1 := ![1, 0, 0], coord2 := ![2, 0, 0], coord3 := ![1, 1, 0], status := true }
def visNode0 : Entity ℚ := { nodeWithId 7 with coord1 := ![0, 0, 3] }

example : (((visHistory (fun n => (n : ℚ)) 7 [visFace0] [visNode0] (fun _ => 1)
      [(0, [visFace0], [visNode0]), (1 / 2, [visFace1], [visNode0])]).map fun o =>
        (o.db.times 2, o.db.globals 2, readNode o.db "displacement_x".toList 2, readNode o.db "contact_status".toList 2)) =
      some (some (1 / 2), some [1], some [1, 1, 1, 0], some [1, 1, 1, 0])) ∧
    (allNodeIds [([visFace0], [visNode0])]) = [31, 32, 33, 7] := by
  decide +kernel

end Examples

end NimbleSM.Contact
