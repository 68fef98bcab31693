import Verif.Fields.Derived
import Verif.Fields.BlockDataProps
import Verif.Fields.OutputFieldsProps
import Verif.Assembly.AssemblyProps

/-!
# C105: derived element output is the volume and the volume averages of what was asked for
-/

namespace NimbleSM.Fields

open NimbleSM.Hex NimbleSM.Assembly

/-! ## Bookkeeping -/

/-- What the loop over the requested labels maintains, for the labels `pre` seen so far. -/
structure VolAveInv (pre : List Str) (v : VolAve) : Prop where
  back : ∀ m l, v.labels[m]? = some l → l ≠ "volume".toList ∧ pre[v.indexMap m]? = some l
  fwd : ∀ i l, pre[i]? = some l → l ≠ "volume".toList → ∃ m, v.labels[m]? = some l ∧ v.indexMap m = i
  inj : ∀ m m', m < v.labels.length → m' < v.labels.length → v.indexMap m = v.indexMap m' → m = m'
  vol : ∀ c, v.volume = some c ↔
    (pre[c]? = some "volume".toList ∧ ∀ c', pre[c']? = some "volume".toList → c' ≤ c)

theorem volAveLoop_inv (ls : List Str) (pre : List Str) (v : VolAve) (h : VolAveInv pre v) :
    VolAveInv (pre ++ ls) (volAveLoop pre.length ls v) := by
  induction ls generalizing pre v with
  | nil => simpa [volAveLoop] using h
  | cons l ls ih =>
    have hcons : pre ++ l :: ls = (pre ++ [l]) ++ ls := by simp
    rw [hcons, volAveLoop]
    have hlen : pre.length + 1 = (pre ++ [l]).length := by simp
    have hget : ∀ i x, (pre ++ [l])[i]? = some x ↔ pre[i]? = some x ∨ (i = pre.length ∧ x = l) := by
      intro i x
      by_cases hi : i < pre.length
      · rw [List.getElem?_append_left hi]
        constructor
        · exact Or.inl
        · rintro (h | ⟨rfl, -⟩)
          · exact h
          · omega
      · rw [List.getElem?_append_right (by omega)]
        constructor
        · intro hx
          obtain ⟨h1, h2⟩ := List.getElem?_eq_some_iff.mp hx
          simp at h1
          right
          refine ⟨by omega, ?_⟩
          simpa using h2.symm
        · rintro (h | ⟨rfl, rfl⟩)
          · exact absurd (List.getElem?_eq_some_iff.mp h).1 (by omega)
          · simp
    have hb : ∀ i x, pre[i]? = some x → i < pre.length := fun i x hx => (List.getElem?_eq_some_iff.mp hx).1
    split
    next hv =>
      rw [hlen]
      refine ih _ _ ⟨?_, ?_, h.inj, ?_⟩
      · intro m x hm
        obtain ⟨h1, h2⟩ := h.back m x hm
        exact ⟨h1, (hget _ _).mpr (Or.inl h2)⟩
      · intro i x hx hne
        rcases (hget _ _).mp hx with hx | ⟨-, rfl⟩
        · exact h.fwd i x hx hne
        · exact absurd hv hne
      · intro c
        simp only [Option.some_inj]
        constructor
        · rintro rfl
          refine ⟨(hget _ _).mpr (Or.inr ⟨rfl, hv.symm⟩), fun c' hc' => ?_⟩
          rcases (hget _ _).mp hc' with hx | ⟨rfl, -⟩
          · exact (hb _ _ hx).le
          · exact le_rfl
        · rintro ⟨h1, h2⟩
          have h3 := h2 pre.length ((hget _ _).mpr (Or.inr ⟨rfl, hv.symm⟩))
          rcases (hget _ _).mp h1 with hx | ⟨rfl, -⟩
          · have := hb _ _ hx; omega
          · rfl
    next hv =>
      rw [hlen]
      have hlab : ∀ m x, (v.labels ++ [l])[m]? = some x ↔ v.labels[m]? = some x ∨ (m = v.labels.length ∧ x = l) := by
        intro i x
        by_cases hi : i < v.labels.length
        · rw [List.getElem?_append_left hi]
          constructor
          · exact Or.inl
          · rintro (h | ⟨rfl, -⟩)
            · exact h
            · omega
        · rw [List.getElem?_append_right (by omega)]
          constructor
          · intro hx
            obtain ⟨h1, h2⟩ := List.getElem?_eq_some_iff.mp hx
            simp at h1
            exact Or.inr ⟨by omega, by simpa using h2.symm⟩
          · rintro (h | ⟨rfl, rfl⟩)
            · exact absurd (List.getElem?_eq_some_iff.mp h).1 (by omega)
            · simp
      have hlt : ∀ m x, v.labels[m]? = some x → m < v.labels.length := fun i x hx => (List.getElem?_eq_some_iff.mp hx).1
      refine ih _ _ ⟨?_, ?_, ?_, ?_⟩
      · intro m x hm
        rcases (hlab _ _).mp hm with hm | ⟨rfl, rfl⟩
        · obtain ⟨h1, h2⟩ := h.back m x hm
          refine ⟨h1, (hget _ _).mpr (Or.inl ?_)⟩
          dsimp only
          rw [Function.update_of_ne (by have := hlt _ _ hm; omega)]
          exact h2
        · refine ⟨hv, (hget _ _).mpr (Or.inr ⟨?_, rfl⟩)⟩
          dsimp only
          rw [Function.update_self]
      · intro i x hx hne
        rcases (hget _ _).mp hx with hx | ⟨rfl, rfl⟩
        · obtain ⟨m, hm, rfl⟩ := h.fwd i x hx hne
          refine ⟨m, (hlab _ _).mpr (Or.inl hm), ?_⟩
          dsimp only
          rw [Function.update_of_ne (by have := hlt _ _ hm; omega)]
        · exact ⟨v.labels.length, (hlab _ _).mpr (Or.inr ⟨rfl, rfl⟩), by dsimp only; rw [Function.update_self]⟩
      · have hold : ∀ m, m < v.labels.length → v.indexMap m < pre.length := by
          intro m hm
          exact hb _ _ (h.back m _ (List.getElem?_eq_getElem hm)).2
        intro m m' hm hm' he
        simp only [List.length_append, List.length_singleton] at hm hm'
        dsimp only at he
        by_cases e1 : m = v.labels.length <;> by_cases e2 : m' = v.labels.length
        · omega
        · subst e1
          rw [Function.update_self, Function.update_of_ne e2] at he
          have := hold m' (by omega); omega
        · subst e2
          rw [Function.update_self, Function.update_of_ne e1] at he
          have := hold m (by omega); omega
        · rw [Function.update_of_ne e1, Function.update_of_ne e2] at he
          exact h.inj m m' (by omega) (by omega) he
      · intro c
        rw [h.vol c]
        constructor
        · rintro ⟨h1, h2⟩
          refine ⟨(hget _ _).mpr (Or.inl h1), fun c' hc' => ?_⟩
          rcases (hget _ _).mp hc' with hx | ⟨-, hx⟩
          · exact h2 c' hx
          · exact absurd hx.symm hv
        · rintro ⟨h1, h2⟩
          refine ⟨?_, fun c' hc' => h2 c' ((hget _ _).mpr (Or.inl hc'))⟩
          rcases (hget _ _).mp h1 with hx | ⟨-, hx⟩
          · exact hx
          · exact absurd hx.symm hv

theorem volAve_inv (derived : List Str) : VolAveInv derived (volAve derived) := by
  have := volAveLoop_inv derived [] ⟨[], fun _ => 0, none⟩ ⟨by simp, by simp, by simp, by simp⟩
  simpa [volAve] using this

/-! ## Offsets -/

theorem foldl_update_offsets (i nVol j nPer : ℕ) (n : ℕ) (o : ℕ → ℕ) (hi : i < nVol) :
    (∀ p, p < n → (List.range n).foldl (fun o p => Function.update o (i + p * nVol) (j + p * nPer)) o (i + p * nVol)
      = j + p * nPer) ∧
    (∀ k, (∀ p, p < n → k ≠ i + p * nVol) →
      (List.range n).foldl (fun o p => Function.update o (i + p * nVol) (j + p * nPer)) o k = o k) := by
  induction n with
  | zero => simp
  | succ n ih =>
    rw [List.range_succ, List.foldl_append, List.foldl_cons, List.foldl_nil]
    refine ⟨fun p hp => ?_, fun k hk => ?_⟩
    · by_cases h : p = n
      · subst h; rw [Function.update_self]
      · rw [Function.update_of_ne, ih.1 p (by omega)]
        intro he
        have : p * nVol = n * nVol := by omega
        exact h (Nat.eq_of_mul_eq_mul_right (by omega) this)
    · rw [Function.update_of_ne (hk n (by omega)), ih.2 k fun p hp => hk p (by omega)]

theorem volAveOffsetsOne_spec (want : Str) (i nVol nPer n : ℕ) (hi : i < nVol) (j : ℕ) (ls : List Str) (o : ℕ → ℕ)
    (hnd : ls.Nodup) :
    ∃ o', volAveOffsetsOne want i nVol nPer n j (ls.map fun l => addPrefix l ((0 + 1 : ℕ) : ℤ)) o = some o' ∧
      (∀ k, (∀ p, p < n → k ≠ i + p * nVol) → o' k = o k) ∧
      (want ∉ ls → o' = o) ∧
      ∀ q, ls[q]? = some want → ∀ p, p < n → o' (i + p * nVol) = (j + q) + p * nPer := by
  induction ls generalizing j o with
  | nil => exact ⟨o, rfl, fun _ _ => rfl, fun _ => rfl, by simp⟩
  | cons l ls ih =>
    rw [List.map_cons, volAveOffsetsOne, removePrefix_addPrefix]
    have hnd' := List.nodup_cons.mp hnd
    simp only [Option.bind_eq_bind, Option.bind_some]
    obtain ⟨o', h1, h2, h3, h4⟩ := ih (j + 1) (if want = l then
        (List.range n).foldl (fun o p => Function.update o (i + p * nVol) (j + p * nPer)) o else o) hnd'.2
    refine ⟨o', h1, fun k hk => ?_, fun hw => ?_, fun q hq p hp => ?_⟩
    · rw [h2 k hk]
      split
      · exact (foldl_update_offsets i nVol j nPer n o hi).2 k hk
      · rfl
    · rw [h3 (fun h => hw (by simp [h])), if_neg (fun h => hw (by simp [h]))]
    · cases q with
      | zero =>
        have : l = want := by simpa using hq
        subst this
        rw [h3 hnd'.1, if_pos rfl, (foldl_update_offsets i nVol j nPer n o hi).1 p hp, Nat.add_zero]
      | succ q =>
        rw [h4 q (by simpa using hq) p hp]
        omega

theorem volAveOffsetsLoop_spec (st : List Str) (hnd : (pointLabels st).Nodup) (elemLabels : List Str) (nVol nPer n : ℕ)
    (htake : elemLabels.take nPer = (pointLabels st).map fun l => addPrefix l ((0 + 1 : ℕ) : ℤ))
    (i : ℕ) (ws : List Str) (o : ℕ → ℕ) (hi : i + ws.length ≤ nVol) :
    ∃ o', volAveOffsetsLoop elemLabels nVol nPer n i ws o = some o' ∧
      (∀ m p, m < i → p < n → o' (m + p * nVol) = o (m + p * nVol)) ∧
      ∀ m w q, ws[m]? = some w → (pointLabels st)[q]? = some w → ∀ p, p < n →
        o' ((i + m) + p * nVol) = q + p * nPer := by
  induction ws generalizing i o with
  | nil => exact ⟨o, rfl, fun _ _ _ _ => rfl, by simp⟩
  | cons w ws ih =>
    rw [List.length_cons] at hi
    obtain ⟨o1, h1, h2, -, h4⟩ := volAveOffsetsOne_spec w i nVol nPer n (by omega) 0 (pointLabels st) o hnd
    obtain ⟨o', g1, g2, g3⟩ := ih (i + 1) o1 (by omega)
    refine ⟨o', ?_, fun m p hm hp => ?_, fun m w' q hm hq p hp => ?_⟩
    · rw [volAveOffsetsLoop, htake, h1]
      exact g1
    · rw [g2 m p (by omega) hp]
      refine h2 _ fun p' _ he => ?_
      have e := congrArg (· % nVol) he
      simp only [Nat.add_mul_mod_self_right] at e
      rw [Nat.mod_eq_of_lt (by omega), Nat.mod_eq_of_lt (by omega)] at e
      omega
    · cases m with
      | zero =>
        have : w = w' := by simpa using hm
        subst this
        rw [Nat.add_zero, g2 i p (by omega) hp, h4 q hq p hp, Nat.zero_add]
      | succ m =>
        have := g3 m w' q (by simpa using hm) hq p hp
        rw [← this]
        congr 1
        omega

theorem elementLabels_take (st : List Str) (n : ℕ) :
    (elementLabels 3 (dataLabelsAndLengths st (n + 1))).take (15 + st.length) =
      (pointLabels st).map fun l => addPrefix l ((0 + 1 : ℕ) : ℤ) := by
  rw [elementLabels_eq, List.range_succ_eq_map, List.flatMap_cons]
  apply List.take_left'
  rw [List.length_map, pointLabels_length]

/-! ## Storing -/

variable {K : Type*} [_root_.Field K] [LinearOrder K]

theorem foldlM_put (nCol e : ℕ) (idx : ℕ → ℕ) (ave : ℕ → K) (n : ℕ) (hlt : ∀ m < n, idx m < nCol)
    (hinj : ∀ m m', m < n → m' < n → idx m = idx m' → m = m') (d : ℕ → ℕ → K) :
    ∃ d', (List.range n).foldlM (fun d i => putDerived nCol (idx i) e (ave i) d) d = some d' ∧
      (∀ m < n, d' (idx m) e = ave m) ∧
      ∀ c e', (e' ≠ e ∨ ∀ m < n, c ≠ idx m) → d' c e' = d c e' := by
  induction n with
  | zero => exact ⟨d, rfl, by simp, fun _ _ _ => rfl⟩
  | succ n ih =>
    obtain ⟨d1, h1, h2, h3⟩ := ih (fun m hm => hlt m (by omega)) (fun m m' hm hm' => hinj m m' (by omega) (by omega))
    rw [List.range_succ, List.foldlM_append, h1]
    simp only [Option.bind_eq_bind, Option.bind_some, List.foldlM_cons, List.foldlM_nil, putDerived, hlt n (by omega),
      if_true]
    refine ⟨_, rfl, fun m hm => ?_, fun c e' hc => ?_⟩
    · by_cases h : m = n
      · subst h; rw [Function.update_self, Function.update_self]
      · rw [Function.update_of_ne (fun he => h (hinj m n hm (by omega) he))]
        exact h2 m (by omega)
    · have hold : d1 c e' = d c e' := h3 c e' (hc.imp id fun h m hm => h m (by omega))
      by_cases hcn : c = idx n
      · subst hcn
        rw [Function.update_self]
        rcases hc with hc | hc
        · rw [Function.update_of_ne hc, hold]
        · exact absurd rfl (hc n (by omega))
      · rw [Function.update_of_ne hcn, hold]

/-- The derived data of one element are stored where they belong, everything else is kept. -/
theorem storeDerived_spec (derived : List Str) (e : ℕ) (volume : K) (ave : ℕ → K) (d : ℕ → ℕ → K) :
    ∃ d', storeDerived (volAve derived) derived.length e volume ave d = some d' ∧
      (∀ m < (volAve derived).labels.length, d' ((volAve derived).indexMap m) e = ave m) ∧
      (∀ c, (volAve derived).volume = some c → d' c e = volume) ∧
      ∀ c e', (e' ≠ e ∨ ((∀ m < (volAve derived).labels.length, c ≠ (volAve derived).indexMap m) ∧
        (volAve derived).volume ≠ some c)) → d' c e' = d c e' := by
  have inv := volAve_inv derived
  set v := volAve derived
  have hb : ∀ m < v.labels.length, derived[v.indexMap m]? = some v.labels[m]! ∧ v.labels[m]! ≠ "volume".toList := by
    intro m hm
    have h := inv.back m v.labels[m]! (by rw [getElem!_pos v.labels m hm]; exact List.getElem?_eq_getElem hm)
    exact ⟨h.2, h.1⟩
  obtain ⟨d1, h1, h2, h3⟩ := foldlM_put derived.length e v.indexMap ave v.labels.length
    (fun m hm => (List.getElem?_eq_some_iff.mp (hb m hm).1).1) inv.inj d
  unfold storeDerived
  rw [h1]
  simp only [Option.bind_eq_bind, Option.bind_some]
  cases hv : v.volume with
  | none =>
    refine ⟨d1, rfl, h2, by simp, fun c e' hc => h3 c e' (hc.imp id fun h => h.1)⟩
  | some c =>
    have hc := ((inv.vol c).mp hv).1
    have hclt := (List.getElem?_eq_some_iff.mp hc).1
    have hne : ∀ m < v.labels.length, v.indexMap m ≠ c := by
      intro m hm he
      have h := hb m hm
      rw [he, hc] at h
      exact h.2 (Option.some.inj h.1).symm
    simp only [putDerived, hclt, if_true]
    refine ⟨_, rfl, fun m hm => ?_, fun c' hc' => ?_, fun c' e' hc' => ?_⟩
    · rw [Function.update_of_ne (hne m hm), h2 m hm]
    · obtain rfl := Option.some.inj hc'
      rw [Function.update_self, Function.update_self]
    · have hold : d1 c' e' = d c' e' := h3 c' e' (hc'.imp id fun h => h.1)
      by_cases he : c' = c
      · subst he
        rw [Function.update_self]
        rcases hc' with hc' | hc'
        · rw [Function.update_of_ne hc', hold]
        · exact absurd rfl hc'.2
      · rw [Function.update_of_ne he, hold]

/-! ## The elements -/

/-- The coordinates of an element's nodes in the current configuration, three per node. -/
def currentCoords (b : Blk K) (X u : ℕ → K) (e : ℕ) : ℕ → K := gather b e fun k => X k + u k

variable [IsStrictOrderedRing K]

/-- C105.  For every block (material state labels that do not clash), every list of requested derived
labels, all coordinates, displacements and element data: the derived data exist exactly when every element is uninverted at its
integration points in the current configuration (or nothing was requested), and then for every element
the entry of the last request `volume` is the element's current volume, the entry of every request that
names a component stored at the integration points is the volume average, over the integration points of
the element in the current configuration, of the component with that name (that every request is of one
of these two kinds is `derived_requests`). -/
theorem derived_output (val : K) (b : Blk K) (st derived : List Str) (hnd : (pointLabels st).Nodup)
    (X u data : ℕ → K) (d : ℕ → ℕ → K) :
    ((computeDerivedElementData val b (elementLabels 3 (dataLabelsAndLengths st 8)) derived X u data d).isSome ↔
      derived = [] ∨ ∀ e < b.numElem, ∀ p : Fin 8, 0 < (Jac val (currentCoords b X u e) p).det) ∧
    ∀ d', computeDerivedElementData val b (elementLabels 3 (dataLabelsAndLengths st 8)) derived X u data d = some d' →
      ∀ e < b.numElem,
        (∀ i, derived[i]? = some "volume".toList → (∀ i', derived[i']? = some "volume".toList → i' ≤ i) →
          d' i e = ∑ p : Fin 8, (Jac val (currentCoords b X u e) p).det) ∧
        ∀ i l q, derived[i]? = some l → l ≠ "volume".toList → (pointLabels st)[q]? = some l →
          d' i e = (∑ p : Fin 8, data (e * (8 * (15 + st.length)) + (p * (15 + st.length) + q)) *
              (Jac val (currentCoords b X u e) p).det) /
            ∑ p : Fin 8, (Jac val (currentCoords b X u e) p).det := by
  have hlen : (elementLabels 3 (dataLabelsAndLengths st 8)).length / 8 = 15 + st.length := by
    rw [elementLabels_length, Nat.mul_div_cancel_left _ (by norm_num)]
  have inv := volAve_inv derived
  obtain ⟨offs, ho, -, hoff⟩ := volAveOffsetsLoop_spec st hnd (elementLabels 3 (dataLabelsAndLengths st 8))
    (volAve derived).labels.length (15 + st.length) 8 (elementLabels_take st 7) 0 (volAve derived).labels
    (fun _ => 0) (by omega)
  have ho' : volAveOffsets (elementLabels 3 (dataLabelsAndLengths st 8)) 8 (volAve derived) = some offs := by
    unfold volAveOffsets; rw [hlen]; exact ho
  unfold computeDerivedElementData
  simp only [ho', Option.bind_some, hlen]
  by_cases hempty : derived = []
  · subst hempty
    simp
  have hne : derived.length ≠ 0 := by simpa using hempty
  simp only [hne, if_false, hempty, false_or]
  -- one element
  have one : ∀ e (d : ℕ → ℕ → K),
      ((derivedElement val b (volAve derived) offs (15 + st.length) derived.length X u data d e).isSome ↔
        ∀ p : Fin 8, 0 < (Jac val (currentCoords b X u e) p).det) ∧
      ∀ d', derivedElement val b (volAve derived) offs (15 + st.length) derived.length X u data d e = some d' →
        (∀ c, (volAve derived).volume = some c → d' c e = ∑ p : Fin 8, (Jac val (currentCoords b X u e) p).det) ∧
        (∀ m w q, (volAve derived).labels[m]? = some w → (pointLabels st)[q]? = some w →
          d' ((volAve derived).indexMap m) e =
            (∑ p : Fin 8, data (e * (8 * (15 + st.length)) + (p * (15 + st.length) + q)) *
              (Jac val (currentCoords b X u e) p).det) /
            ∑ p : Fin 8, (Jac val (currentCoords b X u e) p).det) ∧
        ∀ c e', e' ≠ e → d' c e' = d c e' := by
    intro e d
    unfold derivedElement
    dsimp only
    have hva := computeVolumeAverage_val val (currentCoords b X u e)
      (fun i => if i < (volAve derived).labels.length * 8 then data (e * (15 + st.length) * 8 + offs i) else 0)
      (volAve derived).labels.length
    rw [← hva.1]
    change ((Option.bind (computeVolumeAverage val (currentCoords b X u e) _ _) _).isSome ↔ _) ∧ ∀ d',
      Option.bind (computeVolumeAverage val (currentCoords b X u e) _ _) _ = some d' → _
    cases hc : computeVolumeAverage val (currentCoords b X u e) (volAve derived).labels.length
      (fun i => if i < (volAve derived).labels.length * 8 then data (e * (15 + st.length) * 8 + offs i) else 0) with
    | none => simp
    | some r =>
      obtain ⟨volume, ave⟩ := r
      obtain ⟨hv, ha⟩ := hva.2 volume ave hc
      obtain ⟨d', h1, h2, h3, h4⟩ := storeDerived_spec derived e volume ave d
      simp only [Option.bind_some, h1, Option.isSome_some, true_and]
      intro d'' hd
      obtain rfl := Option.some.inj hd
      refine ⟨fun c hc => (h3 c hc).trans hv, fun m w q hm hq => ?_, fun c e' he => h4 c e' (Or.inl he)⟩
      have hml := (List.getElem?_eq_some_iff.mp hm).1
      rw [h2 m hml, ha m]
      unfold quadVolume
      congr 1
      refine Finset.sum_congr rfl fun p _ => ?_
      have hp := p.isLt
      have hidx : (volAve derived).labels.length * (p : ℕ) + m < (volAve derived).labels.length * 8 := by
        have : (volAve derived).labels.length * (p + 1) ≤ (volAve derived).labels.length * 8 :=
          Nat.mul_le_mul_left _ (by omega)
        rw [Nat.mul_add] at this
        omega
      rw [if_pos hidx]
      have e1 : (volAve derived).labels.length * (p : ℕ) + m = (0 + m) + (p : ℕ) * (volAve derived).labels.length := by
        ring
      rw [e1, hoff m w q hm hq p hp]
      congr 2
      ring
  -- all elements
  have all : ∀ n, ∀ d : ℕ → ℕ → K,
      (((List.range n).foldlM (derivedElement val b (volAve derived) offs (15 + st.length) derived.length X u data) d).isSome ↔
        ∀ e < n, ∀ p : Fin 8, 0 < (Jac val (currentCoords b X u e) p).det) ∧
      ∀ d', (List.range n).foldlM (derivedElement val b (volAve derived) offs (15 + st.length) derived.length X u data) d = some d' →
        ∀ e < n,
        (∀ c, (volAve derived).volume = some c → d' c e = ∑ p : Fin 8, (Jac val (currentCoords b X u e) p).det) ∧
        (∀ m w q, (volAve derived).labels[m]? = some w → (pointLabels st)[q]? = some w →
          d' ((volAve derived).indexMap m) e =
            (∑ p : Fin 8, data (e * (8 * (15 + st.length)) + (p * (15 + st.length) + q)) *
              (Jac val (currentCoords b X u e) p).det) /
            ∑ p : Fin 8, (Jac val (currentCoords b X u e) p).det) := by
    intro n
    induction n with
    | zero => intro d; simp
    | succ n ih =>
      intro d
      rw [List.range_succ, List.foldlM_append]
      obtain ⟨i1, i2⟩ := ih d
      cases hd1 : (List.range n).foldlM
        (derivedElement val b (volAve derived) offs (15 + st.length) derived.length X u data) d with
      | none =>
        rw [hd1] at i1
        simp only [Option.isSome_none, Bool.false_eq_true, false_iff] at i1
        simp only [Option.bind_eq_bind, Option.bind_none, Option.isSome_none, Bool.false_eq_true, false_iff]
        refine ⟨fun h => i1 fun e he => h e (by omega), by simp⟩
      | some d1 =>
        rw [hd1] at i1
        obtain ⟨o1, o2⟩ := one n d1
        simp only [Option.bind_eq_bind, Option.bind_some, List.foldlM_cons, List.foldlM_nil, Option.pure_def,
          Option.bind_fun_some]
        refine ⟨?_, fun d' hd' e he => ?_⟩
        · rw [o1]
          constructor
          · intro h e he
            rcases Nat.lt_succ_iff_lt_or_eq.mp he with h' | rfl
            · exact i1.mp rfl e h'
            · exact h
          · intro h; exact h n (by omega)
        · obtain ⟨q1, q2, q3⟩ := o2 d' hd'
          rcases Nat.lt_succ_iff_lt_or_eq.mp he with h' | rfl
          · obtain ⟨r1, r2⟩ := i2 d1 hd1 e h'
            exact ⟨fun c hc => (q3 c e (by omega)).trans (r1 c hc),
              fun m w q hm hq => (q3 _ e (by omega)).trans (r2 m w q hm hq)⟩
          · exact ⟨q1, q2⟩
  refine ⟨(all b.numElem d).1, fun d' hd' e he => ?_⟩
  obtain ⟨r1, r2⟩ := (all b.numElem d).2 d' hd' e he
  refine ⟨fun i hi hlast => r1 i ((inv.vol i).mpr ⟨hi, hlast⟩), fun i l q hi hl hq => ?_⟩
  obtain ⟨m, hm, rfl⟩ := inv.fwd i l hi hl
  exact r2 m l q hm hq

/-- C105: every derived label recorded by `SpecifyOutputFields` for a block is `volume` or the name of a
component stored at the block's integration points. -/
theorem derived_requests {fields : List Field} {blocks : List (ℕ × List Str)} {text : Str} {o : Outputs}
    (ha : LengthsAgree fields) (h : specifyOutputFields 3 fields blocks text = some o) {id : ℕ} {st : List Str}
    (hblk : ∀ ls, (id, ls) ∈ blocks → ls = elementLabels 3 (dataLabelsAndLengths st 8)) {l : Str}
    (hl : l ∈ o.derived id) : l = "volume".toList ∨ ∃ q : ℕ, (pointLabels st)[q]? = some l := by
  obtain ⟨ls, hmem, hor⟩ := (specifyOutputFields_sound ha h).2.2 id l hl
  refine hor.imp (fun h => h) ?_
  rintro ⟨x, hx, hrem⟩
  rw [hblk ls hmem, elementLabels_eq, List.mem_flatMap] at hx
  obtain ⟨ipt, -, hx⟩ := hx
  obtain ⟨y, hy, rfl⟩ := List.mem_map.mp hx
  rw [removePrefix_addPrefix] at hrem
  obtain rfl := Option.some.inj hrem
  obtain ⟨q, hq, he⟩ := List.mem_iff_getElem.mp hy
  exact ⟨q, by rw [List.getElem?_eq_getElem hq, he]⟩

/-- C105: an averaged component lies between any bounds that hold at the integration points of the
element; in particular a component that is constant over the element is reported unchanged. -/
theorem derived_between (val : K) (b : Blk K) (st derived : List Str) (hnd : (pointLabels st).Nodup)
    (X u data : ℕ → K) (d d' : ℕ → ℕ → K)
    (h : computeDerivedElementData val b (elementLabels 3 (dataLabelsAndLengths st 8)) derived X u data d = some d')
    {e : ℕ} (he : e < b.numElem) {i q : ℕ} {l : Str} (hi : derived[i]? = some l) (hl : l ≠ "volume".toList)
    (hq : (pointLabels st)[q]? = some l) (lo hi' : K)
    (hlo : ∀ p : Fin 8, lo ≤ data (e * (8 * (15 + st.length)) + (p * (15 + st.length) + q)))
    (hhi : ∀ p : Fin 8, data (e * (8 * (15 + st.length)) + (p * (15 + st.length) + q)) ≤ hi') :
    lo ≤ d' i e ∧ d' i e ≤ hi' := by
  obtain ⟨h1, h2⟩ := derived_output val b st derived hnd X u data d
  have hpos := (h1.mp (by rw [h]; rfl)).resolve_left (by rintro rfl; simp at hi) e he
  rw [(h2 d' h e he).2 i l q hi hl hq]
  have hV : 0 < ∑ p : Fin 8, (Jac val (currentCoords b X u e) p).det :=
    Finset.sum_pos (fun p _ => hpos p) ⟨0, Finset.mem_univ _⟩
  rw [le_div_iff₀ hV, div_le_iff₀ hV, Finset.mul_sum, Finset.mul_sum]
  exact ⟨Finset.sum_le_sum fun p _ => mul_le_mul_of_nonneg_right (hlo p) (hpos p).le,
    Finset.sum_le_sum fun p _ => mul_le_mul_of_nonneg_right (hhi p) (hpos p).le⟩

omit [IsStrictOrderedRing K] in
/-- C105 for every column: false.  Of several requests for the volume only the last is computed; the
others keep what was in the array. -/
theorem duplicate_volume_column (val : K) (b : Blk K) (X u data : ℕ → K) (d d' : ℕ → ℕ → K)
    (h : computeDerivedElementData val b (elementLabels 3 (dataLabelsAndLengths [] 8))
      ["volume".toList, "volume".toList] X u data d = some d') (e : ℕ) : d' 0 e = d 0 e := by
  obtain ⟨offs, ho, -, -⟩ := volAveOffsetsLoop_spec [] (by decide +kernel) (elementLabels 3 (dataLabelsAndLengths [] 8))
    0 15 8 (elementLabels_take [] 7) 0 [] (fun _ => 0) (by simp)
  have hv : volAve ["volume".toList, "volume".toList] = ⟨[], fun _ => 0, some 1⟩ := rfl
  unfold computeDerivedElementData volAveOffsets at h
  rw [hv, elementLabels_length] at h
  simp only [List.length_nil, List.length_cons, Nat.add_zero, Nat.zero_add] at h
  rw [show 8 * 15 / 8 = 15 from rfl, ho] at h
  simp only [Option.bind_some] at h
  rw [if_neg (by norm_num)] at h
  generalize b.numElem = n at h
  induction n generalizing d' with
  | zero => rw [← Option.some.inj h]
  | succ n ih =>
    rw [List.range_succ, List.foldlM_append] at h
    obtain ⟨d1, h1, h2⟩ := Option.bind_eq_some_iff.mp h
    rw [← ih d1 h1]
    simp only [List.foldlM_cons, List.foldlM_nil, Option.bind_eq_bind, Option.pure_def, Option.bind_fun_some,
      derivedElement] at h2
    obtain ⟨⟨vol, ave⟩, h3, h4⟩ := Option.bind_eq_some_iff.mp h2
    have h5 : Function.update d1 1 (Function.update (d1 1) n vol) = d' := Option.some.inj h4
    rw [← h5, Function.update_of_ne (by norm_num)]

/-! ## A concrete block -/

/-- One sheared cube, moved by `(1, 0, 0)`: volume, average `stress_yy` and average `eqps` are requested. -/
def derivedDemo : Blk ℚ := ⟨1, 1, fun _ => none, 1, fun k => k⟩

example (data : ℕ → ℚ) : (computeDerivedElementData gaussVal derivedDemo
    (elementLabels 3 (dataLabelsAndLengths ["eqps".toList] 8))
    ["stress_yy".toList, "volume".toList, "eqps".toList] demo (fun k => if k % 3 = 0 then 1 else 0) data
    fun _ _ => 0).isSome := by
  refine (derived_output _ _ _ _ (by decide +kernel) _ _ _ _).1.mpr (Or.inr ?_)
  intro e he p
  obtain rfl : e = 0 := by have : e < 1 := he; omega
  have hJ : Jac gaussVal (currentCoords derivedDemo demo (fun k => if k % 3 = 0 then 1 else 0) 0) p
      = Jac gaussVal demo p := by
    have h : ∀ (p : Fin 8) (i j : Fin 3),
        Jac gaussVal (currentCoords derivedDemo demo (fun k => if k % 3 = 0 then 1 else 0) 0) p i j
        = Jac gaussVal demo p i j := by
      intro p i j
      change (∑ n : Fin 8, currentCoords derivedDemo demo (fun k => if k % 3 = 0 then 1 else 0) 0 (3 * n + i) *
        gradN n (gaussPt gaussVal p) j) = ∑ n : Fin 8, demo (3 * n + i) * gradN n (gaussPt gaussVal p) j
      revert p i j
      decide +kernel
    ext i j; exact h p i j
  rw [hJ]
  exact demo_ok p

example : (pointLabels ["eqps".toList])[10]? = some "stress_yy".toList ∧
    (pointLabels ["eqps".toList])[15]? = some "eqps".toList := by decide +kernel

end NimbleSM.Fields
