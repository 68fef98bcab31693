import Verif.Kokkos.OutputFields
import Mathlib.Tactic.IntervalCases
import Mathlib.Data.List.Nodup

/-!
# Results columns of the default model data (C98)
-/

namespace NimbleSM.Kokkos.Output

open NimbleSM.Fields (Str getlineSplit addPrefix)
open NimbleSM.Deck (atoi)
open NimbleSM.Kokkos.Registry (FType Fld Place Step)

variable {K : Type*}

/-! ## Specification -/

/-- A request for element output. -/
inductive Req where
  | volume
  /-- the volume average of an integration-point field (or a word that names nothing) -/
  | plain (label : Str)
  /-- the value at integration point `n` (numbered from 1) -/
  | point (n : ℕ) (label : Str)
  deriving DecidableEq

/-- How a request is written in the input deck (`ipt03_stress`). -/
def Req.text : Req → Str
  | .volume => "volume".toList
  | .plain l => l
  | .point n l => addPrefix l n

/-- Columns of a tensor: one per component, named after the request. -/
def tensorColumns (components : List (Str × ℕ)) (name : Str) (num : ℕ) (value : ℕ → ℕ → K) :
    List (Str × List K) :=
  components.map fun c => (name ++ c.1, (List.range num).map fun e => value e c.2)

/-- Components of a symmetric and a full tensor, in storage order. -/
def sixNames : List (Str × ℕ) :=
  ["_xx", "_yy", "_zz", "_xy", "_yz", "_zx"].zipIdx.map fun p => (p.1.toList, p.2)
def nineNames : List (Str × ℕ) :=
  ["_xx", "_yy", "_zz", "_xy", "_yz", "_zx", "_yx", "_zy", "_xz"].zipIdx.map fun p => (p.1.toList, p.2)

/-- The columns that a request must produce from the new state of a block, for fields of type `t`. -/
def requestColumns (E : ElementOps K) (T : Tab K) (b : ℤ) (t : FType) (components : List (Str × ℕ)) :
    Req → List (Str × List K)
  | .volume => []
  | .plain l => match T (.ipt b .np1) l with
    | some f => if f.type = t then
        tensorColumns components l f.num fun e i => E.average b e fun q => f.data e q i else []
    | none => []
  | .point n l => match T (.ipt b .np1) l with
    | some f => if f.type = t then
        tensorColumns components (addPrefix l n) f.num fun e i => f.data e (n - 1) i else []
    | none => []

/-- The element columns of a block: volumes, then symmetric tensors, then full tensors, in the order of the
requests. -/
def blockColumns (E : ElementOps K) (T : Tab K) (b : ℤ) (reqs : List Req) : List (Str × List K) :=
  (reqs.flatMap fun q => if q = .volume then
      [("volume".toList, (List.range (T.extent (.elem b) "volume".toList)).map (E.volume b))] else [])
  ++ reqs.flatMap (requestColumns E T b .symTensorIntPt sixNames)
  ++ reqs.flatMap (requestColumns E T b .fullTensorIntPt nineNames)

/-- Requests as a user may write them. -/
def Req.Ok (numPoints : ℕ) : Req → Prop
  | .volume => True
  | .plain l => l ≠ "volume".toList ∧ l.take 3 ≠ "ipt".toList
  | .point n _ => 1 ≤ n ∧ n ≤ numPoints ∧ n ≤ 9

/-- The registry as `InitializeBlocks` leaves it, as far as output needs it. -/
structure Registered (labels : List Str) (T : Tab K) (blocks : List ℤ) (reqs : List Req) : Prop where
  nodup : labels.Nodup
  covers : ∀ b l, T (.ipt b .np1) l ≠ none → l ∈ labels
  names : ∀ b l, T (.ipt b .np1) l ≠ none → l ≠ "volume".toList ∧ l.take 3 ≠ "ipt".toList
  volume : Req.volume ∈ reqs → ∀ b ∈ blocks, ∃ g, T (.elem b) "volume".toList = some g ∧ g.type = .scalarElem
  sym : ∀ b ∈ blocks, ∀ l f, T (.ipt b .np1) l = some f → f.type = .symTensorIntPt → Req.plain l ∈ reqs →
    ∃ g, T (.elem b) l = some g ∧ g.type = .symTensorElem
  full : ∀ b ∈ blocks, ∀ l f, T (.ipt b .np1) l = some f → f.type = .fullTensorIntPt → Req.plain l ∈ reqs →
    ∃ g, T (.elem b) l = some g ∧ g.type = .fullTensorElem

/-! ## Requests -/

theorem addPrefix_small (l : Str) {n : ℕ} (h : n ≤ 9) :
    addPrefix l n = 'i' :: 'p' :: 't' :: '0' :: Fields.digitChar n :: '_' :: l := by
  have hd : Fields.decimal n = [Fields.digitChar n] := by
    rw [Fields.decimal]; simp; omega
  have : Fields.intText (n : ℤ) = [Fields.digitChar n] := by
    show Fields.decimal n = _
    exact hd
  simp [addPrefix, this]

/-- Field label, flag and index of a request. -/
def Req.field : Req → Str
  | .volume => "volume".toList
  | .plain l => l
  | .point _ l => l
def Req.single : Req → Bool
  | .point _ _ => true
  | _ => false
def Req.index : Req → ℤ
  | .point n _ => (n : ℤ) - 1
  | _ => -1

theorem atoi_digit {n : ℕ} (h : n ≤ 9) : atoi [Fields.digitChar n, '_'] = n := by
  interval_cases n <;> decide +kernel

theorem parse_text {N : ℕ} {q : Req} (h : q.Ok N) : parseRequest q.text = some (q.field, q.single, q.index) := by
  cases q with
  | volume => decide +kernel
  | plain l =>
    show parseRequest l = _
    rw [parseRequest, if_neg h.2]; rfl
  | point n l =>
    obtain ⟨h1, h2, h3⟩ := h
    simp only [Req.text, addPrefix_small l h3, Req.field, Req.single, Req.index]
    simp [parseRequest, atoi_digit h3]

theorem text_ipt {N : ℕ} {q : Req} (h : q.Ok N) : q.text.take 3 = "ipt".toList ↔ q.single = true := by
  cases q with
  | volume => decide +kernel
  | plain l => exact ⟨fun hh => absurd hh h.2, fun hh => by simp [Req.single] at hh⟩
  | point n l => simp [Req.text, addPrefix_small l h.2.2, Req.single]

/-! ## Specification of the columns -/

def iptT (sym : Bool) : FType := if sym then .symTensorIntPt else .fullTensorIntPt
def elemT (sym : Bool) : FType := if sym then .symTensorElem else .fullTensorElem
def compsOf (sym : Bool) : List (Str × ℕ) := if sym then symComponents else fullComponents

/-- The field of the new state with the type of the loop. -/
def src (T : Tab K) (b : ℤ) (sym : Bool) (q : Req) : Option (Fld K) := T.get (.ipt b .np1) q.field (iptT sym)

def tcols (T : Tab K) (b : ℤ) (sym : Bool) (q : Req) : List ElemCol :=
  match src T b sym q with
  | some f => (compsOf sym).map fun sc =>
      ⟨q.text ++ sc.1, q.field, if q.single then q.text else q.field, elemT sym, q.index, sc.2, f.num⟩
  | none => []

def taves (T : Tab K) (b : ℤ) (sym : Bool) (q : Req) : List Str :=
  match src T b sym q with
  | some _ => if q.single then [] else [q.field]
  | none => []

/-- The new element field of a request for one point. -/
def newField [Zero K] (T : Tab K) (b : ℤ) (r : Str) : Option (Fld K) :=
  (T (.ipt b .np1) (r.drop 6)).map fun f =>
    ⟨if f.type = .symTensorIntPt then .symTensorElem else .fullTensorElem, f.num, fun _ _ _ => 0⟩

/-- Only element data with the prefix has been added. -/
def Keep (T T' : Tab K) : Prop :=
  ∀ p l, T' p l = T p l ∨ ((∃ b, p = .elem b) ∧ l.take 3 = "ipt".toList)

theorem Keep.ipt {T T' : Tab K} (h : Keep T T') (b : ℤ) (s : Step) (l : Str) : T' (.ipt b s) l = T (.ipt b s) l := by
  rcases h (.ipt b s) l with h | ⟨⟨c, hc⟩, -⟩
  · exact h
  · cases hc

theorem Keep.elem {T T' : Tab K} (h : Keep T T') (b : ℤ) (l : Str) (hl : l.take 3 ≠ "ipt".toList) :
    T' (.elem b) l = T (.elem b) l := by
  rcases h (.elem b) l with h | ⟨-, hc⟩
  · exact h
  · exact absurd hc hl

theorem Keep.refl (T : Tab K) : Keep T T := fun _ _ => Or.inl rfl

/-- The element field of a point request is in place. -/
def Placed [Zero K] (T T' : Tab K) (b : ℤ) (r : Str) : Prop := T' (.elem b) r = newField T b r

theorem inner_loop {α : Type*} (L : List Str) (hL : L.Nodup) (field : Str) (g : Str → α → Option α) (o : α) :
    L.foldlM (fun o l => if field = l then g l o else some o) o = if field ∈ L then g field o else some o := by
  induction L generalizing o with
  | nil => simp
  | cons a L ih =>
    simp only [List.nodup_cons] at hL
    rw [List.foldlM_cons]
    by_cases h : field = a
    · subst h
      simp only [if_true, List.mem_cons, true_or]
      cases g field o with
      | none => rfl
      | some o' =>
        show List.foldlM _ o' L = some o'
        rw [ih hL.2, if_neg hL.1]
    · simp only [if_neg h, List.mem_cons, h, false_or]
      exact ih hL.2 o

theorem mem_labelsOf {labels : List Str} {T : Tab K} {p : Place} {t : FType} {l : Str}
    (hc : T p l ≠ none → l ∈ labels) : l ∈ labelsOf labels T p t ↔ T.type p l = some t := by
  unfold labelsOf
  simp only [List.mem_filter, decide_eq_true_eq]
  constructor
  · exact fun h => h.2
  · intro h
    refine ⟨hc ?_, h⟩
    rintro e
    simp [Tab.type, e] at h

/-- One request of a tensor loop, in closed form. -/
theorem addTensor_spec [Zero K] {N : ℕ} {labels : List Str} {T : Tab K} {blocks : List ℤ} {reqs : List Req}
    (hreg : Registered labels T blocks reqs) (sym : Bool) (b : ℤ) {q : Req} (hq : q.Ok N)
    (o : BlockOut K) (hk : Keep T o.T) :
    ∃ o', (if q.field ∈ labelsOf labels o.T (.ipt b .np1) (iptT sym) then
        addTensor sym b q.text q.field q.single q.index o else some o) = some o' ∧
      Keep T o'.T ∧ o'.cols = o.cols ++ tcols T b sym q ∧
      o'.symAve = o.symAve ++ (if sym then taves T b sym q else []) ∧
      o'.fullAve = o.fullAve ++ (if sym then [] else taves T b sym q) ∧
      (∀ c r, Placed T o.T c r → Placed T o'.T c r) ∧
      (q.single = true → src T b sym q ≠ none → Placed T o'.T b q.text) := by
  have hmem : q.field ∈ labelsOf labels o.T (.ipt b .np1) (iptT sym) ↔ ∃ f, src T b sym q = some f := by
    rw [mem_labelsOf (by rw [hk.ipt]; exact hreg.covers b q.field), Tab.type, hk.ipt, src, Tab.get]
    cases T (.ipt b .np1) q.field with
    | none => simp
    | some f => simp
  have hget : o.T.get (.ipt b .np1) q.field (iptT sym) = src T b sym q := by
    simp [Tab.get, src, hk.ipt]
  cases e : src T b sym q with
  | none =>
    rw [if_neg (by rw [hmem, e]; simp)]
    refine ⟨o, rfl, hk, by simp [tcols, e], by simp [taves, e], by simp [taves, e], fun _ _ h => h, by simp⟩
  | some f =>
    rw [if_pos (by rw [hmem, e]; simp)]
    have hf : T (.ipt b .np1) q.field = some f ∧ f.type = iptT sym := by
      simp only [src, Tab.get, Option.bind_eq_some_iff] at e
      obtain ⟨g, h1, h2⟩ := e
      split at h2
      · cases h2; exact ⟨h1, by assumption⟩
      · cases h2
    rw [e] at hget
    unfold addTensor
    simp only [show (if sym = true then FType.symTensorIntPt else FType.fullTensorIntPt) = iptT sym from rfl,
      show (if sym = true then FType.symTensorElem else FType.fullTensorElem) = elemT sym from rfl,
      show (if sym = true then symComponents else fullComponents) = compsOf sym from rfl, hget, Option.map_some]
    refine ⟨_, rfl, ?_, by simp [tcols, e], ?_, ?_, ?_, ?_⟩
    · cases hs : q.single with
      | false => simpa [hs] using hk
      | true =>
        intro p l
        simp only [if_true, Tab.put]
        split
        · rename_i h; obtain ⟨rfl, rfl⟩ := h
          exact Or.inr ⟨⟨b, rfl⟩, (text_ipt hq).2 hs⟩
        · exact hk p l
    · cases sym <;> cases hs : q.single <;> simp [taves, e, hs]
    · cases sym <;> cases hs : q.single <;> simp [taves, e, hs]
    · intro c r hcr
      cases hs : q.single with
      | false => simpa [hs] using hcr
      | true =>
        simp only [if_true, Placed, Tab.put]
        split
        · rename_i h
          simp only [Place.elem.injEq] at h
          obtain ⟨rfl, rfl⟩ := h
          have hd : q.text.drop 6 = q.field := by
            cases q with
            | point n l => simp [Req.text, addPrefix_small l hq.2.2, Req.field]
            | volume => simp [Req.single] at hs
            | plain l => simp [Req.single] at hs
          simp only [newField, hd, hf.1, Option.map_some, hf.2]
          cases sym <;> simp [iptT, elemT]
        · exact hcr
    · intro hs _
      have hd : q.text.drop 6 = q.field := by
        cases q with
        | point n l => simp [Req.text, addPrefix_small l hq.2.2, Req.field]
        | volume => simp [Req.single] at hs
        | plain l => simp [Req.single] at hs
      simp only [Placed, hs, if_true, Tab.put, and_self, newField, hd, hf.1, Option.map_some, hf.2]
      cases sym <;> simp [iptT, elemT]

/-- The loops over the requests, in closed form. -/
theorem tensorLoop_spec [Zero K] {N : ℕ} {labels : List Str} {T : Tab K} {blocks : List ℤ} {reqs : List Req}
    (hreg : Registered labels T blocks reqs) (sym : Bool) (b : ℤ) (qs : List Req) (hqs : ∀ q ∈ qs, q.Ok N)
    (L : List Str) (hL : L.Nodup) (hLm : ∀ l, l ∈ L ↔ T.type (.ipt b .np1) l = some (iptT sym))
    (F : BlockOut K → Str → Option (BlockOut K))
    (hF : ∀ o, ∀ q ∈ qs, F o q.text = L.foldlM (fun o l =>
      if q.field = l then addTensor sym b q.text l q.single q.index o else some o) o)
    (o : BlockOut K) (hk : Keep T o.T) :
    ∃ o', (qs.map Req.text).foldlM F o = some o' ∧
      Keep T o'.T ∧ o'.cols = o.cols ++ qs.flatMap (tcols T b sym) ∧
      o'.symAve = o.symAve ++ (if sym then qs.flatMap (taves T b sym) else []) ∧
      o'.fullAve = o.fullAve ++ (if sym then [] else qs.flatMap (taves T b sym)) ∧
      (∀ c r, Placed T o.T c r → Placed T o'.T c r) ∧
      (∀ q ∈ qs, q.single = true → src T b sym q ≠ none → Placed T o'.T b q.text) := by
  induction qs generalizing o with
  | nil => exact ⟨o, rfl, hk, by simp, by simp, by simp, fun _ _ h => h, by simp⟩
  | cons q qs ih =>
    obtain ⟨o1, e1, k1, c1, s1, f1, p1, n1⟩ := addTensor_spec hreg sym b (hqs q List.mem_cons_self) o hk
    have hm : (q.field ∈ L) ↔ q.field ∈ labelsOf labels o.T (.ipt b .np1) (iptT sym) := by
      rw [hLm, mem_labelsOf (by rw [hk.ipt]; exact hreg.covers b q.field), Tab.type, Tab.type, hk.ipt]
    have e1' : F o q.text = some o1 := by
      rw [hF o q List.mem_cons_self, inner_loop L hL q.field (fun l o => addTensor sym b q.text l q.single q.index o)]
      rw [← e1]
      by_cases h : q.field ∈ L
      · rw [if_pos h, if_pos (hm.1 h)]
      · rw [if_neg h, if_neg (fun h' => h (hm.2 h'))]
    obtain ⟨o2, e2, k2, c2, s2, f2, p2, n2⟩ := ih (fun q' h => hqs q' (List.mem_cons_of_mem _ h))
      (fun o q' h => hF o q' (List.mem_cons_of_mem _ h)) o1 k1
    refine ⟨o2, ?_, k2, ?_, ?_, ?_, fun c r h => p2 c r (p1 c r h), ?_⟩
    · rw [List.map_cons, List.foldlM_cons, e1']; exact e2
    · rw [c2, c1]; simp
    · rw [s2, s1]; cases sym <;> simp
    · rw [f2, f1]; cases sym <;> simp
    · intro q' hq' hs hsrc
      rcases List.mem_cons.1 hq' with rfl | hq'
      · exact p2 _ _ (n1 hs hsrc)
      · exact n2 q' hq' hs hsrc

def vcols (T : Tab K) (b : ℤ) (q : Req) : List ElemCol :=
  if q = .volume then
    [⟨"volume".toList, "volume".toList, "volume".toList, .scalarElem, -1, 0, T.extent (.elem b) "volume".toList⟩]
  else []

theorem text_volume {N : ℕ} {q : Req} (h : q.Ok N) : q.text = "volume".toList ↔ q = .volume := by
  cases q with
  | volume => simp [Req.text]
  | plain l => simpa [Req.text] using h.1
  | point n l => simp [Req.text, addPrefix_small l h.2.2]

theorem volumeLoop_spec {N : ℕ} {labels : List Str} {T : Tab K} {blocks : List ℤ} {reqs : List Req}
    (hreg : Registered labels T blocks reqs) {b : ℤ} (hb : b ∈ blocks) (qs : List Req) (hqs : ∀ q ∈ qs, q.Ok N)
    (hsub : ∀ q ∈ qs, q ∈ reqs) (o : BlockOut K) (hk : Keep T o.T) :
    volumeLoop b (qs.map Req.text) o = some { o with cols := o.cols ++ qs.flatMap (vcols T b) } := by
  induction qs generalizing o with
  | nil => simp [volumeLoop]
  | cons q qs ih =>
    unfold volumeLoop at ih ⊢
    rw [List.map_cons, List.foldlM_cons]
    by_cases hv : q = .volume
    · subst hv
      obtain ⟨g, hg, hgt⟩ := hreg.volume (hsub _ List.mem_cons_self) b hb
      have hg' : o.T (.elem b) "volume".toList = some g := by
        rw [hk.elem b _ (by decide)]; exact hg
      have : o.T.get (.elem b) "volume".toList .scalarElem = some g := by
        rw [Tab.get, hg', Option.bind_some, if_pos hgt]
      simp only [Req.text, if_true, this, Option.map_some]
      rw [Option.bind_eq_bind, Option.bind_some]
      refine (ih (fun q' h => hqs q' (List.mem_cons_of_mem _ h)) (fun q' h => hsub q' (List.mem_cons_of_mem _ h))
        { o with cols := o.cols ++ [⟨"volume".toList, "volume".toList, "volume".toList, .scalarElem, -1, 0, g.num⟩] }
        hk).trans ?_
      simp only [vcols, Tab.extent, hg, List.flatMap_cons, if_true, Option.map_some, Option.getD_some,
        List.append_assoc]
    · have : q.text ≠ "volume".toList := fun h => hv ((text_volume (hqs q List.mem_cons_self)).1 h)
      simp only [if_neg this]
      rw [Option.bind_eq_bind, Option.bind_some]
      refine (ih (fun q' h => hqs q' (List.mem_cons_of_mem _ h)) (fun q' h => hsub q' (List.mem_cons_of_mem _ h)) _ hk).trans ?_
      simp [vcols, hv]

/-- Everything the pass over a block leaves behind. -/
structure BlockSpec [Zero K] (T : Tab K) (b : ℤ) (reqs : List Req) (o : BlockOut K) : Prop where
  cols : o.cols = reqs.flatMap (vcols T b) ++ reqs.flatMap (tcols T b true) ++ reqs.flatMap (tcols T b false)
  symAve : o.symAve = reqs.flatMap (taves T b true)
  fullAve : o.fullAve = reqs.flatMap (taves T b false)

theorem specifyBlock_spec [Zero K] {N : ℕ} {labels : List Str} {T T' : Tab K} {blocks : List ℤ} {reqs : List Req}
    (hreg : Registered labels T blocks reqs) {b : ℤ} (hb : b ∈ blocks) (hqs : ∀ q ∈ reqs, q.Ok N)
    (hk : Keep T T') :
    ∃ o, specifyBlock labels b (reqs.map Req.text) T' = some o ∧ Keep T o.T ∧ BlockSpec T b reqs o ∧
      (∀ c r, Placed T T' c r → Placed T o.T c r) ∧
      (∀ sym, ∀ q ∈ reqs, q.single = true → src T b sym q ≠ none → Placed T o.T b q.text) := by
  unfold specifyBlock
  rw [volumeLoop_spec hreg hb reqs hqs (fun _ h => h) ⟨T', [], [], []⟩ hk, Option.bind_some]
  have hLm : ∀ sym l, l ∈ labelsOf labels T' (.ipt b .np1) (iptT sym) ↔ T.type (.ipt b .np1) l = some (iptT sym) := by
    intro sym l
    rw [mem_labelsOf (by rw [hk.ipt]; exact hreg.covers b l), Tab.type, Tab.type, hk.ipt]
  have hnd : ∀ t, (labelsOf labels T' (.ipt b .np1) t).Nodup := fun t => hreg.nodup.filter _
  obtain ⟨o1, e1, k1, c1, s1, f1, p1, n1⟩ := tensorLoop_spec hreg true b reqs hqs
    (labelsOf labels T' (.ipt b .np1) .symTensorIntPt) (hnd _) (hLm true)
    (fun o r => (labelsOf labels T' (.ipt b .np1) .symTensorIntPt).foldlM (fun o l =>
      (parseRequest r).bind fun (field, single, index) =>
      if field = l then addTensor true b r l single index o else some o) o)
    (by intro o q hq; simp only [parse_text (hqs q hq), Option.bind_some])
    ⟨T', [] ++ reqs.flatMap (vcols T b), [], []⟩ hk
  have e1' : symLoop b (reqs.map Req.text) (labelsOf labels T' (.ipt b .np1) .symTensorIntPt)
      ⟨T', [] ++ reqs.flatMap (vcols T b), [], []⟩ = some o1 := e1
  rw [e1', Option.bind_some]
  obtain ⟨o2, e2, k2, c2, s2, f2, p2, n2⟩ := tensorLoop_spec hreg false b reqs hqs
    (labelsOf labels T' (.ipt b .np1) .fullTensorIntPt) (hnd _) (hLm false)
    (fun o r => (parseRequest r).bind fun (field, single, index) =>
      (labelsOf labels T' (.ipt b .np1) .fullTensorIntPt).foldlM (fun o l =>
      if field = l then addTensor false b r l single index o else some o) o)
    (by intro o q hq; simp only [parse_text (hqs q hq), Option.bind_some]) o1 k1
  refine ⟨o2, e2, k2, ⟨?_, ?_, ?_⟩, fun c r h => p2 c r (p1 c r h), ?_⟩
  · rw [c2, c1]; simp
  · rw [s2, s1]; simp
  · rw [f2, f1]; simp
  · intro sym q hq hs hsrc
    cases sym with
    | true => exact p2 _ _ (n1 q hq hs hsrc)
    | false => exact n2 q hq hs hsrc

theorem specifyBlocks_spec [Zero K] {N : ℕ} {labels : List Str} {T : Tab K} {blocks : List ℤ} {reqs : List Req}
    (hreg : Registered labels T blocks reqs) (hqs : ∀ q ∈ reqs, q.Ok N) (bs : List ℤ) (hbs : ∀ b ∈ bs, b ∈ blocks)
    (T' : Tab K) (hk : Keep T T') :
    ∃ T1 os, specifyBlocks labels (reqs.map Req.text) bs T' = some (T1, os) ∧ Keep T T1 ∧
      os.map (·.1) = bs ∧ (∀ bo ∈ os, BlockSpec T bo.1 reqs bo.2) ∧
      (∀ c r, Placed T T' c r → Placed T T1 c r) ∧
      (∀ b ∈ bs, ∀ sym, ∀ q ∈ reqs, q.single = true → src T b sym q ≠ none → Placed T T1 b q.text) := by
  induction bs generalizing T' with
  | nil => exact ⟨T', [], rfl, hk, rfl, by simp, fun _ _ h => h, by simp⟩
  | cons b bs ih =>
    obtain ⟨o, e, k, s, p, n⟩ := specifyBlock_spec hreg (hbs b List.mem_cons_self) hqs hk
    obtain ⟨T1, os, e1, k1, m1, s1, p1, n1⟩ := ih (fun c h => hbs c (List.mem_cons_of_mem _ h)) o.T k
    refine ⟨T1, (b, o) :: os, by simp [specifyBlocks, e, e1], k1, by simp [m1], ?_,
      fun c r h => p1 c r (p c r h), ?_⟩
    · intro bo hbo
      rcases List.mem_cons.1 hbo with rfl | hbo
      · exact s
      · exact s1 bo hbo
    · intro c hc sym q hq hs hsrc
      rcases List.mem_cons.1 hc with rfl | hc
      · exact p1 _ _ (n sym q hq hs hsrc)
      · exact n1 c hc sym q hq hs hsrc

/-! ## Values -/

/-- The value that belongs under an element label of a block. -/
def val [Zero K] (E : ElementOps K) (T : Tab K) (b : ℤ) (r : Str) (e i : ℕ) : K :=
  if r = "volume".toList then E.volume b e
  else match parseRequest r with
    | some (l, true, k) => ((T (.ipt b .np1) l).map fun f => f.data e k.toNat i).getD 0
    | _ => E.average b e fun q => ((T (.ipt b .np1) r).map fun f => f.data e q i).getD 0

/-- Written: the element field has its value. -/
def Done [Zero K] (E : ElementOps K) (T T' : Tab K) (b : ℤ) (r : Str) : Prop :=
  ∃ f, T' (.elem b) r = some f ∧ ∀ e i, f.data e 0 i = val E T b r e i

/-- During the computation: integration-point data are those of `T`, types of element data those of `T1`. -/
structure During (T T1 T' : Tab K) : Prop where
  ipt : ∀ b s l, T' (.ipt b s) l = T (.ipt b s) l
  typ : ∀ b l, T'.type (.elem b) l = T1.type (.elem b) l

theorem fill_spec [Zero K] (E : ElementOps K) {T T1 T' : Tab K} (h : During T T1 T') {b : ℤ} {r : Str} {t : FType}
    (ht : T1.type (.elem b) r = some t) {d : ℕ → ℕ → ℕ → K} (hd : ∀ e i, d e 0 i = val E T b r e i) :
    ∃ T'', T'.fill (.elem b) r t d = some T'' ∧ During T T1 T'' ∧ Done E T T'' b r ∧
      ∀ c m, Done E T T' c m → Done E T T'' c m := by
  have hty := h.typ b r
  rw [ht, Tab.type] at hty
  obtain ⟨f, hf, hft⟩ := Option.map_eq_some_iff.1 hty
  refine ⟨T'.put (.elem b) r { f with data := d }, by simp [Tab.fill, Tab.get, hf, hft], ⟨?_, ?_⟩, ?_, ?_⟩
  · intro c s l; simp only [Tab.put, reduceCtorEq, false_and, if_false]; exact h.ipt c s l
  · intro c l
    rw [← h.typ c l]
    simp only [Tab.type, Tab.put]
    split
    · rename_i hh; simp only [Place.elem.injEq] at hh; obtain ⟨rfl, rfl⟩ := hh; simp [hf]
    · rfl
  · exact ⟨{ f with data := d }, by simp [Tab.put], hd⟩
  · intro c m hcm
    by_cases hh : c = b ∧ m = r
    · obtain ⟨rfl, rfl⟩ := hh
      exact ⟨{ f with data := d }, by simp [Tab.put], hd⟩
    · obtain ⟨g, hg, hgv⟩ := hcm
      refine ⟨g, ?_, hgv⟩
      simp only [Tab.put, Place.elem.injEq, hh, if_false]
      exact hg

/-- Loops of writes. -/
theorem fold_during [Zero K] {E : ElementOps K} {T T1 : Tab K} {α : Type*} (xs : List α)
    (F : Tab K → α → Option (Tab K)) (tgt : α → ℤ → Str → Prop)
    (hF : ∀ x ∈ xs, ∀ T', During T T1 T' → ∃ T'', F T' x = some T'' ∧ During T T1 T'' ∧
      (∀ c m, Done E T T' c m → Done E T T'' c m) ∧ ∀ c m, tgt x c m → Done E T T'' c m)
    (T' : Tab K) (h : During T T1 T') :
    ∃ T'', xs.foldlM F T' = some T'' ∧ During T T1 T'' ∧
      (∀ c m, Done E T T' c m → Done E T T'' c m) ∧ ∀ x ∈ xs, ∀ c m, tgt x c m → Done E T T'' c m := by
  induction xs generalizing T' with
  | nil => exact ⟨T', rfl, h, fun _ _ h => h, by simp⟩
  | cons x xs ih =>
    obtain ⟨T2, e2, d2, m2, t2⟩ := hF x List.mem_cons_self T' h
    obtain ⟨T3, e3, d3, m3, t3⟩ := ih (fun y hy => hF y (List.mem_cons_of_mem _ hy)) T2 d2
    refine ⟨T3, by simp [e2, e3], d3, fun c m hh => m3 c m (m2 c m hh), ?_⟩
    intro y hy c m hh
    rcases List.mem_cons.1 hy with rfl | hy
    · exact m3 c m (t2 c m hh)
    · exact t3 y hy c m hh

theorem src_some {T : Tab K} {b : ℤ} {sym : Bool} {q : Req} {f : Fld K} (h : src T b sym q = some f) :
    T (.ipt b .np1) q.field = some f ∧ f.type = iptT sym := by
  simp only [src, Tab.get, Option.bind_eq_some_iff] at h
  obtain ⟨g, h1, h2⟩ := h
  split at h2
  · cases h2; exact ⟨h1, by assumption⟩
  · cases h2

theorem mem_tcols {T : Tab K} {b : ℤ} {sym : Bool} {q : Req} {c : ElemCol} (h : c ∈ tcols T b sym q) :
    ∃ f, src T b sym q = some f ∧ c.iptdata = q.field ∧ c.edata = (if q.single then q.text else q.field) ∧
      c.type = elemT sym ∧ c.point = q.index := by
  unfold tcols at h
  cases e : src T b sym q with
  | none => simp [e] at h
  | some f =>
    simp only [e, List.mem_map] at h
    obtain ⟨sc, -, rfl⟩ := h
    exact ⟨f, rfl, rfl, rfl, rfl, rfl⟩

theorem val_point [Zero K] (E : ElementOps K) {N : ℕ} {T : Tab K} {b : ℤ} {q : Req} (hq : q.Ok N)
    (hs : q.single = true) {f : Fld K} (hf : T (.ipt b .np1) q.field = some f) (e i : ℕ) :
    val E T b q.text e i = f.data e q.index.toNat i := by
  have hv : q.text ≠ "volume".toList := by
    rw [Ne, text_volume hq]; rintro rfl; simp [Req.single] at hs
  simp only [val, if_neg hv, parse_text hq, hs, hf, Option.map_some, Option.getD_some]

theorem val_plain [Zero K] (E : ElementOps K) {N : ℕ} {T : Tab K} {b : ℤ} {q : Req} (hq : q.Ok N)
    (hs : q.single = false) (hv : q ≠ .volume) {f : Fld K} (hf : T (.ipt b .np1) q.field = some f) (e i : ℕ) :
    val E T b q.field e i = E.average b e fun k => f.data e k i := by
  cases q with
  | volume => exact absurd rfl hv
  | point n l => simp [Req.single] at hs
  | plain l =>
    have := parse_text hq
    simp only [Req.text, Req.single, Req.field] at this hf ⊢
    simp only [val, if_neg hq.1, this, hf, Option.map_some, Option.getD_some]

/-- The type of the element field of a column. -/
theorem col_type [Zero K] {N : ℕ} {labels : List Str} {T T1 : Tab K} {blocks : List ℤ} {reqs : List Req}
    (hreg : Registered labels T blocks reqs) (hqs : ∀ q ∈ reqs, q.Ok N) (hk : Keep T T1)
    (hp : ∀ b ∈ blocks, ∀ sym, ∀ q ∈ reqs, q.single = true → src T b sym q ≠ none → Placed T T1 b q.text)
    {b : ℤ} (hb : b ∈ blocks) {sym : Bool} {q : Req} (hq : q ∈ reqs) {f : Fld K} (hsrc : src T b sym q = some f) :
    T1.type (.elem b) (if q.single then q.text else q.field) = some (elemT sym) := by
  obtain ⟨hf, hft⟩ := src_some hsrc
  cases hs : q.single with
  | true =>
    have := hp b hb sym q hq hs (by rw [hsrc]; simp)
    have hd : q.text.drop 6 = q.field := by
      cases q with
      | point n l => simp [Req.text, addPrefix_small l (hqs _ hq).2.2, Req.field]
      | volume => simp [Req.single] at hs
      | plain l => simp [Req.single] at hs
    simp only [if_true, Tab.type]
    rw [this, newField, hd, hf]
    cases sym <;> simp [hft, iptT, elemT]
  | false =>
    have hn := hreg.names b q.field (by rw [hf]; simp)
    cases q with
    | point n l => simp [Req.single] at hs
    | volume => simp [Req.field] at hn
    | plain l =>
      simp only [Req.field] at hn hf ⊢
      simp only [Bool.false_eq_true, if_false, Tab.type]
      rw [hk.elem b l hn.2]
      cases sym with
      | true => obtain ⟨g, hg, hgt⟩ := hreg.sym b hb l f hf hft hq; simp [hg, hgt, elemT]
      | false => obtain ⟨g, hg, hgt⟩ := hreg.full b hb l f hf hft hq; simp [hg, hgt, elemT]

theorem compute_spec [Zero K] (E : ElementOps K) {labels : List Str} {T T1 : Tab K} {blocks : List ℤ}
    {reqs : List Req} (hreg : Registered labels T blocks reqs) (hqs : ∀ q ∈ reqs, q.Ok E.numPoints)
    (hk : Keep T T1)
    (hp : ∀ b ∈ blocks, ∀ sym, ∀ q ∈ reqs, q.single = true → src T b sym q ≠ none → Placed T T1 b q.text)
    (os : List (ℤ × BlockOut K)) (hos : ∀ bo ∈ os, bo.1 ∈ blocks ∧ BlockSpec T bo.1 reqs bo.2) :
    ∃ T', computeElementData E (decide ("volume".toList ∈ reqs.map Req.text)) os T1 = some T' ∧ During T T1 T' ∧
      (Req.volume ∈ reqs → ∀ bo ∈ os, Done E T T' bo.1 "volume".toList) ∧
      ∀ bo ∈ os, ∀ sym, ∀ q ∈ reqs, src T bo.1 sym q ≠ none →
        Done E T T' bo.1 (if q.single then q.text else q.field) := by
  have h0 : During T T1 T1 := ⟨fun b s l => hk.ipt b s l, fun _ _ => rfl⟩
  -- volumes
  obtain ⟨T2, e2, d2, v2⟩ : ∃ T2, computeVolume E (decide ("volume".toList ∈ reqs.map Req.text)) (os.map (·.1)) T1
      = some T2 ∧ During T T1 T2 ∧ (Req.volume ∈ reqs → ∀ bo ∈ os, Done E T T2 bo.1 "volume".toList) := by
    by_cases hv : Req.volume ∈ reqs
    · have hv' : "volume".toList ∈ reqs.map Req.text := List.mem_map.2 ⟨.volume, hv, rfl⟩
      obtain ⟨T2, e2, d2, -, t2⟩ := fold_during (E := E) (os.map (·.1))
        (fun T b => T.fill (.elem b) "volume".toList .scalarElem fun e _ _ => E.volume b e)
        (fun b c m => c = b ∧ m = "volume".toList) (by
          intro b hb T' h
          obtain ⟨bo, hbo, rfl⟩ := List.mem_map.1 hb
          obtain ⟨g, hg, hgt⟩ := hreg.volume hv bo.1 (hos bo hbo).1
          have ht : T1.type (.elem bo.1) "volume".toList = some .scalarElem := by
            rw [Tab.type, hk.elem bo.1 _ (by decide), hg]; simp [hgt]
          obtain ⟨T'', e, dd, dn, mono⟩ := fill_spec E h ht (d := fun e _ _ => E.volume bo.1 e)
            (by intro e i; simp [val])
          exact ⟨T'', e, dd, mono, by rintro c m ⟨rfl, rfl⟩; exact dn⟩) T1 h0
      exact ⟨T2, by simp only [computeVolume, hv', decide_true, if_true, e2], d2,
        fun _ bo hbo => t2 bo.1 (List.mem_map_of_mem hbo) bo.1 _ ⟨rfl, rfl⟩⟩
    · have hv' : "volume".toList ∉ reqs.map Req.text := by
        intro h
        obtain ⟨q, hq, hqt⟩ := List.mem_map.1 h
        exact hv ((text_volume (hqs q hq)).1 hqt ▸ hq)
      exact ⟨T1, by simp only [computeVolume, hv', decide_false, Bool.false_eq_true, if_false], h0,
        fun h => absurd h hv⟩
  -- extraction
  obtain ⟨T3, e3, d3, m3, t3⟩ := fold_during (E := E) (T := T) (T1 := T1) os
    (fun T (bo : ℤ × BlockOut K) => bo.2.cols.foldlM (extractColumn E bo.1) T)
    (fun bo c m => c = bo.1 ∧ ∃ sym, ∃ q ∈ reqs, q.single = true ∧ src T bo.1 sym q ≠ none ∧ m = q.text) (by
      intro bo hbo T' h
      obtain ⟨hb, hspec⟩ := hos bo hbo
      obtain ⟨T'', e, dd, mono, tg⟩ := fold_during (E := E) bo.2.cols (extractColumn E bo.1)
        (fun col c m => c = bo.1 ∧ m = col.edata ∧ col.point ≠ -1 ∧ col.type ≠ .scalarElem) (by
          intro col hcol T' h
          rw [hspec.cols] at hcol
          simp only [List.mem_append, List.mem_flatMap] at hcol
          have key : ∀ sym, ∀ q ∈ reqs, col ∈ tcols T bo.1 sym q →
              ∃ T'', extractColumn E bo.1 T' col = some T'' ∧ During T T1 T'' ∧
              (∀ c m, Done E T T' c m → Done E T T'' c m) ∧
              ∀ c m, (c = bo.1 ∧ m = col.edata ∧ col.point ≠ -1 ∧ col.type ≠ .scalarElem) → Done E T T'' c m := by
            intro sym q hq hc
            obtain ⟨f, hsrc, h1, h2, h3, h4⟩ := mem_tcols hc
            obtain ⟨hf, hft⟩ := src_some hsrc
            cases hs : q.single with
            | false =>
              have : col.point = -1 := by
                rw [h4]; cases q <;> simp_all [Req.single, Req.index]
              refine ⟨T', by simp [extractColumn, this], h, fun _ _ h => h, ?_⟩
              rintro c m ⟨-, -, hne, -⟩; exact absurd this hne
            | true =>
              have hrange : 0 ≤ col.point ∧ col.point < E.numPoints := by
                rw [h4]
                cases q with
                | point n l => have := hqs _ hq; simp only [Req.index]; simp only [Req.Ok] at this; omega
                | volume => simp [Req.single] at hs
                | plain l => simp [Req.single] at hs
              have hne : col.point ≠ -1 := by omega
              have hed : col.edata = q.text := by rw [h2, hs]; simp
              have hty : T1.type (.elem bo.1) col.edata = some (elemT sym) := by
                rw [h2]; exact col_type hreg hqs hk hp hb hq hsrc
              obtain ⟨T'', e, dd, dn, mono⟩ := fill_spec E h hty
                (d := fun e _ i => f.data e col.point.toNat i)
                (by intro e i; rw [hed, val_point E (hqs q hq) hs hf, h4])
              have hget : ∀ t, t = iptT sym → T'.get (.ipt bo.1 .np1) col.iptdata t = some f := by
                rintro t rfl; simp [Tab.get, h.ipt, h1, hf, hft]
              refine ⟨T'', ?_, dd, mono, by rintro c m ⟨rfl, rfl, -, -⟩; exact dn⟩
              cases sym with
              | true =>
                have h3' : col.type = .symTensorElem := h3
                simp only [extractColumn, hne, ne_eq, not_false_eq_true, if_true, h3',
                  hget .symTensorIntPt rfl, Option.bind_some, hrange, and_self]
                exact e
              | false =>
                have h3' : col.type = .fullTensorElem := h3
                simp only [extractColumn, hne, ne_eq, not_false_eq_true, if_true, h3', reduceCtorEq, if_false,
                  hget .fullTensorIntPt rfl, Option.bind_some, hrange, and_self]
                exact e
          rcases hcol with (⟨q, hq, hc⟩ | ⟨q, hq, hc⟩) | ⟨q, hq, hc⟩
          · unfold vcols at hc
            split at hc
            · simp only [List.mem_singleton] at hc
              subst hc
              exact ⟨T', by simp [extractColumn], h, fun _ _ h => h, by rintro c m ⟨-, -, hne, -⟩; exact absurd rfl hne⟩
            · simp at hc
          · exact key true q hq hc
          · exact key false q hq hc) T' h
      refine ⟨T'', e, dd, mono, ?_⟩
      rintro c m ⟨rfl, sym, q, hq, hs, hsrc, rfl⟩
      obtain ⟨f, hf⟩ := Option.ne_none_iff_exists'.1 hsrc
      -- some column of this request
      have hmem : (⟨q.text ++ "_xx".toList, q.field, q.text, elemT sym, q.index, 0, f.num⟩ : ElemCol) ∈ bo.2.cols := by
        have : (⟨q.text ++ "_xx".toList, q.field, q.text, elemT sym, q.index, 0, f.num⟩ : ElemCol)
            ∈ tcols T bo.1 sym q := by
          simp only [tcols, hf, hs, if_true, List.mem_map]
          exact ⟨("_xx".toList, 0), by cases sym <;> simp [compsOf, symComponents, fullComponents], rfl⟩
        rw [hspec.cols]
        cases sym
        · exact List.mem_append_right _ (List.mem_flatMap.2 ⟨q, hq, this⟩)
        · exact List.mem_append_left _ (List.mem_append_right _ (List.mem_flatMap.2 ⟨q, hq, this⟩))
      refine tg _ hmem _ _ ⟨rfl, rfl, ?_, ?_⟩
      · cases q with
        | point n l => have := hqs _ hq; simp only [Req.index]; simp only [Req.Ok] at this; omega
        | volume => simp [Req.single] at hs
        | plain l => simp [Req.single] at hs
      · cases sym <;> simp [elemT]) T2 d2
  -- averages
  have ave : ∀ sym, ∀ bo ∈ os, ∀ ls, ls = reqs.flatMap (taves T bo.1 sym) → ∀ T', During T T1 T' →
      ∃ T'', ls.foldlM (averageField E sym bo.1) T' = some T'' ∧ During T T1 T'' ∧
        (∀ c m, Done E T T' c m → Done E T T'' c m) ∧ ∀ l ∈ ls, Done E T T'' bo.1 l := by
    intro sym bo hbo ls hls T' h
    obtain ⟨T'', e, dd, mono, tg⟩ := fold_during (E := E) ls (averageField E sym bo.1)
      (fun l c m => c = bo.1 ∧ m = l) (by
        intro l hl T' h
        rw [hls] at hl
        obtain ⟨q, hq, hl⟩ := List.mem_flatMap.1 hl
        obtain ⟨f, hsrc, hs, rfl⟩ : ∃ f, src T bo.1 sym q = some f ∧ q.single = false ∧ l = q.field := by
          unfold taves at hl
          cases e : src T bo.1 sym q with
          | none => simp [e] at hl
          | some f =>
            cases hs : q.single with
            | true => simp [e, hs] at hl
            | false => simp [e, hs] at hl; exact ⟨f, rfl, rfl, hl⟩
        obtain ⟨hf, hft⟩ := src_some hsrc
        have hnv : q ≠ .volume := by
          rintro rfl
          exact (hreg.names bo.1 (Req.field .volume) (by rw [hf]; simp)).1 rfl
        have hty := col_type hreg hqs hk hp (hos bo hbo).1 hq hsrc
        simp only [hs, Bool.false_eq_true, if_false] at hty
        obtain ⟨T'', e, dd, dn, mono⟩ := fill_spec E h hty
          (d := fun e _ i => E.average bo.1 e fun k => f.data e k i)
          (by intro e i; rw [val_plain E (hqs q hq) hs hnv hf])
        refine ⟨T'', ?_, dd, mono, by rintro c m ⟨rfl, rfl⟩; exact dn⟩
        have hget : T'.get (.ipt bo.1 .np1) q.field (iptT sym) = some f := by
          simp [Tab.get, h.ipt, hf, hft]
        show (T'.get (.ipt bo.1 .np1) q.field (iptT sym)).bind _ = some T''
        rw [hget, Option.bind_some]
        exact e) T' h
    exact ⟨T'', e, dd, mono, fun l hl => tg l hl _ _ ⟨rfl, rfl⟩⟩
  obtain ⟨T4, e4, d4, m4, t4⟩ := fold_during (E := E) (T := T) (T1 := T1) os
    (fun T (bo : ℤ × BlockOut K) => (bo.2.symAve.foldlM (averageField E true bo.1) T).bind fun T =>
        bo.2.fullAve.foldlM (averageField E false bo.1) T)
    (fun bo c m => c = bo.1 ∧ ∃ sym, m ∈ reqs.flatMap (taves T bo.1 sym)) (by
      intro bo hbo T' h
      obtain ⟨hb, hspec⟩ := hos bo hbo
      obtain ⟨Ta, ea, da, ma, ta⟩ := ave true bo hbo _ hspec.symAve T' h
      obtain ⟨Tb, eb, db, mb, tb⟩ := ave false bo hbo _ hspec.fullAve Ta da
      refine ⟨Tb, by rw [ea, Option.bind_some, eb], db, fun c m hh => mb c m (ma c m hh), ?_⟩
      rintro c m ⟨rfl, sym, hm⟩
      cases sym with
      | true => exact mb _ _ (ta m (by rw [hspec.symAve]; exact hm))
      | false => exact tb m (by rw [hspec.fullAve]; exact hm)) T3 d3
  refine ⟨T4, ?_, d4, fun hv bo hbo => m4 _ _ (m3 _ _ (v2 hv bo hbo)), ?_⟩
  · unfold computeElementData
    rw [e2, Option.bind_some, e3, Option.bind_some, e4]
  · intro bo hbo sym q hq hsrc
    cases hs : q.single with
    | true =>
      simp only [if_true]
      exact m4 _ _ (t3 bo hbo _ _ ⟨rfl, sym, q, hq, hs, hsrc, rfl⟩)
    | false =>
      simp only [Bool.false_eq_true, if_false]
      obtain ⟨f, hf⟩ := Option.ne_none_iff_exists'.1 hsrc
      exact t4 bo hbo _ _ ⟨rfl, sym, List.mem_flatMap.2 ⟨q, hq, by simp [taves, hf, hs]⟩⟩

/-! ## The theorems -/

theorem mapM_some {α β : Type*} (l : List α) (f : α → Option β) (g : α → β) (h : ∀ a ∈ l, f a = some (g a)) :
    l.mapM f = some (l.map g) := by
  induction l with
  | nil => rfl
  | cons a l ih =>
    rw [List.mapM_cons, h a List.mem_cons_self, ih fun b hb => h b (List.mem_cons_of_mem _ hb)]
    rfl

theorem mapM_app {α β : Type*} {l1 l2 : List α} (f : α → Option β) (r1 r2 : List β) (h1 : l1.mapM f = some r1)
    (h2 : l2.mapM f = some r2) : (l1 ++ l2).mapM f = some (r1 ++ r2) := by
  rw [List.mapM_append, h1, h2]; rfl

theorem mapM_flat {α β γ : Type*} (L : List γ) (f : α → Option β) (g : γ → List α) (h : γ → List β)
    (hh : ∀ r ∈ L, (g r).mapM f = some (h r)) : (L.flatMap g).mapM f = some (L.flatMap h) := by
  induction L with
  | nil => rfl
  | cons a L ih =>
    rw [List.flatMap_cons, List.flatMap_cons]
    exact mapM_app f _ _ (hh a List.mem_cons_self) (ih fun r hr => hh r (List.mem_cons_of_mem _ hr))

theorem six_eq : sixNames = symComponents := by decide +kernel
theorem nine_eq : nineNames = fullComponents := by decide +kernel

theorem requestColumns_eq (E : ElementOps K) (T : Tab K) (b : ℤ) (sym : Bool) (q : Req) (hv : q ≠ .volume) :
    requestColumns E T b (iptT sym) (compsOf sym) q = match src T b sym q with
      | some f => (compsOf sym).map fun c => (q.text ++ c.1, (List.range f.num).map fun e =>
          if q.single then f.data e q.index.toNat c.2 else E.average b e fun k => f.data e k c.2)
      | none => [] := by
  cases q with
  | volume => exact absurd rfl hv
  | plain l =>
    simp only [requestColumns, src, Tab.get, Req.field, tensorColumns, Req.text, Req.single]
    cases T (.ipt b .np1) l with
    | none => rfl
    | some f => by_cases h : f.type = iptT sym <;> simp [h]
  | point n l =>
    simp only [requestColumns, src, Tab.get, Req.field, tensorColumns, Req.text, Req.single, Req.index]
    have hn : ((n : ℤ) - 1).toNat = n - 1 := by omega
    cases T (.ipt b .np1) l with
    | none => rfl
    | some f => by_cases h : f.type = iptT sym <;> simp [h, hn]

/-- **C98, elements.**  For every set of blocks, every registry as `InitializeBlocks` leaves it and every
request made of the word `volume`, plain field labels (known or not) and labels of single integration points
`ipt01_…` to `ipt08_…` (as many as there are, at most nine), in any order and with repetitions: the output
succeeds and consists, for every block, of exactly the specified columns with the specified values. -/
theorem element_results_spec [Zero K] (E : ElementOps K) (labels : List Str) (T : Tab K) (blocks : List ℤ)
    (reqs : List Req) (hreg : Registered labels T blocks reqs) (hqs : ∀ q ∈ reqs, q.Ok E.numPoints)
    (request : Str) (hr : getlineSplit request = reqs.map Req.text) :
    elementResults E labels blocks request T = some (blocks.map fun b => (b, blockColumns E T b reqs)) := by
  obtain ⟨T1, os, e1, k1, m1, s1, -, n1⟩ := specifyBlocks_spec hreg hqs blocks (fun _ h => h) T (Keep.refl T)
  have hos : ∀ bo ∈ os, bo.1 ∈ blocks ∧ BlockSpec T bo.1 reqs bo.2 :=
    fun bo hbo => ⟨m1 ▸ List.mem_map_of_mem hbo, s1 bo hbo⟩
  obtain ⟨T', e2, d2, v2, t2⟩ := compute_spec E hreg hqs k1 n1 os hos
  unfold elementResults
  simp only [hr, e1, Option.bind_some, e2]
  have hout : ∀ bo ∈ os, (elemOutput bo.1 T' bo.2.cols).map (fun r => (bo.1, r))
      = some (bo.1, blockColumns E T bo.1 reqs) := by
    intro bo hbo
    obtain ⟨hb, hspec⟩ := hos bo hbo
    have hget : ∀ l t, T1.type (.elem bo.1) l = some t → Done E T T' bo.1 l →
        ∃ f, T'.get (.elem bo.1) l t = some f ∧ ∀ e i, f.data e 0 i = val E T bo.1 l e i := by
      rintro l t ht ⟨f, hf, hv⟩
      refine ⟨f, ?_, hv⟩
      have := d2.typ bo.1 l
      rw [ht, Tab.type, hf] at this
      simp at this
      simp [Tab.get, hf, this]
    have hcol : ∀ c ∈ bo.2.cols, (T'.get (.elem bo.1) c.edata c.type).map (fun f =>
        (c.label, (List.range c.size).map fun i => f.data i 0 c.component))
        = some (c.label, (List.range c.size).map fun e => val E T bo.1 c.edata e c.component) := by
      intro c hc
      rw [hspec.cols] at hc
      simp only [List.mem_append, List.mem_flatMap] at hc
      have key : T1.type (.elem bo.1) c.edata = some c.type ∧ Done E T T' bo.1 c.edata := by
        have tens : ∀ sym, ∀ q ∈ reqs, c ∈ tcols T bo.1 sym q →
            T1.type (.elem bo.1) c.edata = some c.type ∧ Done E T T' bo.1 c.edata := by
          intro sym q hq hc
          obtain ⟨f, hsrc, -, h2, h3, -⟩ := mem_tcols hc
          rw [h2, h3]
          exact ⟨col_type hreg hqs k1 n1 hb hq hsrc, t2 bo hbo sym q hq (by rw [hsrc]; simp)⟩
        rcases hc with (⟨q, hq, hc⟩ | ⟨q, hq, hc⟩) | ⟨q, hq, hc⟩
        · unfold vcols at hc
          split at hc
          · rename_i hv
            subst hv
            simp only [List.mem_singleton] at hc
            subst hc
            obtain ⟨g, hg, hgt⟩ := hreg.volume hq bo.1 hb
            refine ⟨?_, v2 hq bo hbo⟩
            show T1.type (.elem bo.1) "volume".toList = some .scalarElem
            rw [Tab.type, k1.elem bo.1 _ (by decide), hg]; simp [hgt]
          · simp at hc
        · exact tens true q hq hc
        · exact tens false q hq hc
      obtain ⟨f, hf, hv⟩ := hget _ _ key.1 key.2
      rw [hf]
      simp only [Option.map_some, hv]
    unfold elemOutput
    rw [mapM_some _ _ _ hcol, Option.map_some]
    congr 2
    rw [hspec.cols]
    simp only [List.map_append, blockColumns, List.map_flatMap, six_eq, nine_eq]
    have tens : ∀ sym, ∀ q ∈ reqs, (tcols T bo.1 sym q).map (fun c =>
        (c.label, (List.range c.size).map fun e => val E T bo.1 c.edata e c.component))
        = requestColumns E T bo.1 (iptT sym) (compsOf sym) q := by
      intro sym q hq
      by_cases hv : q = .volume
      · subst hv
        have : src T bo.1 sym .volume = none := by
          cases e : src T bo.1 sym .volume with
          | none => rfl
          | some f =>
            have := (src_some e).1
            exact absurd rfl (hreg.names bo.1 (Req.field .volume) (by rw [this]; simp)).1
        simp [tcols, this, requestColumns]
      · rw [requestColumns_eq E T bo.1 sym q hv]
        cases e : src T bo.1 sym q with
        | none => simp [tcols, e]
        | some f =>
          obtain ⟨hf, -⟩ := src_some e
          simp only [tcols, e, List.map_map]
          apply List.map_congr_left
          intro c _
          simp only [Function.comp]
          congr 1
          apply List.map_congr_left
          intro i _
          cases hs : q.single with
          | true => simp only [if_true]; exact val_point E (hqs q hq) hs hf i c.2
          | false => simp only [Bool.false_eq_true, if_false]; exact val_plain E (hqs q hq) hs hv hf i c.2
    congr 1
    congr 1
    · apply List.flatMap_congr
      intro q hq
      unfold vcols
      split
      · simp only [List.map_cons, List.map_nil, val, if_true]
      · rfl
    · exact List.flatMap_congr fun q hq => tens true q hq
    · exact List.flatMap_congr fun q hq => tens false q hq
  have : os.mapM (fun bo => (elemOutput bo.1 T' bo.2.cols).map fun r => (bo.1, r))
      = some (os.map fun bo => (bo.1, blockColumns E T bo.1 reqs)) := mapM_some _ _ _ hout
  rw [this, ← m1, List.map_map]
  rfl

/-- The nodal columns of one requested label. -/
def nodeRequest (T : Tab K) (scalar : Bool) (r : Str) : List (Str × List K) :=
  match T .node r with
  | some f =>
    if scalar then if f.type = .scalarNode then [(r, (List.range f.num).map fun i => f.data i 0 0)] else []
    else if f.type = .vectorNode then
      [(r ++ "_x".toList, (List.range f.num).map fun i => f.data i 0 0),
       (r ++ "_y".toList, (List.range f.num).map fun i => f.data i 0 1),
       (r ++ "_z".toList, (List.range f.num).map fun i => f.data i 0 2)] else []
  | none => []

theorem inner_flatMap {β : Type*} (L : List Str) (hL : L.Nodup) (r : Str) (g : Str → List β) :
    L.flatMap (fun l => if r = l then g l else []) = if r ∈ L then g r else [] := by
  induction L with
  | nil => simp
  | cons a L ih =>
    simp only [List.nodup_cons] at hL
    rw [List.flatMap_cons, ih hL.2]
    by_cases h : r = a
    · subst h; simp [hL.1]
    · simp [h]

/-- **C98, nodes.**  For every request string and every set of nodal fields: the output succeeds; it consists
of one column for every requested scalar field and of the columns `_x`, `_y`, `_z` for every requested vector
field, scalars first, each in the order of the requests, with the current values of all nodes. -/
theorem node_results_spec (labels : List Str) (hnd : labels.Nodup) (T : Tab K)
    (hc : ∀ l, T .node l ≠ none → l ∈ labels) (request : Str) :
    nodeResults labels request T = some ((getlineSplit request).flatMap (nodeRequest T true)
      ++ (getlineSplit request).flatMap (nodeRequest T false)) := by
  unfold nodeResults nodeOutput
  have hmem : ∀ r t, r ∈ labelsOf labels T .node t ↔ ∃ f, T .node r = some f ∧ f.type = t := by
    intro r t
    rw [mem_labelsOf (hc r), Tab.type]; simp
  have hcols : nodeColumns labels T (getlineSplit request)
      = ((getlineSplit request).flatMap fun r => if r ∈ labelsOf labels T .node .scalarNode then
          [⟨r, r, .scalarNode, 0, T.extent .node r⟩] else [])
      ++ ((getlineSplit request).flatMap fun r => if r ∈ labelsOf labels T .node .vectorNode then
          [⟨r ++ "_x".toList, r, .vectorNode, 0, T.extent .node r⟩,
           ⟨r ++ "_y".toList, r, .vectorNode, 1, T.extent .node r⟩,
           ⟨r ++ "_z".toList, r, .vectorNode, 2, T.extent .node r⟩] else []) := by
    unfold nodeColumns
    congr 1
    · apply List.flatMap_congr
      intro r _
      exact inner_flatMap _ (hnd.filter _) r fun l => [(⟨l, l, .scalarNode, 0, T.extent .node l⟩ : NodeCol)]
    · apply List.flatMap_congr
      intro r _
      exact inner_flatMap _ (hnd.filter _) r fun l => [(⟨l ++ "_x".toList, l, .vectorNode, 0, T.extent .node l⟩ : NodeCol),
           ⟨l ++ "_y".toList, l, .vectorNode, 1, T.extent .node l⟩,
           ⟨l ++ "_z".toList, l, .vectorNode, 2, T.extent .node l⟩]
  rw [hcols]
  refine mapM_app _ _ _ (mapM_flat _ _ _ _ ?_) (mapM_flat _ _ _ _ ?_)
  · intro r _
    cases e : T .node r with
    | none =>
      rw [if_neg (by rw [hmem]; simp [e])]
      simp [nodeRequest, e]
    | some f =>
      by_cases hf : f.type = .scalarNode
      · rw [if_pos (by rw [hmem]; exact ⟨f, e, hf⟩)]
        simp [nodeRequest, e, hf, Tab.get, Tab.extent]
      · rw [if_neg (by rw [hmem]; simp [e, hf])]
        simp [nodeRequest, e, hf]
  · intro r _
    cases e : T .node r with
    | none =>
      rw [if_neg (by rw [hmem]; simp [e])]
      simp [nodeRequest, e]
    | some f =>
      by_cases hf : f.type = .vectorNode
      · rw [if_pos (by rw [hmem]; exact ⟨f, e, hf⟩)]
        simp [nodeRequest, e, hf, Tab.get, Tab.extent]
      · rw [if_neg (by rw [hmem]; simp [e, hf])]
        simp [nodeRequest, e, hf]

/-! ## Limits -/

/-- **C98, a limit.**  A request that begins with `ipt` and is shorter than six characters stops the run, if
there is a block. -/
theorem short_ipt_request_fails [Zero K] (E : ElementOps K) (labels : List Str) (T : Tab K) (b : ℤ)
    (blocks : List ℤ) (request r : Str) (hr : r ∈ getlineSplit request) (h3 : r.take 3 = "ipt".toList)
    (h6 : r.length < 6) : elementResults E labels (b :: blocks) request T = none := by
  have hp : parseRequest r = none := by rw [parseRequest, if_pos h3, if_pos h6]
  have hfull : ∀ (L rs : List Str) (o : BlockOut K), r ∈ rs → fullLoop b rs L o = none := by
    intro L rs
    induction rs with
    | nil => intro o h; simp at h
    | cons a rs ih =>
      intro o h
      unfold fullLoop at ih ⊢
      rw [List.foldlM_cons]
      by_cases ha : a = r
      · subst ha; simp [hp]
      · have h' : r ∈ rs := by
          rcases List.mem_cons.1 h with h | h
          · exact absurd h.symm ha
          · exact h
        rw [Option.bind_eq_bind]
        cases e : (parseRequest a).bind fun x => List.foldlM
          (fun o l => if x.1 = l then addTensor false b a l x.2.1 x.2.2 o else some o) o L with
        | none => rfl
        | some o' => exact ih o' h'
  have hb : specifyBlock labels b (getlineSplit request) T = none := by
    unfold specifyBlock
    cases volumeLoop b (getlineSplit request) ⟨T, [], [], []⟩ with
    | none => rfl
    | some o =>
      rw [Option.bind_some]
      cases symLoop b (getlineSplit request) (labelsOf labels T (.ipt b .np1) .symTensorIntPt) o with
      | none => rfl
      | some o => rw [Option.bind_some]; exact hfull _ _ o hr
  simp [elementResults, specifyBlocks, hb]

/-- A block with one element, eight integration points, a stress whose entries are `100 * point + component`. -/
def exTab : Tab ℤ := fun p l =>
  if p = .ipt 1 .np1 ∧ l = "stress".toList then
    some ⟨.symTensorIntPt, 1, fun _ q i => 100 * (q : ℤ) + i + 7⟩
  else if p = .elem 1 ∧ l = "stress".toList then some ⟨.symTensorElem, 1, fun _ _ _ => 0⟩
  else if p = .elem 1 ∧ l = "volume".toList then some ⟨.scalarElem, 1, fun _ _ _ => 0⟩
  else none

/-- Volume 3, sum instead of average. -/
def exOps : ElementOps ℤ := ⟨fun _ _ => 3, fun _ _ v => ((List.range 8).map v).sum, 8⟩

/-- **C98, refuted for points that do not exist.**  A request for integration point 10 or 0 is accepted and
columns of zeros are written; a request for point 11 is accepted and the values of point 1 are written. -/
theorem nonexistent_point_refuted :
    elementResults exOps ["stress".toList, "volume".toList] [1] "ipt10_stress".toList exTab
      = some [(1, symComponents.map fun c => ("ipt10_stress".toList ++ c.1, [0]))] ∧
    elementResults exOps ["stress".toList, "volume".toList] [1] "ipt00_stress".toList exTab
      = some [(1, symComponents.map fun c => ("ipt00_stress".toList ++ c.1, [0]))] ∧
    elementResults exOps ["stress".toList, "volume".toList] [1] "ipt11_stress".toList exTab
      = some [(1, symComponents.map fun c => ("ipt11_stress".toList ++ c.1, [(c.2 : ℤ) + 7]))] := by
  refine ⟨?_, ?_, ?_⟩ <;> decide +kernel

/-- A request for point 9 of an element with eight points reads outside the view. -/
theorem point_nine_outside :
    elementResults exOps ["stress".toList, "volume".toList] [1] "ipt09_stress".toList exTab = none := by
  decide +kernel

/-- Asking for the volume when no element field of that name was allocated stops the run. -/
theorem volume_not_allocated_fails [Zero K] (E : ElementOps K) (labels : List Str) (T : Tab K) (b : ℤ)
    (blocks : List ℤ) (request : Str) (hr : "volume".toList ∈ getlineSplit request)
    (hT : T (.elem b) "volume".toList = none) : elementResults E labels (b :: blocks) request T = none := by
  have hv : ∀ (rs : List Str) (o : BlockOut K), "volume".toList ∈ rs → o.T = T → volumeLoop b rs o = none := by
    intro rs
    induction rs with
    | nil => intro o h; simp at h
    | cons a rs ih =>
      intro o h ho
      unfold volumeLoop at ih ⊢
      rw [List.foldlM_cons]
      by_cases ha : a = "volume".toList
      · rw [if_pos ha, ha, Tab.get, ho, hT]; rfl
      · rw [if_neg ha]
        rcases List.mem_cons.1 h with h | h
        · exact absurd h.symm ha
        · exact ih o h ho
  have hb : specifyBlock labels b (getlineSplit request) T = none := by
    unfold specifyBlock
    rw [hv _ ⟨T, [], [], []⟩ hr rfl]; rfl
  simp [elementResults, specifyBlocks, hb]

/-! ## Non-vacuity -/

/-- The hypotheses of `element_results_spec` hold in a concrete case. -/
example : Registered ["stress".toList, "volume".toList] exTab [1]
    [.plain "stress".toList, .volume, .point 3 "stress".toList, .plain "unknown".toList] := by
  have hipt : ∀ b l, exTab (.ipt b .np1) l ≠ none → b = 1 ∧ l = "stress".toList := by
    intro b l h
    by_contra hh
    apply h
    have : ¬ (Place.ipt b .np1 = Place.ipt 1 .np1 ∧ l = "stress".toList) := by
      rintro ⟨h1, h2⟩
      cases h1
      exact hh ⟨rfl, h2⟩
    simp only [exTab, this, if_false, reduceCtorEq, false_and]
  refine ⟨by decide, ?_, ?_, ?_, ?_, ?_⟩
  · intro b l h; obtain ⟨-, rfl⟩ := hipt b l h; decide
  · intro b l h; obtain ⟨-, rfl⟩ := hipt b l h; decide
  · intro _ b hb
    simp only [List.mem_singleton] at hb
    subst hb
    exact ⟨⟨.scalarElem, 1, fun _ _ _ => 0⟩, rfl, rfl⟩
  · intro b hb l f hf _ _
    obtain ⟨rfl, rfl⟩ := hipt b l (by rw [hf]; simp)
    exact ⟨⟨.symTensorElem, 1, fun _ _ _ => 0⟩, rfl, rfl⟩
  · intro b hb l f hf hft _
    obtain ⟨rfl, rfl⟩ := hipt b l (by rw [hf]; simp)
    cases hf
    cases hft

example : ∀ q ∈ ([.plain "stress".toList, .volume, .point 3 "stress".toList, .plain "unknown".toList] : List Req),
    q.Ok exOps.numPoints := by
  intro q hq
  simp only [List.mem_cons, List.not_mem_nil, or_false] at hq
  rcases hq with rfl | rfl | rfl | rfl
  · exact ⟨by decide, by decide⟩
  · trivial
  · exact ⟨by decide, by decide, by decide⟩
  · exact ⟨by decide, by decide⟩

example : elementResults exOps ["stress".toList, "volume".toList] [1]
    "stress volume ipt03_stress unknown".toList exTab
    = some [(1, [("volume".toList, [3])]
        ++ symComponents.map (fun c => ("stress".toList ++ c.1, [8 * (c.2 : ℤ) + 2856]))
        ++ symComponents.map (fun c => ("ipt03_stress".toList ++ c.1, [(c.2 : ℤ) + 207])))] := by
  decide +kernel

end NimbleSM.Kokkos.Output
