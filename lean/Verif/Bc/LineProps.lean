import Verif.Bc.Line
import Verif.Contact.CommandProps
import Verif.Expr.FunctorProps

/-!
# C92: boundary condition lines
-/

namespace NimbleSM.Bc

open NimbleSM.Parse
open NimbleSM.Fields (Str)
open NimbleSM.Contact (Stream extractWord extractNumber Delivers extractWord_cons extractWord_nil extractNumber_spec)
open NimbleSM.Genesis (IMap)
open NimbleSM.Expr (Arith Functor)
open NimbleSM.Uq (Words split split_words words_split)

/-! ## What a line says -/

/-- The words for the kinds of conditions. -/
def Kind (w : Str) (t : BcType) : Prop :=
  (w = "initial_velocity".toList ∧ t = .initialVelocity) ∨ (w = "prescribed_velocity".toList ∧ t = .prescribedVelocity) ∨
    (w = "prescribed_displacement".toList ∧ t = .prescribedDisplacement) ∨ (w = "prescribed_traction".toList ∧ t = .prescribedTraction)

/-- The words for the coordinates, in either case. -/
def Axis (w : Str) (c : ℕ) : Prop :=
  (w = ['x'] ∨ w = ['X']) ∧ c = 0 ∨ (w = ['y'] ∨ w = ['Y']) ∧ c = 1 ∨ (w = ['z'] ∨ w = ['Z']) ∧ c = 2

/-- `id` is the smallest id of a set of that name, or -1 if there is no such set. -/
def IdOf (names : IMap Str) (name : Str) (id : ℤ) : Prop :=
  ((id, name) ∈ names ∧ ∀ id', (id', name) ∈ names → id ≤ id') ∨ (id = -1 ∧ ∀ id', (id', name) ∉ names)

/-- The line read as: kind, set, coordinate. -/
structure Says {K : Type} (nodeSetNames sideSetNames : IMap Str) (kind set axis : Str) (l : Line K) (valid : Bool) : Prop where
  kind : Kind kind l.type
  axis : Axis axis l.coordinate
  side : l.type = .prescribedTraction → IdOf sideSetNames set l.sideSetId ∧ l.nodeSetId = -1 ∧ (valid = true ↔ l.sideSetId ≠ -1)
  node : l.type ≠ .prescribedTraction → IdOf nodeSetNames set l.nodeSetId ∧ l.sideSetId = -1 ∧ (valid = true ↔ l.nodeSetId ≠ -1)

/-! ## Lemmas -/

theorem lineType_iff (w : Str) (t : BcType) : lineType w = some t ↔ Kind w t := by
  unfold lineType Kind
  split_ifs with h1 h2 h3 h4
  · subst h1
    constructor
    · intro h; simp only [Option.some.injEq] at h; exact Or.inl ⟨rfl, h.symm⟩
    · rintro (h | h | h | h)
      · rw [h.2]
      all_goals exact absurd h.1 (by decide)
  · subst h2
    constructor
    · intro h; simp only [Option.some.injEq] at h; exact Or.inr (Or.inl ⟨rfl, h.symm⟩)
    · rintro (h | h | h | h)
      · exact absurd h.1 (by decide)
      · rw [h.2]
      all_goals exact absurd h.1 (by decide)
  · subst h3
    constructor
    · intro h; simp only [Option.some.injEq] at h; exact Or.inr (Or.inr (Or.inl ⟨rfl, h.symm⟩))
    · rintro (h | h | h | h)
      · exact absurd h.1 (by decide)
      · exact absurd h.1 (by decide)
      · rw [h.2]
      · exact absurd h.1 (by decide)
  · subst h4
    constructor
    · intro h; simp only [Option.some.injEq] at h; exact Or.inr (Or.inr (Or.inr ⟨rfl, h.symm⟩))
    · rintro (h | h | h | h)
      · exact absurd h.1 (by decide)
      · exact absurd h.1 (by decide)
      · exact absurd h.1 (by decide)
      · rw [h.2]
  · constructor
    · intro h; cases h
    · rintro (h | h | h | h)
      · exact absurd h.1 h1
      · exact absurd h.1 h2
      · exact absurd h.1 h3
      · exact absurd h.1 h4

theorem toLower_letter (c : Char) (i : Fin 26) :
    c.toLower = Char.ofNat (97 + i.val) ↔ c = Char.ofNat (97 + i.val) ∨ c = Char.ofNat (65 + i.val) := by
  by_cases h2 : 'A' ≤ c ∧ c ≤ 'Z'
  · have hm : ∃ j : Fin 26, c = Char.ofNat (65 + j.val) := by
      obtain ⟨h1, h2⟩ := h2
      have h1' : 65 ≤ c.toNat := h1
      have h2' : c.toNat ≤ 90 := h2
      refine ⟨⟨c.toNat - 65, by omega⟩, ?_⟩
      simp only
      rw [show 65 + (c.toNat - 65) = c.toNat by omega, Char.ofNat_toNat]
    obtain ⟨j, rfl⟩ := hm
    revert i j; decide +kernel
  · have e2 : c.toLower = c := by
      unfold Char.toLower
      rw [dif_neg]
      rintro ⟨ha, hb⟩
      exact h2 ⟨ha, hb⟩
    rw [e2]
    constructor
    · exact Or.inl
    · rintro (h | h)
      · exact h
      · subst h
        exact absurd (by revert i; decide +kernel) h2

theorem lower_one (w : Str) (i : Fin 26) :
    w.map Char.toLower = [Char.ofNat (97 + i.val)] ↔ w = [Char.ofNat (97 + i.val)] ∨ w = [Char.ofNat (65 + i.val)] := by
  cases w with
  | nil => simp
  | cons c w =>
    cases w with
    | nil => simp [toLower_letter]
    | cons d w => simp

theorem lineCoordinate_iff (w : Str) (c : ℕ) : lineCoordinate w = some c ↔ Axis w c := by
  have hx : w.map Char.toLower = "x".toList ↔ w = ['x'] ∨ w = ['X'] := lower_one w 23
  have hy : w.map Char.toLower = "y".toList ↔ w = ['y'] ∨ w = ['Y'] := lower_one w 24
  have hz : w.map Char.toLower = "z".toList ↔ w = ['z'] ∨ w = ['Z'] := lower_one w 25
  unfold lineCoordinate Axis
  simp only []
  rw [← hx, ← hy, ← hz]
  generalize w.map Char.toLower = v
  split_ifs with h1 h2 h3
  · subst h1
    constructor
    · intro h; simp only [Option.some.injEq] at h; exact Or.inl ⟨rfl, h.symm⟩
    · rintro (h | h | h)
      · rw [h.2]
      all_goals exact absurd h.1 (by decide)
  · subst h2
    constructor
    · intro h; simp only [Option.some.injEq] at h; exact Or.inr (Or.inl ⟨rfl, h.symm⟩)
    · rintro (h | h | h)
      · exact absurd h.1 (by decide)
      · rw [h.2]
      · exact absurd h.1 (by decide)
  · subst h3
    constructor
    · intro h; simp only [Option.some.injEq] at h; exact Or.inr (Or.inr ⟨rfl, h.symm⟩)
    · rintro (h | h | h)
      · exact absurd h.1 (by decide)
      · exact absurd h.1 (by decide)
      · rw [h.2]
  · constructor
    · intro h; cases h
    · rintro (h | h | h)
      · exact absurd h.1 h1
      · exact absurd h.1 h2
      · exact absurd h.1 h3

theorem findNameId_spec (names : IMap Str) (h : names.Pairwise fun a b => a.1 < b.1) (name : Str) : IdOf names name (findNameId names name) := by
  unfold findNameId IdOf
  cases hf : names.find? fun e => e.2 == name with
  | none =>
    right
    refine ⟨rfl, fun id' hm => ?_⟩
    have := List.find?_eq_none.mp hf _ hm
    simp at this
  | some e =>
    left
    obtain ⟨he, as, bs, hl, ha⟩ := List.find?_eq_some_iff_append.mp hf
    have he : e.2 = name := by simpa using he
    subst hl
    refine ⟨by simp [← he], fun id' hm => ?_⟩
    rcases List.mem_append.mp hm with hm | hm
    · have := ha _ hm; simp at this
    · rcases List.mem_cons.mp hm with hm | hm
      · rw [← hm]
      · rw [List.pairwise_append] at h
        exact ((List.pairwise_cons.mp h.2.1).1 _ hm).le

theorem split_head {t w : Str} {ws : List Str} (h : split t = w :: ws) : w ≠ [] ∧ ∀ c ∈ w, isSpace c = false := by
  have hw := words_split t
  rw [h] at hw
  cases hw with
  | cons _ _ _ _ _ h1 h2 _ _ => exact ⟨h1, h2⟩

theorem extractInto_cons {old w : Str} {ws : List Str} {s : Stream} (h : Delivers (w :: ws) s) :
    (extractInto old s).1 = w ∧ Delivers ws (extractInto old s).2 := by
  obtain ⟨-, h1, h2, -⟩ := extractWord_cons h
  have hne : w ≠ [] := (split_head h.1).1
  refine ⟨?_, h2⟩
  unfold extractInto
  simp only [h1, if_neg hne]

theorem extractInto_nil {old : Str} {s : Stream} (h : Delivers [] s) : (extractInto old s).1 = old ∧ Delivers [] (extractInto old s).2 := by
  obtain ⟨h1, h2⟩ := extractWord_nil h
  unfold extractInto
  simp only [h1, if_true, h2, true_and]
  exact ⟨NimbleSM.Uq.split_nil_of_blank (by intro c hc; cases hc), fun _ => rfl⟩

section
variable {K : Type} (A : Arith K)

/-- Reading the three words. -/
theorem initialize_words (text kind set axis : Str) (more : List Str) (hw : Words (kind :: set :: axis :: more) text)
    (ns ss : IMap Str) : ∃ s, Delivers more s ∧ initLine A text ns ss =
      match lineType kind with
      | none => .error .unknownType
      | some type =>
        match lineMagnitude A text s with
        | .error e => .error e
        | .ok magnitude =>
          match lineCoordinate axis with
          | none => .error .coordinate
          | some c =>
            if type = .prescribedTraction then .ok (⟨type, -1, findNameId ss set, c, magnitude⟩, decide (findNameId ss set ≠ -1))
            else .ok (⟨type, findNameId ns set, -1, c, magnitude⟩, decide (findNameId ns set ≠ -1)) := by
  have start : Delivers (kind :: set :: axis :: more) ⟨text, true⟩ := ⟨split_words hw, fun h => by cases h⟩
  obtain ⟨a1, a2⟩ := extractInto_cons (old := "undefined".toList) start
  obtain ⟨b1, b2⟩ := extractInto_cons (old := "unknown".toList) a2
  obtain ⟨c1, c2⟩ := extractInto_cons (old := "undefined".toList) b2
  refine ⟨_, c2, ?_⟩
  unfold initLine
  simp only [a1, b1, c1]
  cases lineType kind with
  | none => rfl
  | some type =>
    simp only []
    cases lineMagnitude A text _ with
    | error e => rfl
    | ok m =>
      simp only []
      cases lineCoordinate axis with
      | none => rfl
      | some c =>
        simp only []
        split_ifs with h <;> simp [h]

theorem initialize_says (text kind set axis : Str) (more : List Str) (hw : Words (kind :: set :: axis :: more) text) (ns ss : IMap Str)
    (hn : ns.Pairwise fun a b => a.1 < b.1) (hs : ss.Pairwise fun a b => a.1 < b.1) (type : BcType) (hk : Kind kind type) (c : ℕ) (hc : Axis axis c) :
    ∃ s, Delivers more s ∧ ∀ m, lineMagnitude A text s = .ok m → ∃ l valid, initLine A text ns ss = .ok (l, valid) ∧
      Says ns ss kind set axis l valid ∧ l.type = type ∧ l.coordinate = c ∧ l.magnitude = m := by
  obtain ⟨s, h1, h2⟩ := initialize_words A text kind set axis more hw ns ss
  refine ⟨s, h1, fun m hm => ?_⟩
  rw [h2, (lineType_iff _ _).mpr hk, (lineCoordinate_iff _ _).mpr hc]
  simp only [hm]
  by_cases ht : type = .prescribedTraction
  · rw [if_pos ht]
    refine ⟨_, _, rfl, ⟨hk, hc, fun _ => ⟨findNameId_spec ss hs set, rfl, by simp⟩, fun h => absurd ht h⟩, rfl, rfl, rfl⟩
  · rw [if_neg ht]
    refine ⟨_, _, rfl, ⟨hk, hc, fun h => absurd h ht, fun _ => ⟨findNameId_spec ns hn set, rfl, by simp⟩⟩, rfl, rfl, rfl⟩

/-! ## C92 -/

/-- **C92, numbers.**  A line with a kind, a set, a coordinate and a number, in any layout of white space and with anything behind it, is read as
it is written; it is valid if there is such a set. -/
theorem bc_line_number (text kind set axis : Str) (lit : Lit) (hl : lit.Valid) (more : List Str) (hw : Words (kind :: set :: axis :: lit.text :: more) text)
    (hq : '"' ∉ text) (ns ss : IMap Str) (hn : ns.Pairwise fun a b => a.1 < b.1) (hs : ss.Pairwise fun a b => a.1 < b.1)
    (type : BcType) (hk : Kind kind type) (c : ℕ) (hc : Axis axis c) :
    ∃ l valid, initLine A text ns ss = .ok (l, valid) ∧ Says ns ss kind set axis l valid ∧ l.magnitude = .inl (A.ofRat lit.value) := by
  obtain ⟨s, h1, h2⟩ := initialize_says A text kind set axis _ hw ns ss hn hs type hk c hc
  obtain ⟨l, v, h3, h4, -, -, h5⟩ := h2 (.inl (A.ofRat lit.value)) (by
    unfold lineMagnitude
    simp only [List.count_eq_zero.mpr hq]
    rw [(extractNumber_spec h1).2 lit hl rfl]; rfl)
  exact ⟨l, v, h3, h4, h5⟩

theorem quoted_eq (pre e post : Str) (h1 : '"' ∉ pre) (h3 : '"' ∉ post) : quoted (pre ++ '"' :: e ++ '"' :: post) = e := by
  have hp : ∀ (p q : Str), '"' ∉ p → (p ++ '"' :: q).findIdx (· == '"') = p.length := by
    intro p q hp
    rw [List.findIdx_append]
    have : p.findIdx (· == '"') = p.length := List.findIdx_eq_length.mpr (by
      intro x hx
      simp only [beq_eq_false_iff_ne, ne_eq]
      rintro rfl; exact hp hx)
    rw [this]
    simp [List.findIdx_cons]
  unfold quoted
  have e1 : (pre ++ '"' :: e ++ '"' :: post).findIdx (· == '"') = pre.length := by
    rw [List.append_assoc, List.cons_append]; exact hp pre _ h1
  have e2 : (pre ++ '"' :: e ++ '"' :: post).reverse.findIdx (· == '"') = post.length := by
    rw [List.reverse_append, List.reverse_cons, List.append_assoc, List.singleton_append]
    rw [hp post.reverse _ (by simpa using h3), List.length_reverse]
  simp only [e1, e2]
  have e3 : (pre ++ '"' :: e ++ '"' :: post).drop (pre.length + 1) = e ++ '"' :: post := by
    rw [List.append_assoc, List.cons_append, ← List.drop_drop, List.drop_left]; rfl
  rw [e3]
  have e4 : (pre ++ '"' :: e ++ '"' :: post).length - 1 - post.length - pre.length - 1 = e.length := by
    simp only [List.length_append, List.length_cons]; omega
  rw [e4, List.take_left']
  rfl

/-- **C92, expressions.**  The magnitude is the expression between two quotes, if it can be parsed. -/
theorem bc_line_expression (pre e post kind set axis : Str) (more : List Str) (hw : Words (kind :: set :: axis :: more) (pre ++ '"' :: e ++ '"' :: post))
    (h1 : '"' ∉ pre) (h2 : '"' ∉ e) (h3 : '"' ∉ post) (f : Functor K) (hf : Functor.ofText A e = .ok f) (he : e ≠ [])
    (ns ss : IMap Str) (hn : ns.Pairwise fun a b => a.1 < b.1) (hs : ss.Pairwise fun a b => a.1 < b.1)
    (type : BcType) (hk : Kind kind type) (c : ℕ) (hc : Axis axis c) :
    ∃ l valid, initLine A (pre ++ '"' :: e ++ '"' :: post) ns ss = .ok (l, valid) ∧ Says ns ss kind set axis l valid ∧ l.magnitude = .inr f := by
  obtain ⟨s, -, i2⟩ := initialize_says A _ kind set axis _ hw ns ss hn hs type hk c hc
  obtain ⟨l, v, i3, i4, -, -, i5⟩ := i2 (.inr f) (by
    have hcount : (pre ++ '"' :: e ++ '"' :: post).count '"' = 2 := by
      simp [List.count_eq_zero.mpr h1, List.count_eq_zero.mpr h2, List.count_eq_zero.mpr h3]
    unfold lineMagnitude
    simp only [hcount, if_true, quoted_eq pre e post h1 h3, hf]
    have hea := NimbleSM.Expr.ofText_equation A e f hf
    have hff : (⟨none, []⟩ : Functor K).copyAssign A f = (f, none) := by
      unfold Functor.copyAssign Functor.assign
      rw [hea]
      unfold Functor.ofText at hf
      rw [if_neg he] at hf
      cases hp : NimbleSM.Expr.parse A e with
      | error x => rw [hp] at hf; cases hf
      | ok n =>
        rw [hp] at hf
        simp only [Except.bind, Except.ok.injEq] at hf
        rw [← hf]
    rw [hff])
  exact ⟨l, v, i3, i4, i5⟩

/-- **C92, refusal.**  Every accepted line has a kind, a set and a coordinate, in this order, and no quotes or two; with two quotes the text between
the first and the last is a non-empty expression that can be parsed. -/
theorem bc_line_accepted (text : Str) (ns ss : IMap Str) (l : Line K) (valid : Bool) (h : initLine A text ns ss = .ok (l, valid)) :
    ∃ kind set axis more, Words (kind :: set :: axis :: more) text ∧ Kind kind l.type ∧ Axis axis l.coordinate ∧
      ((text.count '"' = 0 ∧ ∃ v, l.magnitude = .inl v) ∨
        (text.count '"' = 2 ∧ quoted text ≠ [] ∧ ∃ f, Functor.ofText A (quoted text) = .ok f ∧ l.magnitude = .inr f)) := by
  have hW := words_split text
  have start : Delivers (split text) ⟨text, true⟩ := ⟨rfl, fun h => by cases h⟩
  -- three words
  have three : ∃ kind set axis more, split text = kind :: set :: axis :: more := by
    have bad : lineType "undefined".toList = none := by decide
    have bad' : lineCoordinate "undefined".toList = none := by decide +kernel
    unfold initLine at h
    simp only [] at h
    match hsp : split text with
    | [] =>
      rw [hsp] at start
      rw [(extractInto_nil (old := "undefined".toList) start).1, bad] at h
      cases h
    | [k] =>
      rw [hsp] at start
      obtain ⟨a1, a2⟩ := extractInto_cons (old := "undefined".toList) start
      obtain ⟨b1, b2⟩ := extractInto_nil (old := "unknown".toList) a2
      obtain ⟨c1, c2⟩ := extractInto_nil (old := "undefined".toList) b2
      rw [c1, bad'] at h
      split at h
      · cases h
      · split at h <;> cases h
    | [k, w] =>
      rw [hsp] at start
      obtain ⟨a1, a2⟩ := extractInto_cons (old := "undefined".toList) start
      obtain ⟨b1, b2⟩ := extractInto_cons (old := "unknown".toList) a2
      obtain ⟨c1, c2⟩ := extractInto_nil (old := "undefined".toList) b2
      rw [c1, bad'] at h
      split at h
      · cases h
      · split at h <;> cases h
    | k :: w :: a :: more => exact ⟨k, w, a, more, rfl⟩
  obtain ⟨kind, set, axis, more, hsp⟩ := three
  rw [hsp] at hW
  obtain ⟨s, h1, h2⟩ := initialize_words A text kind set axis more hW ns ss
  refine ⟨kind, set, axis, more, hW, ?_⟩
  rw [h2] at h
  cases ht : lineType kind with
  | none => rw [ht] at h; cases h
  | some type =>
    rw [ht] at h
    simp only [] at h
    cases hm : lineMagnitude A text s with
    | error e => rw [hm] at h; cases h
    | ok m =>
      rw [hm] at h
      simp only [] at h
      cases hc : lineCoordinate axis with
      | none => rw [hc] at h; cases h
      | some c =>
        rw [hc] at h
        simp only [] at h
        have hl : l.type = type ∧ l.coordinate = c ∧ l.magnitude = m := by
          split_ifs at h <;> simp only [Except.ok.injEq, Prod.mk.injEq] at h <;> rw [← h.1] <;> exact ⟨rfl, rfl, rfl⟩
        obtain ⟨e1, e2, e3⟩ := hl
        refine ⟨by rw [e1]; exact (lineType_iff _ _).mp ht, by rw [e2]; exact (lineCoordinate_iff _ _).mp hc, ?_⟩
        rw [e3]
        unfold lineMagnitude at hm
        simp only [] at hm
        split_ifs at hm with q1 q2
        · right
          refine ⟨q1, ?_⟩
          cases hf : Functor.ofText A (quoted text) with
          | error e => rw [hf] at hm; cases hm
          | ok g =>
            rw [hf] at hm
            simp only [] at hm
            have heq := NimbleSM.Expr.ofText_equation A _ g hf
            unfold Functor.copyAssign Functor.assign at hm
            rw [heq] at hm
            unfold Functor.ofText at hf
            split_ifs at hf with hne
            · rw [hne, NimbleSM.Expr.parse_nil] at hm
              cases hm
            · refine ⟨hne, g, rfl, ?_⟩
              cases hp : NimbleSM.Expr.parse A (quoted text) with
              | error x => rw [hp] at hf; cases hf
              | ok n =>
                rw [hp] at hf hm
                simp only [Except.bind, Except.ok.injEq] at hf hm
                rw [← hm, ← hf]
        · left
          simp only [Except.ok.injEq] at hm
          exact ⟨q2, _, hm.symm⟩

/-- **C92, refutation.**  A line without a number is accepted, with magnitude 0. -/
theorem bc_line_without_number (text kind set axis : Str) (hw : Words [kind, set, axis] text) (hq : '"' ∉ text) (ns ss : IMap Str)
    (hn : ns.Pairwise fun a b => a.1 < b.1) (hs : ss.Pairwise fun a b => a.1 < b.1) (type : BcType) (hk : Kind kind type) (c : ℕ) (hc : Axis axis c) :
    ∃ l valid, initLine A text ns ss = .ok (l, valid) ∧ Says ns ss kind set axis l valid ∧ l.magnitude = .inl (A.ofRat 0) := by
  obtain ⟨s, h1, h2⟩ := initialize_says A text kind set axis _ hw ns ss hn hs type hk c hc
  obtain ⟨l, v, h3, h4, -, -, h5⟩ := h2 (.inl (A.ofRat 0)) (by
    unfold lineMagnitude
    simp only [List.count_eq_zero.mpr hq]
    rw [(extractNumber_spec h1).1.mpr rfl]; rfl)
  exact ⟨l, v, h3, h4, h5⟩

/-- **C92, refutation.**  A line with a word in the place of the number is accepted, with magnitude 0. -/
theorem bc_line_bad_number (text kind set axis : Str) (ch : Char) (w : Str) (more : List Str) (hw : Words (kind :: set :: axis :: (ch :: w) :: more) text)
    (hd : isDigit ch = false) (hch : ch ≠ '-' ∧ ch ≠ '+' ∧ ch ≠ '.') (hq : '"' ∉ text) (ns ss : IMap Str)
    (hn : ns.Pairwise fun a b => a.1 < b.1) (hs : ss.Pairwise fun a b => a.1 < b.1) (type : BcType) (hk : Kind kind type) (c : ℕ) (hc : Axis axis c) :
    ∃ l valid, initLine A text ns ss = .ok (l, valid) ∧ Says ns ss kind set axis l valid ∧ l.magnitude = .inl (A.ofRat 0) := by
  obtain ⟨s, h1, h2⟩ := initialize_says A text kind set axis _ hw ns ss hn hs type hk c hc
  obtain ⟨l, v, h3, h4, -, -, h5⟩ := h2 (.inl (A.ofRat 0)) (by
    unfold lineMagnitude
    simp only [List.count_eq_zero.mpr hq]
    have hx : extractNumber s = some 0 := by
      have hg := (extractWord_cons h1).1
      obtain ⟨rest, hdw, hne, hsp, -⟩ := NimbleSM.Contact.split_cons h1.1
      have hsp' : isSpace ch = false := (split_head h1.1).2 ch (by simp)
      have hnot := stringToDouble_not_a_number 1 ch (w ++ rest) hsp' hd hch
      have hdd : (ch :: (w ++ rest)).dropWhile isSpace = ch :: (w ++ rest) := List.dropWhile_cons_of_neg (by simp [hsp'])
      unfold stringToDouble at hnot
      rw [hdd] at hnot
      unfold extractNumber
      rw [if_pos hg, hdw, List.cons_append]
      cases hsd : scanDouble (ch :: (w ++ rest)) with
      | none => simp [hsd]
      | some p => simp only [hsd] at hnot; simp [hsd, hnot]
    rw [hx]; rfl)
  exact ⟨l, v, h3, h4, h5⟩

/-! ## The list of conditions -/

theorem initializeAll_acc (ns ss : IMap Str) (texts : List Str) (bcs : List (Line K)) :
    initializeAll A ns ss texts bcs = (initializeAll A ns ss texts []).map (bcs ++ ·) := by
  induction texts generalizing bcs with
  | nil => simp [initializeAll, Except.map]
  | cons t ts ih =>
    unfold initializeAll
    cases initLine A t ns ss with
    | error e => rfl
    | ok r =>
      simp only [List.nil_append]
      rw [ih, ih (if r.2 = true then [r.1] else [])]
      cases initializeAll A ns ss ts [] with
      | error e => rfl
      | ok x => simp only [Except.map]; split_ifs <;> simp

/-- **C92, the list (partial).**  If every line is accepted, the conditions are those of the lines with a known set, in the order of the deck; if some line is
refused, the deck is.  Missing: conditions on sets that do not exist are not reported (`unknown_set_ignored`). -/
theorem bc_list_partial (ns ss : IMap Str) (texts : List Str) :
    (∀ results : List (Line K × Bool), texts.Forall₂ (fun t r => initLine A t ns ss = .ok r) results →
      initializeAll A ns ss texts [] = .ok ((results.filter fun r => r.2).map fun r => r.1)) ∧
    ((∃ t ∈ texts, ∃ e, initLine A t ns ss = .error e) → ∃ e, initializeAll A ns ss texts [] = .error e) := by
  constructor
  · intro results h
    induction h with
    | nil => rfl
    | cons h1 _ ih =>
      rename_i t r ts rs _
      unfold initializeAll
      rw [h1]
      simp only [List.nil_append]
      rw [initializeAll_acc, ih]
      obtain ⟨l, v⟩ := r
      cases v <;> rfl
  · rintro ⟨t, ht, e, he⟩
    induction texts with
    | nil => cases ht
    | cons t' ts ih =>
      unfold initializeAll
      cases hi : initLine A t' ns ss with
      | error e => exact ⟨e, rfl⟩
      | ok r =>
        simp only []
        rcases List.mem_cons.mp ht with rfl | ht
        · rw [hi] at he; cases he
        · obtain ⟨e, he⟩ := ih ht
          rw [initializeAll_acc, he]
          exact ⟨e, rfl⟩

/-- **C92, refutation.**  A condition on a set that is not in the mesh, such as a misspelt one, is dropped: the deck is the deck without the line. -/
theorem unknown_set_ignored (ns ss : IMap Str) (hn : ns.Pairwise fun a b => a.1 < b.1) (hs : ss.Pairwise fun a b => a.1 < b.1)
    (text kind set axis : Str) (lit : Lit) (hl : lit.Valid) (more : List Str) (hw : Words (kind :: set :: axis :: lit.text :: more) text)
    (hq : '"' ∉ text) (type : BcType) (hk : Kind kind type) (c : ℕ) (hc : Axis axis c)
    (hset : ∀ id, (id, set) ∉ ns ∧ (id, set) ∉ ss) (before after : List Str) :
    initializeAll A ns ss (before ++ text :: after) [] = initializeAll A ns ss (before ++ after) [] := by
  obtain ⟨l, v, h1, h2, -⟩ := bc_line_number A text kind set axis lit hl more hw hq ns ss hn hs type hk c hc
  have hv : v = false := by
    by_cases ht : l.type = .prescribedTraction
    · obtain ⟨a, -, b⟩ := h2.side ht
      rcases a with a | a
      · exact absurd a.1 (hset _).2
      · cases v with
        | false => rfl
        | true => exact absurd a.1 (b.mp rfl)
    · obtain ⟨a, -, b⟩ := h2.node ht
      rcases a with a | a
      · exact absurd a.1 (hset _).1
      · cases v with
        | false => rfl
        | true => exact absurd a.1 (b.mp rfl)
  subst hv
  induction before with
  | nil =>
    rw [List.nil_append, List.nil_append]
    conv_lhs => unfold initializeAll
    rw [h1]
    rfl
  | cons b bs ih =>
    simp only [List.cons_append]
    unfold initializeAll
    cases initLine A b ns ss with
    | error e => rfl
    | ok r =>
      simp only []
      rw [initializeAll_acc, ih, ← initializeAll_acc]

end

end NimbleSM.Bc
