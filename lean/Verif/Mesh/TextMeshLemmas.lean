import Verif.Mesh.TextMesh
import Verif.Mesh.ExodusWriteProps
import Verif.Contact.CommandProps

/-!
# Lemmas for text meshes
-/

namespace NimbleSM.Genesis

open NimbleSM.Fields (Str intText)
open NimbleSM.Parse
open NimbleSM.Contact (Stream extractWord Delivers extractWord_cons split_cons stops_space lit_no_space)
open NimbleSM.Uq (split Words split_words)

/-! ## Words on a line -/

/-- A word: some characters, none of them white space. -/
def GoodWord (w : Str) : Prop := w ≠ [] ∧ ∀ c ∈ w, isSpace c = false

theorem intText_good (n : ℤ) : GoodWord (intText n) := by
  have hd : ∀ k, ∀ c ∈ Fields.decimal k, isSpace c = false := fun k c hc =>
    (Deck.isDigit_not_space (Fields.decimal_digits k c hc)).1
  cases n with
  | ofNat n => exact ⟨Fields.decimal_ne_nil n, hd n⟩
  | negSucc n =>
    refine ⟨by simp [intText], fun c hc => ?_⟩
    rcases List.mem_cons.mp hc with rfl | hc
    · decide
    · exact hd _ c hc

theorem split_word {w : Str} (h : GoodWord w) : split w = [w] := split_words (Uq.words_one h.1 h.2)

theorem split_space {w rest : Str} (h : GoodWord w) : split (w ++ ' ' :: rest) = w :: split rest := by
  have hw : Words (w :: split rest) ([] ++ w ++ ' ' :: rest) := by
    refine Words.cons [] w (' ' :: rest) _ (by intro c hc; cases hc) h.1 h.2 (by intro c hc; simp at hc; subst hc; decide) ?_
    have hr := Uq.words_split rest
    generalize split rest = ws at hr ⊢
    cases hr with
    | nil _ hb => exact Words.nil _ (by intro c hc; rcases List.mem_cons.mp hc with rfl | hc <;> [decide; exact hb c hc])
    | cons g w' r ws hg h1 h2 h3 h4 =>
      have := Words.cons (' ' :: g) w' r ws (by intro c hc; rcases List.mem_cons.mp hc with rfl | hc <;> [decide; exact hg c hc]) h1 h2 h3 h4
      simpa using this
  simpa using split_words hw

/-- Numbers after a word. -/
theorem split_ints {w : Str} (h : GoodWord w) (ns : List ℤ) :
    split (w ++ ns.flatMap fun n => ' ' :: intText n) = w :: ns.map intText := by
  induction ns generalizing w with
  | nil => simpa using split_word h
  | cons n ns ih =>
    rw [List.flatMap_cons, List.cons_append, split_space h, ih (intText_good n)]
    rfl

theorem delivers_line {line : Str} {ws : List Str} (h : split line = ws) : Delivers ws ⟨line, true⟩ := ⟨h, fun h => by cases h⟩

/-! ## Extraction -/

theorem extractInt_spec {n : ℤ} {ws : List Str} {s : Stream} (h : Delivers (intText n :: ws) s) :
    ∃ s', extractInt s = some (n, s') ∧ Delivers ws s' := by
  have hg := (extractWord_cons h).1
  obtain ⟨rest, hd, hne, hsp, hws⟩ := split_cons h.1
  have hrd : ∀ c ∈ rest.head?, isDigit c = false := fun c hc => (Contact.space_not (hsp c hc)).1
  have htd : ∀ k, (Fields.decimal k ++ rest).takeWhile isDigit = Fields.decimal k ∧ (Fields.decimal k ++ rest).dropWhile isDigit = rest := by
    intro k
    have h1 := Fields.decimal_digits k
    constructor
    · rw [List.takeWhile_append_of_pos h1]
      cases rest with
      | nil => simp
      | cons c r => rw [List.takeWhile_cons_of_neg (by simp [hrd c rfl])]; simp
    · rw [List.dropWhile_append_of_pos h1]
      cases rest with
      | nil => rfl
      | cons c r => rw [List.dropWhile_cons_of_neg (by simp [hrd c rfl])]
  have fin : ∀ neg k, takeSign (intText n ++ rest) = (neg, Fields.decimal k ++ rest) → (n = if neg then -(k : ℤ) else k) →
      ∃ s', extractInt s = some (n, s') ∧ Delivers ws s' := by
    intro neg k ht hn
    refine ⟨⟨rest, !rest.isEmpty⟩, ?_, ⟨hws, fun hb => by simpa using hb⟩⟩
    unfold extractInt
    rw [if_pos hg, hd, ht]
    simp only [(htd k).1, (htd k).2, Fields.digitsVal_decimal]
    rw [if_neg (by simpa using Fields.decimal_ne_nil k), hn]
  cases n with
  | ofNat k =>
    refine fin false k ?_ rfl
    show takeSign (Fields.decimal k ++ rest) = _
    cases hdk : Fields.decimal k with
    | nil => exact absurd hdk (Fields.decimal_ne_nil k)
    | cons c d =>
      have hc := Deck.isDigit_not_space (Fields.decimal_digits k c (by rw [hdk]; simp))
      rw [List.cons_append]
      unfold takeSign
      split
      · rename_i h; cases h; exact absurd rfl hc.2.1
      · rename_i h; cases h; exact absurd rfl hc.2.2.1
      · rfl
  | negSucc k => exact fin true (k + 1) rfl (by simp [Int.negSucc_eq])

theorem extractDouble_spec {l : Lit} (hl : l.Valid) {ws : List Str} {s : Stream} (h : Delivers (l.text :: ws) s) :
    ∃ s', extractDouble s = some (l.value, s') ∧ Delivers ws s' := by
  have hg := (extractWord_cons h).1
  obtain ⟨rest, hd, hne, hsp, hws⟩ := split_cons h.1
  refine ⟨⟨rest, !rest.isEmpty⟩, ?_, ⟨hws, fun hb => by simpa using hb⟩⟩
  unfold extractDouble
  rw [if_pos hg, hd, scanDouble_literal l hl rest (stops_space l rest hsp)]

theorem extractInts_spec (ns : List ℤ) {ws : List Str} : ∀ {s : Stream}, Delivers (ns.map intText ++ ws) s →
    ∃ s', extractInts ns.length s = some (ns, s') ∧ Delivers ws s' := by
  induction ns with
  | nil => intro s h; exact ⟨s, rfl, h⟩
  | cons n ns ih =>
    intro s h
    obtain ⟨s1, h1, h2⟩ := extractInt_spec (n := n) (ws := ns.map intText ++ ws) h
    obtain ⟨s2, h3, h4⟩ := ih h2
    refine ⟨s2, ?_, h4⟩
    rw [List.length_cons, extractInts, h1]
    simp only [Option.bind_eq_bind, Option.bind_some, h3]

/-! ## Loops over lines -/

theorem readNodes_spec (ps : List (Str × ℤ × ℚ × ℚ × ℚ)) (h : ∀ p ∈ ps, parseNode p.1 = some p.2) (rest : List Str) : ∀ str,
    readNodes ps.length str (ps.map (·.1) ++ rest) = some (ps.map (·.2), rest) := by
  induction ps with
  | nil => intro str; rfl
  | cons p ps ih =>
    intro str
    rw [List.length_cons, readNodes]
    simp only [List.map_cons, List.cons_append, nextLine, h p (by simp), Option.bind_eq_bind, Option.bind_some,
      ih (fun q hq => h q (by simp [hq]))]

/-- The line of an element with this id and these nodes. -/
def elementText (p : ℤ × List ℤ) : Str := intText (p.1 + 1) ++ p.2.flatMap fun n => ' ' :: intText (n + 1)

theorem split_elementText (p : ℤ × List ℤ) : split (elementText p) = intText (p.1 + 1) :: (p.2.map (· + 1)).map intText := by
  have := split_ints (intText_good (p.1 + 1)) (p.2.map (· + 1))
  rw [← this]
  unfold elementText
  rw [List.flatMap_map]

theorem readElems_spec (npe : ℕ) (els : List (ℤ × List ℤ)) (h : ∀ p ∈ els, p.2.length = npe) (rest : List Str) : ∀ (str : Str) (done : List ℤ) (r : ℕ),
    readElems npe els.length str (els.map elementText ++ rest) (done ++ List.replicate (els.length + r) 0) done.length =
      some ((els.map (·.1), els.flatMap (·.2)), rest, done ++ els.map (·.1) ++ List.replicate r 0, done.length + els.length) := by
  induction els with
  | nil => intro str done r; simp [readElems]
  | cons p els ih =>
    intro str done r
    rw [List.length_cons, readElems]
    obtain ⟨s1, h1, h2⟩ := extractInt_spec (delivers_line (split_elementText p))
    have hlen : (p.2.map (· + 1)).length = npe := by rw [List.length_map, h p (by simp)]
    obtain ⟨s2, h3, h4⟩ := extractInts_spec (p.2.map (· + 1)) (ws := []) (by rw [List.append_nil]; exact h2)
    rw [hlen] at h3
    simp only [List.map_cons, List.cons_append, nextLine, h1, h3, Option.bind_eq_bind, Option.bind_some]
    rw [if_pos (by simp), show els.length + 1 + r = (els.length + r) + 1 by omega, List.replicate_succ]
    have hset : (done ++ 0 :: List.replicate (els.length + r) 0).set done.length (p.1 + 1 - 1) =
        (done ++ [p.1]) ++ List.replicate (els.length + r) 0 := by
      rw [List.set_append_right _ _ le_rfl]
      simp
    have hi := ih (fun q hq => h q (by simp [hq])) (elementText p) (done ++ [p.1]) r
    rw [List.length_append, List.length_singleton] at hi
    rw [hset, hi]
    simp [List.map_map, Function.comp_def]
    omega

theorem readMembers_spec (ns : List ℤ) (rest : List Str) : ∀ str : Str,
    readMembers ns.length str ((ns.map fun n => intText (n + 1)) ++ rest) = some (ns, rest) := by
  induction ns with
  | nil => intro str; rfl
  | cons n ns ih =>
    intro str
    obtain ⟨s, h, -⟩ := extractInt_spec (delivers_line (split_word (intText_good (n + 1))))
    rw [List.length_cons, readMembers]
    simp only [List.map_cons, List.cons_append, nextLine, h, Option.bind_eq_bind, Option.bind_some, ih]
    simp

/-! ## Lines of the writer -/

theorem mapM_some' {β γ : Type} (F : β → Option γ) (G : β → γ) (l : List β) (h : ∀ a ∈ l, F a = some (G a)) : l.mapM F = some (l.map G) := by
  have := mapM_some id F G l h
  rwa [List.map_id] at this

/-- The nodes of element number `e`. -/
def chunk (npe : ℕ) (conn : List ℤ) (e : ℕ) : List ℤ := (conn.drop (e * npe)).take npe

theorem chunk_length {npe : ℕ} {conn : List ℤ} {n e : ℕ} (h : conn.length = n * npe) (he : e < n) : (chunk npe conn e).length = npe := by
  unfold chunk
  rw [List.length_take, List.length_drop, h]
  have : (e + 1) * npe ≤ n * npe := Nat.mul_le_mul_right _ he
  rw [Nat.add_mul] at this
  omega

theorem chunks_concat (npe : ℕ) (conn : List ℤ) : ∀ n, (List.range n).flatMap (chunk npe conn) = conn.take (n * npe) := by
  intro n
  induction n with
  | zero => simp
  | succ n ih =>
    rw [List.range_succ, List.flatMap_append, ih, List.flatMap_singleton, chunk, Nat.add_mul, Nat.one_mul, List.take_add]

theorem elemLine_eq {npe : ℕ} {gids conn : List ℤ} (h : conn.length = gids.length * npe) {e : ℕ} (he : e < gids.length) :
    elemLine npe gids conn e = some (elementText (gids[e], chunk npe conn e)) := by
  unfold elemLine
  have hin : (List.range npe).mapM (fun j => conn[e * npe + j]?) = some (chunk npe conn e) := by
    have hb : ∀ j ∈ List.range npe, conn[e * npe + j]? = some (conn.getD (e * npe + j) 0) := by
      intro j hj
      rw [List.mem_range] at hj
      have : (e + 1) * npe ≤ gids.length * npe := Nat.mul_le_mul_right _ he
      rw [Nat.add_mul] at this
      have hlt : e * npe + j < conn.length := by omega
      simp [hlt]
    rw [mapM_some' _ _ _ hb]
    congr 1
    apply List.ext_getElem
    · rw [List.length_map, List.length_range, chunk_length h he]
    · intro j h1 h2
      rw [List.length_map, List.length_range] at h1
      have : (e + 1) * npe ≤ gids.length * npe := Nat.mul_le_mul_right _ he
      rw [Nat.add_mul] at this
      simp only [chunk, List.getElem_map, List.getElem_range, List.getElem_take, List.getElem_drop]
      have hlt : e * npe + j < conn.length := by omega
      simp [hlt]
  rw [List.getElem?_eq_getElem he, hin]
  rfl

/-- The elements of a block. -/
def elements (npe : ℕ) (gids conn : List ℤ) : List (ℤ × List ℤ) := (List.range gids.length).map fun e => (gids.getD e 0, chunk npe conn e)

theorem elements_ids (npe : ℕ) (gids conn : List ℤ) : (elements npe gids conn).map (·.1) = gids := by
  unfold elements
  rw [List.map_map]
  apply List.ext_getElem
  · simp
  · intro j h1 h2
    simp only [List.length_map, List.length_range] at h1
    simp [h1]

theorem elements_conn (npe : ℕ) (gids conn : List ℤ) (h : conn.length = gids.length * npe) : (elements npe gids conn).flatMap (·.2) = conn := by
  unfold elements
  rw [List.flatMap_map]
  exact (chunks_concat npe conn gids.length).trans (List.take_of_length_le h.le)

theorem elements_length (npe : ℕ) (gids conn : List ℤ) : (elements npe gids conn).length = gids.length := by simp [elements]

theorem elements_npe {npe : ℕ} {gids conn : List ℤ} (h : conn.length = gids.length * npe) : ∀ p ∈ elements npe gids conn, p.2.length = npe := by
  intro p hp
  obtain ⟨e, he, rfl⟩ := List.mem_map.mp hp
  exact chunk_length h (List.mem_range.mp he)

theorem elemLines_eq {npe : ℕ} {gids conn : List ℤ} (h : conn.length = gids.length * npe) :
    (List.range gids.length).mapM (elemLine npe gids conn) = some ((elements npe gids conn).map elementText) := by
  unfold elements
  rw [List.map_map]
  apply mapM_some'
  intro e he
  have he' := List.mem_range.mp he
  rw [elemLine_eq h he']
  simp [he']

/-! ## Splitting the text -/

theorem splitOn_textOf (lines : List Str) (h : ∀ l ∈ lines, '\n' ∉ l) : (textOf lines).splitOn '\n' = lines ++ [[]] := by
  induction lines with
  | nil => rfl
  | cons l lines ih =>
    have : textOf (l :: lines) = l ++ '\n' :: textOf lines := by simp [textOf]
    rw [this]
    have h1 := h l (by simp)
    rw [List.splitOn_append_cons_self, List.splitOn_eq_singleton h1, ih (fun x hx => h x (by simp [hx]))]
    rfl

end NimbleSM.Genesis
