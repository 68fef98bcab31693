import Verif.Mesh.TextSteps
import Verif.Mesh.TextMeshLemmas
import Verif.Mesh.ExodusStepsProps

/-!
# C141: the results of a run can be read back from the text file

The specification is a reader of the format that knows the number of global values, of nodal variables and of nodes.
-/

namespace NimbleSM.ExodusOut

open NimbleSM.Fields (Str intText)
open NimbleSM.Genesis (GoodWord extractInt extractInt_spec split_word split_space delivers_line intText_good)
open NimbleSM.Contact (extractWord Delivers extractWord_cons)

variable {K : Type}

/-! ## The reader -/

/-- What a reader finds in a step; values as texts. -/
structure StepText where
  time : Str
  globals : List Str
  node : List (List Str)
  sections : List ((Str × ℤ) × ℤ × List Str)
  deriving DecidableEq

/-- `n` lines. -/
def takeLines (n : ℕ) (ls : List Str) : Option (List Str × List Str) :=
  if n ≤ ls.length then some (ls.take n, ls.drop n) else none

/-- `k` times `n` lines. -/
def takeArrays (n : ℕ) : ℕ → List Str → Option (List (List Str) × List Str)
  | 0, ls => some ([], ls)
  | k + 1, ls => (takeLines n ls).bind fun p => (takeArrays n k p.2).map fun q => (p.1 :: q.1, q.2)

/-- A line with the given text. -/
def takeWord (w : Str) : List Str → Option (List Str)
  | [] => none
  | l :: ls => if l = w then some ls else none

/-- A line `name number block count`. -/
def parseSectionLine (l : Str) : Option ((Str × ℤ) × ℤ × ℤ) :=
  let w := extractWord ⟨l, true⟩
  (extractInt w.2).bind fun i => (extractInt i.2).bind fun b => (extractInt b.2).map fun n => ((w.1, i.1), b.1, n.1)

/-- Sections up to the next step or the end of the file; the first argument bounds their number. -/
def takeSections : ℕ → List Str → Option (List ((Str × ℤ) × ℤ × List Str) × List Str)
  | 0, ls => some ([], ls)
  | _ + 1, [] => some ([], [])
  | f + 1, l :: ls =>
    if l = "time".toList then some ([], l :: ls)
    else (parseSectionLine l).bind fun h => (takeLines h.2.2.toNat ls).bind fun p =>
      (takeSections f p.2).map fun q => ((h.1, h.2.1, p.1) :: q.1, q.2)

/-- One step. -/
def readStepText (numGlobals numVars numNodes : ℕ) (ls : List Str) : Option (StepText × List Str) :=
  (takeWord "time".toList ls).bind fun ls => (takeLines 1 ls).bind fun t =>
  (takeWord "global_data_values".toList t.2).bind fun ls => (takeLines numGlobals ls).bind fun g =>
  (takeWord "node_data_values".toList g.2).bind fun ls => (takeArrays numNodes numVars ls).bind fun n =>
  (takeWord "element_data_values".toList n.2).bind fun ls => (takeSections ls.length ls).map fun e =>
    (⟨t.1.headD [], g.1, n.1, e.1⟩, e.2)

/-- All steps; the first argument bounds their number. -/
def readStepsText (numGlobals numVars numNodes : ℕ) : ℕ → List Str → Option (List StepText)
  | _, [] => some []
  | 0, _ :: _ => none
  | f + 1, l :: ls => (readStepText numGlobals numVars numNodes (l :: ls)).bind fun p =>
    (readStepsText numGlobals numVars numNodes f p.2).map fun r => p.1 :: r

/-! ## What is written -/

/-- The named arrays of a block, in the order in which they are written. -/
def blockArrays (a : StepArgs K) (b : ℤ) : List (Str × List K) :=
  ((a.names b).getD []).zip ((a.elem b).getD []) ++ ((a.derivedNames b).getD []).zip ((a.derived b).getD [])

/-- The step, with sixteen digits throughout; element variables with the number they have in the header. -/
def expected (fmt : ℕ → K → Str) (index : Str → Option ℕ) (blockIds : List ℤ) (a : StepArgs K) : StepText where
  time := fmt 16 a.time
  globals := a.globals.map (fmt 16)
  node := a.node.map fun d => d.map (fmt 16)
  sections := blockIds.flatMap fun b => (blockArrays a b).map fun p =>
    ((p.1, (((index p.1).getD 0 : ℕ) : ℤ)), b, p.2.map (fmt 16))

/-- The lines of a section. -/
def linesOfSection (fmt : ℕ → K → Str) (index : Str → Option ℕ) (b : ℤ) (p : Str × List K) : List Str :=
  sectionLine p.1 ((index p.1).getD 0) b p.2.length :: p.2.map (fmt 16)

theorem foldl_emitPrecise (fmt : ℕ → K → Str) (d : List K) (s : TextStream) (h : s.prec = 16) :
    d.foldl (TextStream.emitPrecise fmt) s = ⟨16, s.lines ++ d.map (fmt 16)⟩ := by
  induction d generalizing s with
  | nil => cases s; cases h; simp
  | cons v d ih =>
    rw [List.foldl_cons, ih _ rfl]
    simp [TextStream.emitPrecise, TextStream.setPrecision, TextStream.emitValue, TextStream.emit]

theorem foldl_emitValue (fmt : ℕ → K → Str) (d : List K) (s : TextStream) (h : s.prec = 16) :
    d.foldl (TextStream.emitValue fmt) s = ⟨16, s.lines ++ d.map (fmt 16)⟩ := by
  induction d generalizing s with
  | nil => cases s; cases h; simp
  | cons v d ih =>
    rw [List.foldl_cons, ih (TextStream.emitValue fmt s v) h]
    simp [TextStream.emitValue, TextStream.emit, h]

theorem foldl_arrays (fmt : ℕ → K → Str) (ds : List (List K)) (s : TextStream) (h : s.prec = 16) :
    ds.foldl (fun s d => d.foldl (TextStream.emitPrecise fmt) s) s = ⟨16, s.lines ++ ds.flatMap fun d => d.map (fmt 16)⟩ := by
  induction ds generalizing s with
  | nil => cases s; cases h; simp
  | cons d ds ih =>
    rw [List.foldl_cons, foldl_emitPrecise fmt d s h, ih _ rfl]
    simp

theorem textSections_eq (fmt : ℕ → K → Str) (index : Str → Option ℕ) (b : ℤ) (ns : List Str) :
    ∀ (ds : List (List K)) (s s' : TextStream), s.prec = 16 → textSections fmt index b ns ds s = some s' →
      s' = ⟨16, s.lines ++ (ns.zip ds).flatMap (linesOfSection fmt index b)⟩ ∧
      (ns.zip ds).map Prod.fst = ns ∧ ∀ n ∈ ns, (index n).isSome = true := by
  induction ns with
  | nil =>
    intro ds s s' h e
    rw [textSections, Option.some.injEq] at e
    subst e
    refine ⟨by cases s; cases h; simp, rfl, by simp⟩
  | cons n ns ih =>
    intro ds s s' h e
    cases ds with
    | nil => cases e
    | cons d ds =>
      rw [textSections] at e
      cases hi : index n with
      | none => rw [hi] at e; cases e
      | some i =>
        rw [hi] at e
        simp only at e
        rw [foldl_emitPrecise fmt d (s.emit _) h] at e
        obtain ⟨e1, e2, e3⟩ := ih ds _ s' rfl e
        refine ⟨?_, by rw [List.zip_cons_cons, List.map_cons, e2], ?_⟩
        · rw [e1, List.zip_cons_cons, List.flatMap_cons]
          simp [linesOfSection, TextStream.emit, hi]
        · intro m hm
          rcases List.mem_cons.mp hm with rfl | hm
          · rw [hi]; rfl
          · exact e3 m hm

/-- The lines of the element part of a step. -/
def blockLinesOf (fmt : ℕ → K → Str) (index : Str → Option ℕ) (a : StepArgs K) (bs : List ℤ) : List Str :=
  bs.flatMap fun b => (blockArrays a b).flatMap (linesOfSection fmt index b)

theorem zip_arraysAt {ns : List Str} {o : Option (List (List K))} {es : List (List K)} (h : arraysAt ns o = some es) :
    ns.zip es = ns.zip (o.getD []) := by
  unfold arraysAt at h
  split at h
  · rename_i hn; subst hn; simp
  · rw [h]; rfl

theorem textBlocks_eq (fmt : ℕ → K → Str) (index : Str → Option ℕ) (a : StepArgs K) (bs : List ℤ) :
    ∀ (s s' : TextStream), s.prec = 16 → textBlocks fmt index a bs s = some s' →
      s' = ⟨16, s.lines ++ blockLinesOf fmt index a bs⟩ ∧
      ∀ b ∈ bs, (blockArrays a b).map Prod.fst = (a.names b).getD [] ++ (a.derivedNames b).getD [] ∧
        ∀ n ∈ (a.names b).getD [] ++ (a.derivedNames b).getD [], (index n).isSome = true := by
  induction bs with
  | nil =>
    intro s s' h e
    rw [textBlocks, Option.some.injEq] at e
    subst e
    exact ⟨by cases s; cases h; simp [blockLinesOf], by simp⟩
  | cons b bs ih =>
    intro s s' h e
    rw [textBlocks] at e
    simp only [Option.bind_eq_some_iff] at e
    obtain ⟨ns, hns, es, hes, s1, h1, dn, hdn, ds, hds, s2, h2, e⟩ := e
    obtain ⟨e1, e2, e3⟩ := textSections_eq fmt index b ns es s s1 h h1
    subst e1
    obtain ⟨f1, f2, f3⟩ := textSections_eq fmt index b dn ds _ s2 rfl h2
    subst f1
    obtain ⟨g1, g2⟩ := ih _ s' rfl e
    rw [zip_arraysAt hes] at e2
    rw [zip_arraysAt hds] at f2
    constructor
    · rw [g1, zip_arraysAt hes, zip_arraysAt hds]
      simp [blockLinesOf, blockArrays, hns, hdn]
    · intro b' hb'
      rcases List.mem_cons.mp hb' with rfl | hb'
      · rw [hns, hdn]
        refine ⟨by simp [blockArrays, hns, hdn, e2, f2], ?_⟩
        intro n hn
        rcases List.mem_append.mp hn with hn | hn
        · exact e3 n hn
        · exact f3 n hn
      · exact g2 b' hb'

/-- The lines of a step. -/
def stepLines (fmt : ℕ → K → Str) (index : Str → Option ℕ) (blockIds : List ℤ) (a : StepArgs K) : List Str :=
  "time".toList :: fmt 16 a.time :: "global_data_values".toList :: (a.globals.map (fmt 16) ++
    "node_data_values".toList :: ((a.node.flatMap fun d => d.map (fmt 16)) ++
      "element_data_values".toList :: blockLinesOf fmt index a blockIds))

theorem writeStepText_eq (fmt : ℕ → K → Str) (index : Str → Option ℕ) (blockIds : List ℤ) (file file' : List Str)
    (a : StepArgs K) (h : writeStepText fmt index blockIds file a = some file') :
    file' = file ++ stepLines fmt index blockIds a ∧
      ∀ b ∈ blockIds, ∀ p ∈ blockArrays a b, p.1 ∈ (a.names b).getD [] ++ (a.derivedNames b).getD [] := by
  unfold writeStepText at h
  simp only at h
  rw [foldl_emitValue _ _ _ rfl, foldl_arrays _ _ _ rfl, Option.map_eq_some_iff] at h
  obtain ⟨s', hs, rfl⟩ := h
  obtain ⟨e1, e2⟩ := textBlocks_eq fmt index a blockIds _ s' rfl hs
  subst e1
  refine ⟨?_, ?_⟩
  · simp [stepLines, TextStream.emit, TextStream.emitPrecise, TextStream.setPrecision, TextStream.emitValue]
  · intro b hb p hp
    rw [← (e2 b hb).1]
    exact List.mem_map_of_mem hp

/-! ## Reading it -/

theorem takeLines_append (n : ℕ) (l rest : List Str) (h : l.length = n) : takeLines n (l ++ rest) = some (l, rest) := by
  unfold takeLines
  subst h
  rw [if_pos (by simp), List.take_left, List.drop_left]

theorem takeArrays_append (n : ℕ) (ls : List (List Str)) (rest : List Str) (h : ∀ l ∈ ls, l.length = n) :
    takeArrays n ls.length (ls.flatten ++ rest) = some (ls, rest) := by
  induction ls with
  | nil => rfl
  | cons l ls ih =>
    rw [List.length_cons, takeArrays, List.flatten_cons, List.append_assoc, takeLines_append n l _ (h l (by simp)),
      Option.bind_some, ih fun l' hl' => h l' (by simp [hl'])]
    rfl

theorem parse_sectionLine (n : Str) (hn : GoodWord n) (i : ℕ) (b : ℤ) (m : ℕ) :
    parseSectionLine (sectionLine n i b m) = some ((n, (i : ℤ)), b, (m : ℤ)) := by
  have hs : NimbleSM.Uq.split (sectionLine n i b m) = [n, intText i, intText b, intText m] := by
    unfold sectionLine
    rw [show n ++ ' ' :: intText (i : ℤ) ++ ' ' :: intText b ++ ' ' :: intText (m : ℤ) =
      n ++ ' ' :: (intText (i : ℤ) ++ ' ' :: (intText b ++ ' ' :: intText (m : ℤ))) by simp]
    rw [split_space hn, split_space (intText_good _), split_space (intText_good _), split_word (intText_good _)]
  have hd := delivers_line hs
  have hw := extractWord_cons hd
  unfold parseSectionLine
  simp only
  obtain ⟨s1, h1, d1⟩ := extractInt_spec hw.2.2.1
  obtain ⟨s2, h2, d2⟩ := extractInt_spec d1
  obtain ⟨s3, h3, d3⟩ := extractInt_spec d2
  rw [h1, Option.bind_some, h2, Option.bind_some, h3, Option.map_some, hw.2.1]

theorem sectionLine_ne_time (n : Str) (i : ℕ) (b : ℤ) (m : ℕ) : sectionLine n i b m ≠ "time".toList := by
  intro h
  have h1 : ' ' ∈ sectionLine n i b m := by unfold sectionLine; simp
  rw [h] at h1
  revert h1
  decide

theorem takeSections_lines (fmt : ℕ → K → Str) (index : Str → Option ℕ) (ps : List (ℤ × Str × List K))
    (hg : ∀ p ∈ ps, GoodWord p.2.1) (rest : List Str) (hr : ∀ l ∈ rest.head?, l = "time".toList) :
    ∀ fuel, ps.length < fuel ∨ (ps.length ≤ fuel ∧ rest = []) →
      takeSections fuel ((ps.flatMap fun p => linesOfSection fmt index p.1 p.2) ++ rest) =
        some (ps.map fun p => ((p.2.1, (((index p.2.1).getD 0 : ℕ) : ℤ)), p.1, p.2.2.map (fmt 16)), rest) := by
  induction ps with
  | nil =>
    intro fuel hf
    cases fuel with
    | zero =>
      rcases hf with hf | ⟨_, rfl⟩
      · simp at hf
      · rfl
    | succ f =>
      cases rest with
      | nil => rfl
      | cons l ls =>
        have := hr l (by simp)
        simp [takeSections, this]
  | cons p ps ih =>
    intro fuel hf
    cases fuel with
    | zero => simp at hf
    | succ f =>
      rw [List.flatMap_cons, linesOfSection, List.cons_append, List.cons_append, takeSections,
        if_neg (sectionLine_ne_time _ _ _ _), parse_sectionLine _ (hg p (by simp)), Option.bind_some]
      simp only [Int.toNat_natCast]
      rw [List.append_assoc, takeLines_append _ _ _ (by simp), Option.bind_some]
      simp only
      rw [ih (fun q hq => hg q (by simp [hq])) f (by
        rw [List.length_cons] at hf
        rcases hf with hf | ⟨hf, hr0⟩
        · exact .inl (by omega)
        · exact .inr ⟨by omega, hr0⟩), Option.map_some]
      rfl

/-- The arrays of all blocks with their blocks. -/
def allArrays (a : StepArgs K) (bs : List ℤ) : List (ℤ × Str × List K) :=
  bs.flatMap fun b => (blockArrays a b).map fun p => (b, p)

theorem blockLinesOf_eq (fmt : ℕ → K → Str) (index : Str → Option ℕ) (a : StepArgs K) (bs : List ℤ) :
    blockLinesOf fmt index a bs = (allArrays a bs).flatMap fun p => linesOfSection fmt index p.1 p.2 := by
  unfold blockLinesOf allArrays
  rw [List.flatMap_assoc]
  congr 1
  funext b
  rw [List.flatMap_map]

theorem sections_length (fmt : ℕ → K → Str) (index : Str → Option ℕ) (ps : List (ℤ × Str × List K)) :
    ps.length ≤ (ps.flatMap fun p => linesOfSection fmt index p.1 p.2).length := by
  induction ps with
  | nil => simp
  | cons p ps ih =>
    rw [List.flatMap_cons, List.length_append, List.length_cons]
    have : 1 ≤ (linesOfSection fmt index p.1 p.2).length := by simp [linesOfSection]
    omega

theorem readStepText_lines (fmt : ℕ → K → Str) (index : Str → Option ℕ) (blockIds : List ℤ) (a : StepArgs K) (numNodes : ℕ)
    (hnode : ∀ d ∈ a.node, d.length = numNodes)
    (hg : ∀ b ∈ blockIds, ∀ p ∈ blockArrays a b, GoodWord p.1) (rest : List Str)
    (hr : ∀ l ∈ rest.head?, l = "time".toList) :
    readStepText a.globals.length a.node.length numNodes (stepLines fmt index blockIds a ++ rest) =
      some (expected fmt index blockIds a, rest) := by
  unfold readStepText stepLines
  rw [List.cons_append, takeWord, if_pos rfl, Option.bind_some]
  have t1 : takeLines 1 ((fmt 16 a.time :: "global_data_values".toList :: (a.globals.map (fmt 16) ++
      "node_data_values".toList :: ((a.node.flatMap fun d => d.map (fmt 16)) ++
        "element_data_values".toList :: blockLinesOf fmt index a blockIds))) ++ rest) =
      some ([fmt 16 a.time], ("global_data_values".toList :: (a.globals.map (fmt 16) ++
      "node_data_values".toList :: ((a.node.flatMap fun d => d.map (fmt 16)) ++
        "element_data_values".toList :: blockLinesOf fmt index a blockIds))) ++ rest) :=
    takeLines_append 1 [fmt 16 a.time] _ rfl
  rw [t1, Option.bind_some]
  simp only
  rw [List.cons_append, takeWord, if_pos rfl, Option.bind_some, List.append_assoc,
    takeLines_append _ _ _ (by simp), Option.bind_some]
  simp only
  rw [List.cons_append, takeWord, if_pos rfl, Option.bind_some, List.append_assoc]
  have hn : a.node.flatMap (fun d => d.map (fmt 16)) = (a.node.map fun d => d.map (fmt 16)).flatten := by
    rw [List.flatMap_def]
  have hl : a.node.length = (a.node.map fun d => d.map (fmt 16)).length := by simp
  rw [hn, hl, takeArrays_append numNodes _ _ (by
    intro l hl
    obtain ⟨d, hd, rfl⟩ := List.mem_map.mp hl
    rw [List.length_map]; exact hnode d hd), Option.bind_some]
  simp only
  rw [List.cons_append, takeWord, if_pos rfl, Option.bind_some, blockLinesOf_eq]
  rw [takeSections_lines fmt index (allArrays a blockIds) (by
    intro p hp
    unfold allArrays at hp
    simp only [List.mem_flatMap, List.mem_map] at hp
    obtain ⟨b, hb, q, hq, rfl⟩ := hp
    exact hg b hb q hq) rest hr _ (by
      have := sections_length fmt index (allArrays a blockIds)
      rw [List.length_append]
      cases rest with
      | nil => right; exact ⟨by simpa using this, rfl⟩
      | cons l ls => left; simp only [List.length_cons]; omega), Option.map_some]
  unfold expected allArrays
  simp [List.map_flatMap, List.map_map, Function.comp_def]

/-- The arguments of every step fit the declaration of the file: the number of global values and nodal variables, the number of
nodes, and names without blanks. -/
def FitsText (numGlobals numVars numNodes : ℕ) (blockIds : List ℤ) (a : StepArgs K) : Prop :=
  a.globals.length = numGlobals ∧ a.node.length = numVars ∧ (∀ d ∈ a.node, d.length = numNodes) ∧
    ∀ b ∈ blockIds, ∀ n ∈ (a.names b).getD [] ++ (a.derivedNames b).getD [], GoodWord n

/-- **C141.**  After any number of steps the lines added to the file are read back by the reader as exactly the steps written,
in order: time, global values, nodal values by variable and node, element values by name and block, all with sixteen digits. -/
theorem text_results_readable (fmt : ℕ → K → Str) (index : Str → Option ℕ) (blockIds : List ℤ) (numGlobals numVars numNodes : ℕ)
    (as : List (StepArgs K)) (h : ∀ a ∈ as, FitsText numGlobals numVars numNodes blockIds a) (file file' : List Str)
    (hw : writeStepsText fmt index blockIds as file = some file') :
    ∃ added, file' = file ++ added ∧
      readStepsText numGlobals numVars numNodes as.length added = some (as.map (expected fmt index blockIds)) := by
  have key : ∀ (as : List (StepArgs K)), (∀ a ∈ as, FitsText numGlobals numVars numNodes blockIds a) →
      ∀ file file', writeStepsText fmt index blockIds as file = some file' →
      file' = file ++ as.flatMap (stepLines fmt index blockIds) ∧
      readStepsText numGlobals numVars numNodes as.length (as.flatMap (stepLines fmt index blockIds)) =
        some (as.map (expected fmt index blockIds)) := by
    intro as
    induction as with
    | nil =>
      intro _ file file' hw
      rw [writeStepsText, Option.some.injEq] at hw
      subst hw
      exact ⟨by simp, rfl⟩
    | cons a as ih =>
      intro h file file' hw
      rw [writeStepsText, Option.bind_eq_some_iff] at hw
      obtain ⟨f1, h1, h2⟩ := hw
      obtain ⟨e1, e2⟩ := writeStepText_eq fmt index blockIds file f1 a h1
      obtain ⟨e3, e4⟩ := ih (fun a' ha' => h a' (by simp [ha'])) f1 file' h2
      refine ⟨by rw [e3, e1, List.flatMap_cons, List.append_assoc], ?_⟩
      obtain ⟨g1, g2, g3, g4⟩ := h a (by simp)
      have hr := readStepText_lines fmt index blockIds a numNodes g3
        (fun b hb p hp => g4 b hb p.1 (e2 b hb p hp)) (as.flatMap (stepLines fmt index blockIds)) (by
          cases as with
          | nil => simp
          | cons a' as' => simp [stepLines])
      rw [g1, g2] at hr
      rw [List.flatMap_cons]
      have hc : ∃ l ls, stepLines fmt index blockIds a ++ as.flatMap (stepLines fmt index blockIds) = l :: ls :=
        ⟨"time".toList, _, rfl⟩
      obtain ⟨l, ls, hc⟩ := hc
      rw [hc] at hr ⊢
      rw [List.length_cons, readStepsText, hr, Option.bind_some]
      simp only
      rw [e4, Option.map_some, List.map_cons]
  exact ⟨_, key as h file file' hw⟩

/-! ## When it succeeds -/

theorem textSections_defined (fmt : ℕ → K → Str) (index : Str → Option ℕ) (b : ℤ) (ns : List Str) :
    ∀ (ds : List (List K)) (s : TextStream), (∀ n ∈ ns, (index n).isSome = true) → ns.length ≤ ds.length →
      ∃ s', textSections fmt index b ns ds s = some s' := by
  induction ns with
  | nil => intro ds s _ _; exact ⟨s, rfl⟩
  | cons n ns ih =>
    intro ds s hi hl
    cases ds with
    | nil => simp at hl
    | cons d ds =>
      obtain ⟨i, hi'⟩ := Option.isSome_iff_exists.mp (hi n (by simp))
      rw [textSections, hi']
      exact ih ds _ (fun m hm => hi m (by simp [hm])) (by simpa using hl)

/-- **C141, success.**  A step is written without exception if every block has its list of names, plain and derived, every name
was numbered when the file was begun, and there is an array for each. -/
theorem text_step_written (fmt : ℕ → K → Str) (index : Str → Option ℕ) (blockIds : List ℤ) (file : List Str) (a : StepArgs K)
    (h : ∀ b ∈ blockIds, ∃ ns es dn ds, a.names b = some ns ∧ a.elem b = some es ∧ a.derivedNames b = some dn ∧
      a.derived b = some ds ∧ (∀ n ∈ ns ++ dn, (index n).isSome = true) ∧ ns.length ≤ es.length ∧ dn.length ≤ ds.length) :
    ∃ file', writeStepText fmt index blockIds file a = some file' := by
  have key : ∀ (bs : List ℤ), (∀ b ∈ bs, b ∈ blockIds) → ∀ s : TextStream, ∃ s', textBlocks fmt index a bs s = some s' := by
    intro bs
    induction bs with
    | nil => intro _ s; exact ⟨s, rfl⟩
    | cons b bs ih =>
      intro hb s
      obtain ⟨ns, es, dn, ds, h1, h2, h3, h4, h5, h6, h7⟩ := h b (hb b (by simp))
      have ha : ∀ (ns : List Str) (es : List (List K)), ns.length ≤ es.length → ∃ es', arraysAt ns (some es) = some es' ∧
          ns.length ≤ es'.length := by
        intro ns es hl
        unfold arraysAt
        by_cases hn : ns = []
        · rw [if_pos hn]; exact ⟨[], rfl, by simp [hn]⟩
        · rw [if_neg hn]; exact ⟨es, rfl, hl⟩
      obtain ⟨es', ha1, ha2⟩ := ha ns es h6
      obtain ⟨ds', hd1, hd2⟩ := ha dn ds h7
      obtain ⟨s1, hs1⟩ := textSections_defined fmt index b ns es' s (fun n hn => h5 n (by simp [hn])) ha2
      obtain ⟨s2, hs2⟩ := textSections_defined fmt index b dn ds' s1 (fun n hn => h5 n (by simp [hn])) hd2
      obtain ⟨s3, hs3⟩ := ih (fun b' hb' => hb b' (by simp [hb'])) s2
      refine ⟨s3, ?_⟩
      rw [textBlocks, h1, Option.bind_some, h2, ha1, Option.bind_some, hs1, Option.bind_some, h3, Option.bind_some, h4, hd1,
        Option.bind_some, hs2, Option.bind_some, hs3]
  unfold writeStepText
  simp only
  generalize TextStream.emit _ "element_data_values".toList = s
  obtain ⟨s', hs'⟩ := key blockIds (fun _ h => h) s
  exact ⟨s'.lines, by rw [hs']; rfl⟩

/-- Non-vacuity: two steps with a global value, two nodal variables on two nodes and an element variable of one block. -/
def sampleStep (t : ℕ) : StepArgs ℕ where
  time := t
  globals := [t + 1]
  node := [[1, 2], [3, t]]
  names := fun _ => some ["stress".toList]
  elem := fun _ => some [[7, 8, 9]]
  derivedNames := fun _ => some ["volume".toList]
  derived := fun _ => some [[4, 5, t]]

example : ∃ file', writeStepsText (fun p v => intText (p * 1000 + v : ℕ)) (fun n => if n = "stress".toList then some 1 else some 2) [10]
    [sampleStep 0, sampleStep 5] ["header".toList] = some file' ∧
    readStepsText 1 2 2 2 (file'.drop 1) = some ([sampleStep 0, sampleStep 5].map
      (expected (fun p v => intText (p * 1000 + v : ℕ)) (fun n => if n = "stress".toList then some 1 else some 2) [10])) := by
  obtain ⟨f1, h1⟩ := text_step_written (fun p v => intText (p * 1000 + v : ℕ))
    (fun n => if n = "stress".toList then some 1 else some 2) [10] ["header".toList] (sampleStep 0)
    (fun b _ => ⟨_, _, _, _, rfl, rfl, rfl, rfl, by decide, by decide, by decide⟩)
  obtain ⟨f2, h2⟩ := text_step_written (fun p v => intText (p * 1000 + v : ℕ))
    (fun n => if n = "stress".toList then some 1 else some 2) [10] f1 (sampleStep 5)
    (fun b _ => ⟨_, _, _, _, rfl, rfl, rfl, rfl, by decide, by decide, by decide⟩)
  have hw : writeStepsText (fun p v => intText (p * 1000 + v : ℕ)) (fun n => if n = "stress".toList then some 1 else some 2) [10]
      [sampleStep 0, sampleStep 5] ["header".toList] = some f2 := by
    rw [writeStepsText, h1, Option.bind_some, writeStepsText, h2, Option.bind_some, writeStepsText]
  have hgood : GoodWord "stress".toList ∧ GoodWord "volume".toList := by
    constructor <;> exact ⟨by decide, by decide⟩
  obtain ⟨added, e1, e2⟩ := text_results_readable _ _ [10] 1 2 2 _ (by
    intro a ha
    have : a = sampleStep 0 ∨ a = sampleStep 5 := by simpa using ha
    rcases this with rfl | rfl <;>
    · refine ⟨rfl, rfl, by simp [sampleStep], ?_⟩
      intro b _ n hn
      have : n = "stress".toList ∨ n = "volume".toList := by simpa [sampleStep] using hn
      rcases this with rfl | rfl
      · exact hgood.1
      · exact hgood.2) _ _ hw
  refine ⟨f2, hw, ?_⟩
  rw [e1]
  exact e2

end NimbleSM.ExodusOut
