import Verif.Fields.Labels
import Mathlib.Data.List.Sort

/-!
# Results in an Exodus file: `src/nimble_exodus_output.cc` (build with Exodus)

The variables and time steps of the output database; the mesh part of the file is `Verif.Mesh.Exodus`.
`none` is an exception, an abort or undefined behaviour.  The Exodus library is represented by the
arrays it stores: names by position, values by (step, variable number[, block]); putting values replaces
what was there.  Values are stored as they are (`IO_word_size_` is 8).
-/

namespace NimbleSM.ExodusOut

open NimbleSM.Fields (Str)

/-- The variables part of an Exodus database.  Variable numbers and steps start at 1. -/
structure Db (K : Type) where
  globalNames : List Str := []
  nodeNames : List Str := []
  elemNames : List Str := []
  times : ℕ → Option K := fun _ => none
  globals : ℕ → Option (List K) := fun _ => none
  node : ℕ → ℕ → Option (List K) := fun _ _ => none
  elem : ℕ → ℕ → ℤ → Option (List K) := fun _ _ _ => none

/-- nimble_exodus_output.h:60-110, the members used for the variables: `filename_` (its contents, `db`),
`num_nodes_`, `block_ids_`, `elem_data_index_`, `exodus_write_count_`; `numElem` is the number of elements
per block in the file. -/
structure Out (K : Type) where
  numNodes : ℕ
  blockIds : List ℤ
  numElem : ℤ → ℕ
  index : Str → Option ℕ := fun _ => none
  count : ℕ := 0
  db : Db K := {}

variable {K : Type}

/-- nimble_exodus_output.cc:234-237 (and 249-252, 280-283): `strcpy` into buffers of
`MAX_STR_LENGTH + 1 = 33` characters; a longer name overflows the buffer. -/
def copyNames (names : List Str) : Option (List Str) :=
  if ∀ n ∈ names, n.length ≤ 32 then some names else none

/-- Insertion into a `std::set<std::string>`, listed in its order. -/
def setInsert (n : Str) : List Str → List Str
  | [] => [n]
  | m :: ms => if n = m then m :: ms else if n < m then n :: m :: ms else m :: setInsert n ms

/-- nimble_exodus_output.cc:260-265: the names of all blocks in a set; `none` when `at` throws. -/
def uniqueNames (names derived : ℤ → Option (List Str)) : List ℤ → List Str → Option (List Str)
  | [], acc => some acc
  | id :: ids, acc => do
    let ns ← names id
    let ds ← derived id
    uniqueNames names derived ids (ds.foldl (fun a n => setInsert n a) (ns.foldl (fun a n => setInsert n a) acc))

/-- nimble_exodus_output.cc:268-273: the map from name to variable number; `i` names were numbered. -/
def indexNames : ℕ → List Str → (Str → Option ℕ) → Str → Option ℕ
  | _, [], m => m
  | i, n :: ns, m => indexNames (i + 1) ns (Function.update m n (some (i + 1)))

/-- nimble_exodus_output.cc:246-257: names of nodal variables are declared if there are any and there are
nodes. -/
def declareNodes (numNodes : ℕ) (nodeNames : List Str) : Option (List Str) :=
  if nodeNames.length > 0 ∧ numNodes > 0 then copyNames nodeNames else some []

/-- nimble_exodus_output.cc:231-287: declaring the variables in `InitializeDatabase`. -/
def initVariables (out : Out K) (globalNames nodeNames : List Str) (names derived : ℤ → Option (List Str)) :
    Option (Out K) := do
  let g ← copyNames globalNames
  let n ← declareNodes out.numNodes nodeNames
  let u ← uniqueNames names derived out.blockIds []
  let e ← copyNames u
  return { out with
    index := indexNames 0 u out.index
    db := { out.db with globalNames := g, nodeNames := n, elemNames := e } }

/-- The arguments of one call of `WriteStep`. -/
structure StepArgs (K : Type) where
  time : K
  globals : List K
  node : List (List K)
  names : ℤ → Option (List Str)
  elem : ℤ → Option (List (List K))
  derivedNames : ℤ → Option (List Str)
  derived : ℤ → Option (List (List K))

/-- `ex_put_var` for an element block. -/
def Db.putElem (db : Db K) (step i : ℕ) (block : ℤ) (d : List K) : Db K :=
  { db with elem := fun s j b => if s = step ∧ j = i ∧ b = block then some d else db.elem s j b }

/-- `ex_put_var` for a nodal variable. -/
def Db.putNode (db : Db K) (step i : ℕ) (d : List K) : Db K :=
  { db with node := fun s j => if s = step ∧ j = i then some d else db.node s j }

/-- nimble_exodus_output.cc:343-350: the nodal variables, `i` of which were written.  A variable that was
not declared is an error; an array shorter than the number of nodes is read beyond its end. -/
def putNodes (numNodes step : ℕ) : ℕ → List (List K) → Db K → Option (Db K)
  | _, [], db => some db
  | i, d :: ds, db =>
    if i < db.nodeNames.length ∧ numNodes ≤ d.length then
      putNodes numNodes step (i + 1) ds
        (db.putNode step (i + 1) (d.take numNodes))
    else none

/-- nimble_exodus_output.cc:357-369 (371-383): the element variables of one block.  Here an array whose
length is not the number of elements of the block is an error (the library would refuse a longer one). -/
def putElems (index : Str → Option ℕ) (numElem step : ℕ) (block : ℤ) : List Str → List (List K) → Db K → Option (Db K)
  | [], _, db => some db
  | _ :: _, [], _ => none
  | n :: ns, d :: ds, db => do
    let i ← index n
    if d.length = numElem then
      putElems index numElem step block ns ds
        (db.putElem step i block d)
    else none

/-- `elem_data.at(block_id)` is only evaluated inside the loop over the names. -/
def arraysAt (names : List Str) (arrays : Option (List (List K))) : Option (List (List K)) :=
  if names = [] then some [] else arrays

/-- nimble_exodus_output.cc:353-384: the loop over the blocks. -/
def putBlocks (out : Out K) (step : ℕ) (a : StepArgs K) : List ℤ → Db K → Option (Db K)
  | [], db => some db
  | b :: bs, db => do
    let ns ← a.names b
    let es ← arraysAt ns (a.elem b)
    let db1 ← putElems out.index (out.numElem b) step b ns es db
    let dn ← a.derivedNames b
    let ds ← arraysAt dn (a.derived b)
    let db2 ← putElems out.index (out.numElem b) step b dn ds db1
    putBlocks out step a bs db2

/-- nimble_exodus_output.cc:335-341: time and global values; more values than declared is an error. -/
def putGlobals (step : ℕ) (a : StepArgs K) (db : Db K) : Option (Db K) :=
  let db0 := { db with times := Function.update db.times step (some a.time) }
  if a.globals.length > 0 then
    if a.globals.length ≤ db.globalNames.length then
      some { db0 with globals := Function.update db0.globals step (some a.globals) }
    else none
  else some db0

/-- nimble_exodus_output.cc:343-351. -/
def putAllNodes (numNodes step : ℕ) (node : List (List K)) (db : Db K) : Option (Db K) :=
  if numNodes > 0 then putNodes numNodes step 0 node db else some db

/-- nimble_exodus_output.cc:308-392 `WriteStep`. -/
def writeStep (out : Out K) (a : StepArgs K) : Option (Out K) := do
  let step := out.count + 1
  let db1 ← putGlobals step a out.db
  let db2 ← putAllNodes out.numNodes step a.node db1
  let db3 ← putBlocks out step a out.blockIds db2
  return { out with count := step, db := db3 }

/-- A history of output steps. -/
def writeSteps : List (StepArgs K) → Out K → Option (Out K)
  | [], out => some out
  | a :: as, out => (writeStep out a).bind (writeSteps as)

end NimbleSM.ExodusOut
