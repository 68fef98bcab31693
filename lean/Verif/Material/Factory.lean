import Verif.Parse.Tokens
import Verif.Material.Material

/-!
# Material parameter strings: `src/nimble_material_factory_base.cc`, `src/nimble_material_factory.cc`

Strings are lists of characters (Tokens.lean).  `std::map` is a function from names to optional
values.  No string-valued parameter is registered anywhere in the repository
(`add_valid_string_parameter_name` has no caller), but the parameter is kept in the model.
-/

namespace NimbleSM.Constitutive

open NimbleSM.Parse

/-- How a call ends. -/
inductive Outcome (α : Type) where
  | ok (a : α)
  /-- `std::invalid_argument` is thrown -/
  | invalidArgument
  /-- `NIMBLE_ASSERT` aborts the process -/
  | abort
  /-- an element past the end of a vector is read (undefined behaviour) -/
  | overread

/-- `std::map<std::string, double>`. -/
abbrev DMap := List Char → Option ℚ

/-- `std::map::insert`: an existing entry is kept. -/
def DMap.insert {α : Type} (m : List Char → Option α) (k : List Char) (v : α) : List Char → Option α :=
  fun k' => if k' = k ∧ m k = none then some v else m k'

/-- nimble_material_factory_base.cc:79-94, and the identical loop 114-129: the loop over the tokens after
the first. State: the two maps. -/
def parsePairs (validD validS : List (List Char)) (dmax : ℚ) :
    List (List Char) → DMap → (List Char → Option (List Char)) →
      Outcome (DMap × (List Char → Option (List Char)))
  | [], d, s => .ok (d, s)
  | [_], _, _ => .overread
  | key :: val :: rest, d, s =>
    if key ∈ validD then parsePairs validD validS dmax rest (DMap.insert d key (stringToDouble dmax val)) s
    else if key ∈ validS then parsePairs validD validS dmax rest d (DMap.insert s key val)
    else .invalidArgument

/-- nimble_material.h:187-193: the members of `MaterialParameters`. -/
structure Params where
  name : List Char
  dbl : DMap
  str : List Char → Option (List Char)

/-- nimble_material_factory_base.cc:56-60, nimble_material.cc:51-57, 208-214: the names registered by
the constructor. -/
def validNames : List (List Char) :=
  ["bulk_modulus".toList, "shear_modulus".toList, "density".toList]

/-- nimble_material_factory_base.cc:62-98 `ParseMaterialParametersString`. -/
def parseMaterialParametersString (dmax : ℚ) (text : List Char) : Outcome Params :=
  match tokenize text with
  | name :: t :: ts =>
    match parsePairs validNames [] dmax (t :: ts) (fun _ => none) (fun _ => none) with
    | .ok (d, s) => .ok ⟨name, d, s⟩
    | .invalidArgument => .invalidArgument
    | .abort => .abort
    | .overread => .overread
  | _ => .abort

/-- nimble_material_factory_base.cc:100-132 `ParseMaterialParamsStringToMap`. -/
def parseMaterialParamsStringToMap (dmax : ℚ) (text : List Char) : Outcome DMap :=
  match tokenize text with
  | _ :: t :: ts =>
    match parsePairs validNames [] dmax (t :: ts) (fun _ => none) (fun _ => none) with
    | .ok (d, _) => .ok d
    | .invalidArgument => .invalidArgument
    | .abort => .abort
    | .overread => .overread
  | _ => .abort

/-- The two material models. -/
inductive Model where
  | neohookean
  | elastic
deriving DecidableEq

/-- nimble_material.h:134-143 `GetParameterValue`. -/
def getParameterValue (p : Params) (name : List Char) : Outcome ℚ :=
  match p.dbl name with
  | some v => .ok v
  | none => .invalidArgument

/-- nimble_material.cc:59-66, 216-224: the constructors (the same for both models): density, bulk
modulus and shear modulus are read in this order. -/
def construct (p : Params) : Outcome (Material ℚ) :=
  match getParameterValue p "density".toList with
  | .ok d => match getParameterValue p "bulk_modulus".toList with
    | .ok k => match getParameterValue p "shear_modulus".toList with
      | .ok g => .ok ⟨d, k, g⟩
      | _ => .invalidArgument
    | _ => .invalidArgument
  | _ => .invalidArgument

/-- nimble_material_factory.cc:56-69 `MaterialFactory::create`. -/
def create (p : Params) : Outcome (Model × Material ℚ) :=
  if p.name = "neohookean".toList then
    match construct p with
    | .ok m => .ok (.neohookean, m)
    | _ => .invalidArgument
  else if p.name = "elastic".toList then
    match construct p with
    | .ok m => .ok (.elastic, m)
    | _ => .invalidArgument
  else .invalidArgument

/-- nimble_material_factory_base.h:91-96 `parse_and_create`. -/
def parseAndCreate (dmax : ℚ) (text : List Char) : Outcome (Model × Material ℚ) :=
  match parseMaterialParametersString dmax text with
  | .ok p => create p
  | .invalidArgument => .invalidArgument
  | .abort => .abort
  | .overread => .overread

end NimbleSM.Constitutive
