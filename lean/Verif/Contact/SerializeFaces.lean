import Verif.Contact.Entity
import Verif.Mpi.Serialization

/-!
# Serialisation of contact faces: `SerializeContactFaces`, `UnserializeContactFaces`
(`src/nimble_contact_entity.h:598-704`)

Memory is a list of bytes (`Verif.Mpi.Serialization`); reads and writes outside it are the outcome `none`.
-/

namespace NimbleSM.Contact

open NimbleSM.Mpi

variable {K : Type} [Field K] [LinearOrder K]

/-- How the values of a C++ type are laid out in memory: `n` bytes, and every representable value is read back. -/
structure Codec (α : Type*) (n : ℕ) where
  rep : α → Prop
  enc : α → List UInt8
  dec : List UInt8 → α
  length_enc : ∀ a, (enc a).length = n
  dec_enc : ∀ a, rep a → dec (enc a) = a

/-- `memcpy(scan, &x, sizeof x); scan += sizeof x;`. -/
def put {α : Type*} {n : ℕ} (c : Codec α n) (x : α) (st : List UInt8 × ℕ) : Option (List UInt8 × ℕ) := putBytes (c.enc x) st

/-- `memcpy(&x, scan, sizeof x); scan += sizeof x;`. -/
def get {α : Type*} {n : ℕ} (c : Codec α n) (buf : List UInt8) (pos : ℕ) : Option (α × ℕ) :=
  (getBytes n buf pos).map fun p => (c.dec p.1, p.2)

/-- `std::vector<char>::resize`. -/
def resize (buf : List UInt8) (n : ℕ) : List UInt8 := buf.take n ++ List.replicate (n - buf.length) 0

/-- The body of the loop of `SerializeContactFaces` (nimble_contact_entity.h:607-642). -/
def serializeOne (dbl : Codec K 8) (int : Codec ℤ 4) (e : Entity K) (st : List UInt8 × ℕ) : Option (List UInt8 × ℕ) := do
  let st ← put dbl (e.coord1 0) st
  let st ← put dbl (e.coord1 1) st
  let st ← put dbl (e.coord1 2) st
  let st ← put dbl (e.coord2 0) st
  let st ← put dbl (e.coord2 1) st
  let st ← put dbl (e.coord2 2) st
  let st ← put dbl (e.coord3 0) st
  let st ← put dbl (e.coord3 1) st
  let st ← put dbl (e.coord3 2) st
  let st ← put dbl e.charLen st
  let st ← put int e.gid st
  let st ← put int e.node1 st
  let st ← put int e.node2 st
  let st ← put int (e.fict 0) st
  let st ← put int (e.fict 1) st
  let st ← put int (e.fict 2) st
  put int (e.fict 3) st

/-- `SerializeContactFaces` (nimble_contact_entity.h:598-643); `entity_size = 10 * sizeof(double) + 8 * sizeof(int)`. -/
def serializeFaces (dbl : Codec K 8) (int : Codec ℤ 4) (faces : List (Entity K)) (buffer : List UInt8) :
    Option (List UInt8) :=
  (faces.foldlM (fun st e => serializeOne dbl int e st) (resize buffer ((10 * 8 + 8 * 4) * faces.length), 0)).map Prod.fst

/-- The body of the loop of `UnserializeContactFaces` (nimble_contact_entity.h:664-700); `entity` is the local variable
declared before the loop. -/
def unserializeOne (dbl : Codec K 8) (int : Codec ℤ 4) (buf : List UInt8) (entity : Entity K) (pos : ℕ) :
    Option (Entity K × ℕ) :=
  (get dbl buf pos).bind fun x1 =>
  (get dbl buf x1.2).bind fun y1 =>
  (get dbl buf y1.2).bind fun z1 =>
  (get dbl buf z1.2).bind fun x2 =>
  (get dbl buf x2.2).bind fun y2 =>
  (get dbl buf y2.2).bind fun z2 =>
  (get dbl buf z2.2).bind fun x3 =>
  (get dbl buf x3.2).bind fun y3 =>
  (get dbl buf y3.2).bind fun z3 =>
  (get dbl buf z3.2).bind fun cl =>
  (get int buf cl.2).bind fun gid =>
  (get int buf gid.2).bind fun n1 =>
  (get int buf n1.2).bind fun n2 =>
  (get int buf n2.2).bind fun f1 =>
  (get int buf f1.2).bind fun f2 =>
  (get int buf f2.2).bind fun f3 =>
  (get int buf f3.2).bind fun f4 =>
  some (setBoundingBox { entity with
    coord1 := ![x1.1, y1.1, z1.1], coord2 := ![x2.1, y2.1, z2.1], coord3 := ![x3.1, y3.1, z3.1], charLen := cl.1, gid := gid.1,
    node1 := n1.1, node2 := n2.1, fict := ![f1.1, f2.1, f3.1, f4.1] }, f4.2)

/-- The loop: `num` entities are read one after the other into `contact_entities[i]`. -/
def unserializeLoop (dbl : Codec K 8) (int : Codec ℤ 4) (buf : List UInt8) : ℕ → Entity K → ℕ → Option (List (Entity K))
  | 0, _, _ => some []
  | num + 1, entity, pos => do
    let (entity, pos) ← unserializeOne dbl int buf entity pos
    let rest ← unserializeLoop dbl int buf num entity pos
    pure (entity :: rest)

/-- `UnserializeContactFaces` (nimble_contact_entity.h:645-702): the contents of `contact_entities[0..num-1]`. -/
def unserializeFaces (dbl : Codec K 8) (int : Codec ℤ 4) (num : ℕ) (buffer : List UInt8) : Option (List (Entity K)) :=
  unserializeLoop dbl int buffer num { (defaultEntity : Entity K) with type := .triangle, numNodes := 3 } 0

end NimbleSM.Contact
