import Mathlib.Data.List.Basic

/-!
# Model of `nimble::serialization` (`src/nimble.mpi.serialization.h`) and of `sendpacked`/`recvpacked`
(`src/nimble.mpi.mpicontext.h:155-185`)

Memory is a list of bytes; the `char*&` cursor is a position in the buffer. A read or write outside the buffer is the outcome
`none`.
-/

namespace NimbleSM.Mpi

/-- The types handled by `serial_t` (`src/nimble.mpi.serialization.h:57-83`). `mem n` is any type moved by `memcpy` of
`sizeof(T) = n` bytes: POD types and `std::array` of them (`serial<T,true>`, `:91-110`). Simplification: an object of such a type is
identified with its `n` bytes; pointers (`T*`, `array<T*>`) are not modelled. -/
inductive Ty
  | mem (n : Nat)
  | pair (a b : Ty)
  | array (a : Ty) (n : Nat)
  | vec (a : Ty)

/-- Objects of a type. -/
def Val : Ty → Type
  | .mem n => { l : List UInt8 // l.length = n }
  | .pair a b => Val a × Val b
  | .array a n => { l : List (Val a) // l.length = n }
  | .vec a => List (Val a)

/-- `meta<T>::mem` (`src/nimble.mpi.serialization.h:57-80`). `std::vector` is not POD. -/
def Ty.isMem : Ty → Bool
  | .mem _ => true
  | .pair a b => a.isMem && b.isMem
  | .array a _ => a.isMem
  | .vec _ => false

/-- `serial_t<T>::size` for types with `meta<T>::mem` (constant size, `src/nimble.mpi.serialization.h:94-98,174-178`). -/
def Ty.memSize : Ty → Nat
  | .mem n => n
  | .pair a b => a.memSize + b.memSize
  | .array a n => n * a.memSize
  | .vec _ => 0

/-- `serial_t<T>::size` (`src/nimble.mpi.serialization.h:94-98,153-157,174-178,195-201,220-224,281-287`). For a vector of
constant-size elements the code multiplies the size of the (possibly non-existent) first element by the length; the constant does
not depend on the element. -/
def serialSize : (t : Ty) → Val t → Nat
  | .mem n, _ => n
  | .pair a b, v => serialSize a v.1 + serialSize b v.2
  | .array a _, v => (v.1.map (serialSize a)).sum
  | .vec a, v => if a.isMem then a.memSize * v.length + 8 else (v.map (serialSize a)).sum + 8

/-- `memcpy(dest, src, n); dest += n`. -/
def putBytes (l : List UInt8) (st : List UInt8 × Nat) : Option (List UInt8 × Nat) :=
  if st.2 + l.length ≤ st.1.length then
    some (st.1.take st.2 ++ l ++ st.1.drop (st.2 + l.length), st.2 + l.length)
  else none

/-- `memcpy(&obj, src, n); src += n`. -/
def getBytes (n : Nat) (buf : List UInt8) (pos : Nat) : Option (List UInt8 × Nat) :=
  if pos + n ≤ buf.length then some ((buf.drop pos).take n, pos + n) else none

/-- The 8 bytes of a `size_t` (little endian; the byte order is irrelevant for what is proved). -/
def encodeSize (n : Nat) : List UInt8 := (List.range 8).map fun i => UInt8.ofNat (n / 256 ^ i % 256)

/-- The `size_t` stored in 8 bytes. -/
def decodeSize (l : List UInt8) : Nat := l.foldr (fun b acc => b.toNat + 256 * acc) 0

/-- `serial_t<T>::pack(src, dest)` (`src/nimble.mpi.serialization.h:99-104,158-163,179-184,202-207,225-230,288-292`). -/
def pack' : (t : Ty) → Val t → List UInt8 × Nat → Option (List UInt8 × Nat)
  | .mem _, v, st => putBytes v.1 st
  | .pair a b, v, st => (pack' a v.1 st).bind (pack' b v.2)
  | .array a _, v, st => v.1.foldlM (fun s x => pack' a x s) st
  | .vec a, v, st => (putBytes (encodeSize v.length) st).bind fun s => v.foldlM (fun s x => pack' a x s) s

/-- Repeat `unpack` for `n` elements, in order (`for (T& elem : dest) serial<T>::unpack(elem, src)`). -/
def unpackMany {β : Type} (f : Nat → Option (β × Nat)) : Nat → Nat → Option (List β × Nat)
  | 0, pos => some ([], pos)
  | n + 1, pos => (f pos).bind fun p => (unpackMany f n p.2).map fun q => (p.1 :: q.1, q.2)

theorem unpackMany_length {β : Type} (f : Nat → Option (β × Nat)) (n pos : Nat) (r) (h : unpackMany f n pos = some r) :
    r.1.length = n := by
  induction n generalizing pos r with
  | zero => simp only [unpackMany, Option.some.injEq] at h; subst h; rfl
  | succ n ih =>
    rw [unpackMany, Option.bind_eq_some_iff] at h
    obtain ⟨p, _, h⟩ := h
    rw [Option.map_eq_some_iff] at h
    obtain ⟨q, hq, rfl⟩ := h
    simp [ih _ _ hq]

/-- `serial_t<T>::unpack(dest, src)` (`src/nimble.mpi.serialization.h:105-109,164-169,185-190,208-215,231-238,293-297`). -/
def unpack' : (t : Ty) → List UInt8 → Nat → Option (Val t × Nat)
  | .mem n, buf, pos => (getBytes n buf pos).bind fun p => if h : p.1.length = n then some (⟨p.1, h⟩, p.2) else none
  | .pair a b, buf, pos => (unpack' a buf pos).bind fun p => (unpack' b buf p.2).map fun q => ((p.1, q.1), q.2)
  | .array a n, buf, pos =>
    match h : unpackMany (unpack' a buf) n pos with
    | none => none
    | some r => some (⟨r.1, unpackMany_length _ _ _ _ h⟩, r.2)
  | .vec a, buf, pos => (getBytes 8 buf pos).bind fun p =>
      (unpackMany (unpack' a buf) (decodeSize p.1) p.2).map fun r => (r.1, r.2)

/-- `serialization::pack(object, vect)` (`src/nimble.mpi.serialization.h:299-309`) for a vector of elements of `w = sizeof(dataT)`
bytes: resize to `size / w + 1` elements (the bytes of the resized vector are arbitrary: `fill`), pack from the start. Returns the
size and the bytes of the vector. -/
def packVector (t : Ty) (v : Val t) (w : Nat) (fill : Nat → List UInt8) : Option (Nat × List UInt8) :=
  (pack' t v (fill (w * (serialSize t v / w + 1)), 0)).map fun s => (serialSize t v, s.1)

/-- `serialization::pack_avoid_resize(object, vect)` (`src/nimble.mpi.serialization.h:311-321`): `vect` has `count` elements of `w`
bytes; the guard compares the size in bytes with the number of elements. -/
def packAvoidResize (t : Ty) (v : Val t) (w : Nat) (vect : List UInt8) (resize : List UInt8 → Nat → List UInt8) :
    Option (Nat × List UInt8) :=
  let size := serialSize t v
  let vect' := if size > vect.length / w then resize vect (w * (size / w + 1)) else vect
  (pack' t v (vect', 0)).map fun s => (size, s.1)

/-- `std::vector::resize` at the byte level: truncate or extend with zero bytes. -/
def resizeBytes (l : List UInt8) (n : Nat) : List UInt8 := (l ++ List.replicate (n - l.length) 0).take n

/-- `sendpacked(source, rank, tag, buffer)` with an `int` buffer (`src/nimble.mpi.mpicontext.h:163-169`): pack, then send the whole
buffer. Returns the message. -/
def sendpackedBuffer (t : Ty) (v : Val t) (buffer : List UInt8) : Option (List UInt8) :=
  (packAvoidResize t v 4 buffer resizeBytes).map Prod.snd

/-- `recvpacked(dest, rank, tag, buffer)` (`src/nimble.mpi.mpicontext.h:155-162,170-176`): the receive buffer is enlarged if the
message is longer, the message overwrites its beginning, then the object is unpacked. -/
def recvpacked (t : Ty) (message buffer : List UInt8) : Option (Val t) :=
  let buf := if message.length / 4 > buffer.length / 4 then resizeBytes buffer message.length else buffer
  (unpack' t (message ++ buf.drop message.length) 0).map Prod.fst

/-- `sendpacked(source, rank, tag)` (`src/nimble.mpi.mpicontext.h:178-185`): the value returned by `pack_avoid_resize` (bytes) is
passed to `MPI_Send` as a number of `int`s, taken from the static buffer. `none` when `MPI_Send` is told to read beyond the
buffer. -/
def sendpackedStatic (t : Ty) (v : Val t) (buffer : List UInt8) : Option (List UInt8) :=
  (packAvoidResize t v 4 buffer resizeBytes).bind fun p =>
    if 4 * p.1 ≤ p.2.length then some (p.2.take (4 * p.1)) else none

end NimbleSM.Mpi
