import Verif.Contact.SerializeFaces
import Verif.Mpi.SerializationProps
import Mathlib.Algebra.Field.Rat
import Mathlib.Algebra.Order.Ring.Rat
import Mathlib.Data.List.GetD
import Mathlib.Tactic.FinCases

/-! # C13: contact faces survive the serialisation round trip -/

namespace NimbleSM.Contact

open NimbleSM.Mpi

variable {K : Type} [Field K] [LinearOrder K]

/-- What the receiver should get: coordinates, characteristic length, global id and node ids of the sender, a triangle without
forces, box and centroid recomputed, no local id. -/
def receivedFace (e : Entity K) : Entity K :=
  setBoundingBox
    { (defaultEntity : Entity K) with
      type := .triangle, numNodes := 3, coord1 := e.coord1, coord2 := e.coord2, coord3 := e.coord3, charLen := e.charLen,
      gid := e.gid, node1 := e.node1, node2 := e.node2, fict := e.fict }

/-- All values of the face can be represented in memory. -/
structure Representable (dbl : Codec K 8) (int : Codec ℤ 4) (e : Entity K) : Prop where
  coord1 : ∀ d, dbl.rep (e.coord1 d)
  coord2 : ∀ d, dbl.rep (e.coord2 d)
  coord3 : ∀ d, dbl.rep (e.coord3 d)
  charLen : dbl.rep e.charLen
  gid : int.rep e.gid
  node1 : int.rep e.node1
  node2 : int.rep e.node2
  fict : ∀ i, int.rep (e.fict i)

/-- The bytes of one face. -/
def faceBytes (dbl : Codec K 8) (int : Codec ℤ 4) (e : Entity K) : List UInt8 :=
  dbl.enc (e.coord1 0) ++ (dbl.enc (e.coord1 1) ++ (dbl.enc (e.coord1 2) ++ (dbl.enc (e.coord2 0) ++ (dbl.enc (e.coord2 1) ++
  (dbl.enc (e.coord2 2) ++ (dbl.enc (e.coord3 0) ++ (dbl.enc (e.coord3 1) ++ (dbl.enc (e.coord3 2) ++ (dbl.enc e.charLen ++
  (int.enc e.gid ++ (int.enc e.node1 ++ (int.enc e.node2 ++ (int.enc (e.fict 0) ++ (int.enc (e.fict 1) ++ (int.enc (e.fict 2) ++
  int.enc (e.fict 3))))))))))))))))

theorem faceBytes_length (dbl : Codec K 8) (int : Codec ℤ 4) (e : Entity K) : (faceBytes dbl int e).length = 108 := by
  simp [faceBytes, dbl.length_enc, int.length_enc]

theorem serializeOne_eq (dbl : Codec K 8) (int : Codec ℤ 4) (e : Entity K) (st : List UInt8 × ℕ) :
    serializeOne dbl int e st = putBytes (faceBytes dbl int e) st := by
  unfold serializeOne faceBytes put
  simp only [putBytes_append]
  rfl

theorem serialize_fold (dbl : Codec K 8) (int : Codec ℤ 4) (faces : List (Entity K)) (st : List UInt8 × ℕ)
    (h : st.2 ≤ st.1.length) :
    faces.foldlM (fun st e => serializeOne dbl int e st) st = putBytes (faces.flatMap (faceBytes dbl int)) st := by
  induction faces generalizing st with
  | nil => rw [List.flatMap_nil, putBytes_nil st h]; rfl
  | cons e l ih =>
    rw [List.foldlM_cons, List.flatMap_cons, putBytes_append, serializeOne_eq]
    cases hp : putBytes (faceBytes dbl int e) st with
    | none => rfl
    | some st' => exact ih st' (putBytes_bound hp)

theorem flat_length (dbl : Codec K 8) (int : Codec ℤ 4) (faces : List (Entity K)) :
    (faces.flatMap (faceBytes dbl int)).length = 108 * faces.length := by
  induction faces with
  | nil => rfl
  | cons e l ih => rw [List.flatMap_cons, List.length_append, ih, faceBytes_length, List.length_cons]; ring

theorem resize_length (buf : List UInt8) (n : ℕ) : (resize buf n).length = n := by
  simp [resize]; omega

/-- **C13 (bounds).**  Serialising never writes outside the buffer: it succeeds for every list of faces and every previous
contents of the buffer; the buffer has 112 bytes per face and starts with the bytes of the faces. -/
theorem serialize_in_bounds (dbl : Codec K 8) (int : Codec ℤ 4) (faces : List (Entity K)) (buffer : List UInt8) :
    ∃ out, serializeFaces dbl int faces buffer = some out ∧ out.length = 112 * faces.length ∧
      faces.flatMap (faceBytes dbl int) <+: out := by
  unfold serializeFaces
  rw [serialize_fold _ _ _ _ (Nat.zero_le _)]
  have hl := flat_length dbl int faces
  have hr := resize_length buffer ((10 * 8 + 8 * 4) * faces.length)
  unfold putBytes
  rw [if_pos (by simp only [hl, hr]; omega)]
  refine ⟨_, rfl, ?_, ?_⟩
  · simp only [List.take_zero, List.nil_append, List.length_append, List.length_drop, hl, hr]; omega
  · simp

theorem get_eq {α : Type} {n : ℕ} (c : Codec α n) (x : α) (hx : c.rep x) (buf rest : List UInt8) (pos : ℕ)
    (h : buf.drop pos = c.enc x ++ rest) (hp : pos ≤ buf.length) :
    get c buf pos = some (x, pos + n) ∧ buf.drop (pos + n) = rest ∧ pos + n ≤ buf.length := by
  have hl := c.length_enc x
  have hle : pos + n ≤ buf.length := by
    have := congrArg List.length h
    rw [List.length_drop, List.length_append, hl] at this
    omega
  refine ⟨?_, ?_, hle⟩
  · unfold get
    have := getBytes_eq (c.enc x) buf pos ⟨rest, h.symm⟩ hp
    rw [hl] at this
    rw [this, Option.map_some, c.dec_enc x hx]
  · rw [← List.drop_drop, h]
    exact List.drop_left' hl

theorem unserializeOne_eq (dbl : Codec K 8) (int : Codec ℤ 4) (e : Entity K) (hr : Representable dbl int e)
    (buf rest : List UInt8) (pos : ℕ) (h : buf.drop pos = faceBytes dbl int e ++ rest) (hp : pos ≤ buf.length) (entity : Entity K) :
    unserializeOne dbl int buf entity pos =
      some (setBoundingBox { entity with
        coord1 := e.coord1, coord2 := e.coord2, coord3 := e.coord3, charLen := e.charLen, gid := e.gid, node1 := e.node1, node2 := e.node2, fict := e.fict }, pos + 108) ∧
    buf.drop (pos + 108) = rest ∧ pos + 108 ≤ buf.length := by
  unfold faceBytes at h
  simp only [List.append_assoc] at h
  obtain ⟨g1, h, hp⟩ := get_eq dbl _ (hr.coord1 0) buf _ pos h hp
  obtain ⟨g2, h, hp⟩ := get_eq dbl _ (hr.coord1 1) buf _ _ h hp
  obtain ⟨g3, h, hp⟩ := get_eq dbl _ (hr.coord1 2) buf _ _ h hp
  obtain ⟨g4, h, hp⟩ := get_eq dbl _ (hr.coord2 0) buf _ _ h hp
  obtain ⟨g5, h, hp⟩ := get_eq dbl _ (hr.coord2 1) buf _ _ h hp
  obtain ⟨g6, h, hp⟩ := get_eq dbl _ (hr.coord2 2) buf _ _ h hp
  obtain ⟨g7, h, hp⟩ := get_eq dbl _ (hr.coord3 0) buf _ _ h hp
  obtain ⟨g8, h, hp⟩ := get_eq dbl _ (hr.coord3 1) buf _ _ h hp
  obtain ⟨g9, h, hp⟩ := get_eq dbl _ (hr.coord3 2) buf _ _ h hp
  obtain ⟨g10, h, hp⟩ := get_eq dbl _ hr.charLen buf _ _ h hp
  obtain ⟨g11, h, hp⟩ := get_eq int _ hr.gid buf _ _ h hp
  obtain ⟨g12, h, hp⟩ := get_eq int _ hr.node1 buf _ _ h hp
  obtain ⟨g13, h, hp⟩ := get_eq int _ hr.node2 buf _ _ h hp
  obtain ⟨g14, h, hp⟩ := get_eq int _ (hr.fict 0) buf _ _ h hp
  obtain ⟨g15, h, hp⟩ := get_eq int _ (hr.fict 1) buf _ _ h hp
  obtain ⟨g16, h, hp⟩ := get_eq int _ (hr.fict 2) buf _ _ h hp
  obtain ⟨g17, h, hp⟩ := get_eq int _ (hr.fict 3) buf _ _ h hp
  refine ⟨?_, h, hp⟩
  have v3 : ∀ a : Fin 3 → K, ![a 0, a 1, a 2] = a := by
    intro a; funext i; fin_cases i <;> rfl
  have v4 : ∀ a : Fin 4 → ℤ, ![a 0, a 1, a 2, a 3] = a := by
    intro a; funext i; fin_cases i <;> rfl
  unfold unserializeOne
  rw [g1, Option.bind_some]
  rw [g2, Option.bind_some]
  rw [g3, Option.bind_some]
  rw [g4, Option.bind_some]
  rw [g5, Option.bind_some]
  rw [g6, Option.bind_some]
  rw [g7, Option.bind_some]
  rw [g8, Option.bind_some]
  rw [g9, Option.bind_some]
  rw [g10, Option.bind_some]
  rw [g11, Option.bind_some]
  rw [g12, Option.bind_some]
  rw [g13, Option.bind_some]
  rw [g14, Option.bind_some]
  rw [g15, Option.bind_some]
  rw [g16, Option.bind_some]
  rw [g17, Option.bind_some]
  dsimp only
  rw [v3, v3, v3, v4]

theorem unserializeLoop_eq (dbl : Codec K 8) (int : Codec ℤ 4) (faces : List (Entity K))
    (hr : ∀ e ∈ faces, Representable dbl int e) (buf rest : List UInt8) (pos : ℕ)
    (h : buf.drop pos = faces.flatMap (faceBytes dbl int) ++ rest) (hp : pos ≤ buf.length) (entity : Entity K)
    (hent : entity.type = .triangle ∧ entity.numNodes = 3 ∧ entity.force1 = 0 ∧ entity.force2 = 0 ∧ entity.force3 = 0 ∧
      entity.localId = -1 ∧ entity.status = false) :
    unserializeLoop dbl int buf faces.length entity pos = some (faces.map receivedFace) := by
  induction faces generalizing pos entity with
  | nil => rfl
  | cons e l ih =>
    rw [List.flatMap_cons, List.append_assoc] at h
    obtain ⟨h1, h2, h3⟩ := unserializeOne_eq dbl int e (hr e List.mem_cons_self) buf _ pos h hp entity
    have := ih (fun x hx => hr x (List.mem_cons_of_mem _ hx)) (pos + 108) h2 h3
      (setBoundingBox { entity with
        coord1 := e.coord1, coord2 := e.coord2, coord3 := e.coord3, charLen := e.charLen, gid := e.gid, node1 := e.node1, node2 := e.node2, fict := e.fict }) hent
    rw [List.length_cons, unserializeLoop, h1]
    simp only [Option.bind_eq_bind, Option.bind_some, this, Option.pure_def, List.map_cons, Option.some.injEq, List.cons.injEq,
      and_true]
    obtain ⟨t, nn, f1, f2, f3, li, st⟩ := hent
    unfold receivedFace setBoundingBox
    simp only [t, nn, f1, f2, f3, li, st, defaultEntity]

/-- **C13.**  For every list of contact faces with representable values, whatever the buffer contained before: serialising
and then unserialising as many faces succeeds (no access outside the buffer) and returns, in order, for each face a triangle
with the same coordinates, characteristic length, global id and node ids, and the bounding box recomputed from them. -/
theorem serialize_roundtrip (dbl : Codec K 8) (int : Codec ℤ 4) (faces : List (Entity K))
    (hr : ∀ e ∈ faces, Representable dbl int e) (buffer : List UInt8) :
    (serializeFaces dbl int faces buffer).bind (unserializeFaces dbl int faces.length) = some (faces.map receivedFace) := by
  obtain ⟨out, h1, h2, rest, h3⟩ := serialize_in_bounds dbl int faces buffer
  rw [h1, Option.bind_some]
  exact unserializeLoop_eq dbl int faces hr out rest 0 (by rw [List.drop_zero, h3]) (Nat.zero_le _) _
    ⟨rfl, rfl, rfl, rfl, rfl, rfl, rfl⟩

/-- **C13.**  What is preserved, and what the box of the received face is. -/
theorem received_fields (e : Entity K) :
    (receivedFace e).type = .triangle ∧ (receivedFace e).coord1 = e.coord1 ∧ (receivedFace e).coord2 = e.coord2 ∧
    (receivedFace e).coord3 = e.coord3 ∧ (receivedFace e).charLen = e.charLen ∧ (receivedFace e).gid = e.gid ∧
    (receivedFace e).node1 = e.node1 ∧ (receivedFace e).node2 = e.node2 ∧ (receivedFace e).fict = e.fict ∧
    (e.type = .triangle → (receivedFace e).boxMin = (setBoundingBox e).boxMin ∧
      (receivedFace e).boxMax = (setBoundingBox e).boxMax) := by
  refine ⟨rfl, rfl, rfl, rfl, rfl, rfl, rfl, rfl, rfl, ?_⟩
  intro h
  unfold receivedFace setBoundingBox
  simp [h]

/-- A face that carries forces, a local id or the contact flag loses them. -/
theorem received_loses (e : Entity K) : (receivedFace e).force1 = 0 ∧ (receivedFace e).force2 = 0 ∧ (receivedFace e).force3 = 0 ∧
    (receivedFace e).localId = -1 ∧ (receivedFace e).status = false := ⟨rfl, rfl, rfl, rfl, rfl⟩

/-! ## Layouts for which the hypotheses hold -/

/-- Two's complement little-endian `int`. -/
def intCodec : Codec ℤ 4 where
  rep := fun x => -2 ^ 31 ≤ x ∧ x < 2 ^ 31
  enc := fun x => (List.range 4).map fun i => UInt8.ofNat ((x % 2 ^ 32).toNat / 256 ^ i % 256)
  dec := fun l =>
    let u : ℕ := (l.getD 0 0).toNat + 256 * (l.getD 1 0).toNat + 65536 * (l.getD 2 0).toNat + 16777216 * (l.getD 3 0).toNat
    if u < 2 ^ 31 then (u : ℤ) else (u : ℤ) - 2 ^ 32
  length_enc := by intro a; rfl
  dec_enc := by
    intro x hx
    have hb : ∀ n : ℕ, (UInt8.ofNat (n % 256)).toNat = n % 256 := by
      intro n
      exact UInt8.toNat_ofNat_of_lt' (Nat.mod_lt _ (by norm_num))
    simp only [List.range, List.range.loop, List.map_cons, List.map_nil, List.getD_cons_zero, List.getD_cons_succ, hb, pow_zero,
      Nat.div_one, pow_one]
    have e2 : 256 ^ 2 = 65536 := rfl
    have e3 : 256 ^ 3 = 16777216 := rfl
    rw [e2, e3]
    have key : (x % 2 ^ 32).toNat % 256 + 256 * ((x % 2 ^ 32).toNat / 256 % 256) + 65536 * ((x % 2 ^ 32).toNat / 65536 % 256)
        + 16777216 * ((x % 2 ^ 32).toNat / 16777216 % 256) = (x % 2 ^ 32).toNat := by
      have : (x % 2 ^ 32).toNat < 4294967296 := by omega
      omega
    rw [key]
    split <;> omega

/-- A toy layout of some rationals in 8 bytes: the integers `0..255`. -/
def byteCodec : Codec ℚ 8 where
  rep := fun x => ∃ k : ℕ, k < 256 ∧ x = k
  enc := fun x => UInt8.ofNat x.num.toNat :: List.replicate 7 0
  dec := fun l => ((l.getD 0 0).toNat : ℚ)
  length_enc := by intro a; simp
  dec_enc := by
    rintro x ⟨k, hk, rfl⟩
    simp [UInt8.toNat_ofNat_of_lt' (show k < UInt8.size from hk)]

/-- Two faces whose values are representable; their round trip through a dirty buffer. -/
example : ∃ faces : List (Entity ℚ), faces.length = 2 ∧ (∀ e ∈ faces, Representable byteCodec intCodec e) ∧
    (serializeFaces byteCodec intCodec faces [1, 2, 3]).bind (unserializeFaces byteCodec intCodec 2) = some (faces.map receivedFace) := by
  let e : Entity ℚ := mkEntity .triangle 992 5 (fun i => (i : ℚ)) 7 0 1 ![0, 1, 2, 3]
  have hrep : Representable byteCodec intCodec e := by
    have hk : ∀ n : ℕ, n < 256 → byteCodec.rep (n : ℚ) := fun n hn => ⟨n, hn, rfl⟩
    refine ⟨?_, ?_, ?_, ?_, ?_, ?_, ?_, ?_⟩
    · intro d; have := d.isLt; exact hk d (by omega)
    · intro d; have := d.isLt; exact hk (3 + d) (by omega)
    · intro d; have := d.isLt; exact hk (6 + d) (by omega)
    · exact hk 7 (by norm_num)
    · show (-2 ^ 31 ≤ (992 : ℤ) ∧ (992 : ℤ) < 2 ^ 31); norm_num
    · show (-2 ^ 31 ≤ (0 : ℤ) ∧ (0 : ℤ) < 2 ^ 31); norm_num
    · show (-2 ^ 31 ≤ (1 : ℤ) ∧ (1 : ℤ) < 2 ^ 31); norm_num
    · intro i
      show (-2 ^ 31 ≤ (![0, 1, 2, 3] : Fin 4 → ℤ) i ∧ (![0, 1, 2, 3] : Fin 4 → ℤ) i < 2 ^ 31)
      fin_cases i <;> simp
  have hall : ∀ x ∈ [e, e], Representable byteCodec intCodec x := by
    intro x hx
    simp only [List.mem_cons, List.not_mem_nil, or_false, or_self] at hx
    rw [hx]; exact hrep
  exact ⟨[e, e], rfl, hall, serialize_roundtrip byteCodec intCodec [e, e] hall [1, 2, 3]⟩

end NimbleSM.Contact
