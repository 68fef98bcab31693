import Verif.Mpi.Serialization
import Mathlib.Algebra.BigOperators.Group.List.Basic
import Mathlib.Algebra.Ring.Nat
import Mathlib.Algebra.Group.Action.Opposite

/-!
# Properties C05, C08: serialization
-/

namespace NimbleSM.Mpi

/-- Every `std::vector` in the object has a length representable in `size_t` (true of every C++ object). -/
def Fits : (t : Ty) → Val t → Prop
  | .mem _, _ => True
  | .pair a b, v => Fits a v.1 ∧ Fits b v.2
  | .array a _, v => ∀ x ∈ v.1, Fits a x
  | .vec a, v => List.length v < 2 ^ 64 ∧ ∀ x ∈ @id (List (Val a)) v, Fits a x

/-- Helper: the byte image. -/
def enc : (t : Ty) → Val t → List UInt8
  | .mem _, v => v.1
  | .pair a b, v => enc a v.1 ++ enc b v.2
  | .array a _, v => v.1.flatMap (enc a)
  | .vec a, v => encodeSize v.length ++ v.flatMap (enc a)

theorem serialSize_mem (t : Ty) (h : t.isMem = true) (v : Val t) : serialSize t v = t.memSize := by
  induction t with
  | mem n => rfl
  | pair a b iha ihb =>
    simp only [Ty.isMem, Bool.and_eq_true] at h
    rw [serialSize, iha h.1, ihb h.2]; rfl
  | array a n ih =>
    rw [serialSize, List.map_congr_left (g := fun _ => a.memSize) (fun x _ => ih h x)]
    simp only [List.map_const', List.sum_replicate, v.2, Ty.memSize]
    rfl
  | vec a _ => simp [Ty.isMem] at h

theorem length_encodeSize (n : Nat) : (encodeSize n).length = 8 := by simp [encodeSize]

theorem length_enc (t : Ty) (v : Val t) : (enc t v).length = serialSize t v := by
  induction t with
  | mem n => exact v.2
  | pair a b iha ihb => rw [enc, List.length_append, iha, ihb]; rfl
  | array a n ih =>
    rw [enc, List.length_flatMap, serialSize, List.map_congr_left (fun x _ => ih x)]
  | vec a ih =>
    have key : ∀ l : List (Val a), (encodeSize l.length ++ l.flatMap (enc a)).length =
        if a.isMem then a.memSize * l.length + 8 else (l.map (serialSize a)).sum + 8 := by
      intro l
      rw [List.length_append, length_encodeSize, List.length_flatMap, List.map_congr_left (fun x _ => ih x)]
      split
      · rename_i hm
        rw [List.map_congr_left (g := fun _ => a.memSize) (fun x _ => serialSize_mem a hm x)]
        simp only [List.map_const', List.sum_replicate, smul_eq_mul]
        rw [Nat.mul_comm]; omega
      · omega
    exact key v

theorem putBytes_nil (st : List UInt8 × Nat) (h : st.2 ≤ st.1.length) : putBytes [] st = some st := by
  unfold putBytes
  rw [if_pos (by simpa using h)]
  simp

theorem putBytes_bound {l : List UInt8} {st st' : List UInt8 × Nat} (h : putBytes l st = some st') :
    st'.2 ≤ st'.1.length := by
  unfold putBytes at h
  split at h
  · rename_i hb
    simp only [Option.some.injEq] at h
    subst h
    simp; omega
  · simp at h

theorem putBytes_append (l₁ l₂ : List UInt8) (st : List UInt8 × Nat) :
    putBytes (l₁ ++ l₂) st = (putBytes l₁ st).bind (putBytes l₂) := by
  unfold putBytes
  by_cases h : st.2 + l₁.length ≤ st.1.length
  · rw [if_pos h, Option.bind_some]
    by_cases h2 : st.2 + (l₁ ++ l₂).length ≤ st.1.length
    · have h3 : st.2 + l₁.length + l₂.length ≤ (st.1.take st.2 ++ l₁ ++ st.1.drop (st.2 + l₁.length)).length := by
        simp only [List.length_append, List.length_take, List.length_drop] at h2 ⊢; omega
      rw [if_pos h2]
      dsimp only
      rw [if_pos h3]
      have hA : (st.1.take st.2 ++ l₁).length = st.2 + l₁.length := by
        simp only [List.length_append, List.length_take]; omega
      congr 2
      · have e1 : List.take (st.2 + l₁.length) (st.1.take st.2 ++ l₁ ++ st.1.drop (st.2 + l₁.length)) = st.1.take st.2 ++ l₁ := by
          rw [← hA, List.take_left]
        have e2 : List.drop (st.2 + l₁.length + l₂.length) (st.1.take st.2 ++ l₁ ++ st.1.drop (st.2 + l₁.length)) =
            st.1.drop (st.2 + (l₁ ++ l₂).length) := by
          rw [← List.drop_drop, ← hA, List.drop_left, hA, List.drop_drop, List.length_append]
          congr 1; omega
        rw [e1, e2]; simp
      · simp; omega
    · rw [if_neg h2]
      dsimp only
      rw [if_neg]
      simp only [List.length_append, List.length_take, List.length_drop] at h2 ⊢; omega
  · rw [if_neg h, if_neg (by simp only [List.length_append]; omega)]; rfl

theorem foldlM_put {β : Type} (f : β → List UInt8) (g : List UInt8 × Nat → β → Option (List UInt8 × Nat))
    (l : List β) (hg : ∀ x ∈ l, ∀ st : List UInt8 × Nat, st.2 ≤ st.1.length → g st x = putBytes (f x) st)
    (st : List UInt8 × Nat) (h : st.2 ≤ st.1.length) :
    l.foldlM g st = putBytes (l.flatMap f) st := by
  induction l generalizing st with
  | nil => rw [List.flatMap_nil, putBytes_nil _ h]; rfl
  | cons a l ih =>
    rw [List.foldlM_cons, List.flatMap_cons, putBytes_append, hg a (by simp) st h]
    cases hp : putBytes (f a) st with
    | none => rfl
    | some st' =>
      rw [Option.bind_eq_bind, Option.bind_some, Option.bind_some]
      exact ih (fun x hx => hg x (by simp [hx])) st' (putBytes_bound hp)

theorem pack'_eq (t : Ty) (v : Val t) (st : List UInt8 × Nat) (h : st.2 ≤ st.1.length) :
    pack' t v st = putBytes (enc t v) st := by
  induction t generalizing st with
  | mem n => rfl
  | pair a b iha ihb =>
    rw [pack', enc, putBytes_append, iha v.1 st h]
    cases hp : putBytes (enc a v.1) st with
    | none => rfl
    | some st' => rw [Option.bind_some, Option.bind_some, ihb v.2 st' (putBytes_bound hp)]
  | array a n ih =>
    rw [pack', enc]
    exact foldlM_put (enc a) _ v.1 (fun x _ st h => ih x st h) st h
  | vec a ih =>
    rw [pack', enc, putBytes_append]
    cases hp : putBytes (encodeSize (List.length v)) st with
    | none => rfl
    | some st' =>
      rw [Option.bind_some, Option.bind_some]
      exact foldlM_put (enc a) _ v (fun x _ st h => ih x st h) st' (putBytes_bound hp)

theorem decode_encodeSize (n : Nat) (h : n < 2 ^ 64) : decodeSize (encodeSize n) = n := by
  simp only [decodeSize, encodeSize, List.range_succ_eq_map, List.range_zero, List.map_cons, List.map_nil, List.foldr_cons,
    List.foldr_nil, UInt8.toNat_ofNat', Nat.succ_eq_add_one, Nat.zero_add, Nat.reduceAdd, Nat.reducePow]
  omega

theorem getBytes_eq (l : List UInt8) (buf : List UInt8) (pos : Nat) (h : l <+: buf.drop pos) (hp : pos ≤ buf.length) :
    getBytes l.length buf pos = some (l, pos + l.length) := by
  unfold getBytes
  have := h.length_le
  rw [List.length_drop] at this
  rw [if_pos (by omega), ← List.prefix_iff_eq_take.1 h]

theorem prefix_split {l₁ l₂ buf : List UInt8} {pos : Nat} (h : l₁ ++ l₂ <+: buf.drop pos) :
    l₁ <+: buf.drop pos ∧ l₂ <+: buf.drop (pos + l₁.length) := by
  obtain ⟨r, hr⟩ := h
  refine ⟨⟨l₂ ++ r, by rw [← hr]; simp⟩, ⟨r, ?_⟩⟩
  rw [← List.drop_drop, ← hr, List.append_assoc, List.drop_left]

theorem unpackMany_eq {β : Type} (f : β → List UInt8) (buf : List UInt8) (g : Nat → Option (β × Nat)) (l : List β)
    (hg : ∀ x ∈ l, ∀ pos ≤ buf.length, f x <+: buf.drop pos → g pos = some (x, pos + (f x).length))
    (pos : Nat) (hp : pos ≤ buf.length) (h : l.flatMap f <+: buf.drop pos) :
    unpackMany g l.length pos = some (l, pos + (l.flatMap f).length) := by
  induction l generalizing pos with
  | nil => simp [unpackMany]
  | cons a l ih =>
    rw [List.flatMap_cons] at h
    obtain ⟨h1, h2⟩ := prefix_split h
    have hlen := h1.length_le
    rw [List.length_drop] at hlen
    rw [List.length_cons, unpackMany, hg a (by simp) pos hp h1, Option.bind_some,
      ih (fun x hx => hg x (by simp [hx])) _ (by omega) h2]
    simp [Nat.add_assoc]

theorem unpack'_eq (t : Ty) (v : Val t) (hf : Fits t v) (buf : List UInt8) (pos : Nat) (hp : pos ≤ buf.length)
    (h : enc t v <+: buf.drop pos) : unpack' t buf pos = some (v, pos + (enc t v).length) := by
  induction t generalizing pos with
  | mem n =>
    have hl : v.1.length = n := v.2
    have := getBytes_eq v.1 buf pos h hp
    rw [hl] at this
    rw [unpack', this, Option.bind_some, dif_pos hl, enc, hl]
    rfl
  | pair a b iha ihb =>
    obtain ⟨h1, h2⟩ := prefix_split h
    have hlen := h1.length_le
    rw [List.length_drop] at hlen
    rw [unpack', iha v.1 hf.1 pos hp h1, Option.bind_some, ihb v.2 hf.2 _ (by omega) h2, enc, List.length_append,
      Option.map_some, Nat.add_assoc]
    rfl
  | array a n ih =>
    have hm := unpackMany_eq (enc a) buf (unpack' a buf) v.1 (fun x hx pos hp h => ih x (hf x hx) pos hp h) pos hp h
    have hv : v.1.length = n := v.2
    rw [hv] at hm
    rw [unpack']
    split
    · rename_i hnone; rw [hm] at hnone; simp at hnone
    · rename_i r hr
      rw [hm] at hr
      have := Option.some.inj hr
      simp only [← this]
      rfl
  | vec a ih =>
    rw [enc] at h
    obtain ⟨h1, h2⟩ := prefix_split h
    have hlen := h1.length_le
    rw [List.length_drop] at hlen
    have hg := getBytes_eq _ buf pos h1 hp
    rw [length_encodeSize] at hg
    have hm := unpackMany_eq (enc a) buf (unpack' a buf) v (fun x hx pos hp h => ih x (hf.2 x hx) pos hp h) _
      (by rw [length_encodeSize] at hlen ⊢; omega) h2
    rw [unpack', hg, Option.bind_some, decode_encodeSize _ hf.1]
    rw [length_encodeSize] at hm
    rw [hm, enc, List.length_append, length_encodeSize]
    simp [Nat.add_assoc]

/-! ## C05 -/

/-- C05, one object inside a buffer: packing at position `pos` succeeds iff `size(object)` bytes are left, it then changes exactly the
bytes `pos .. pos+size` and advances the cursor by `size`; unpacking there gives back the object and the same cursor, whatever the
buffer contains before and after. -/
theorem serialization_round_trip (t : Ty) (v : Val t) (hf : Fits t v) (buf : List UInt8) (pos : Nat) (hp : pos ≤ buf.length) :
    ((pack' t v (buf, pos)).isSome ↔ pos + serialSize t v ≤ buf.length) ∧
    ∀ buf' pos', pack' t v (buf, pos) = some (buf', pos') →
      pos' = pos + serialSize t v ∧ buf'.length = buf.length ∧ buf'.take pos = buf.take pos ∧ buf'.drop pos' = buf.drop pos' ∧
      unpack' t buf' pos = some (v, pos') := by
  rw [pack'_eq t v _ hp]
  unfold putBytes
  dsimp only
  rw [length_enc]
  constructor
  · split
    · simpa
    · rename_i h; simpa using h
  · intro buf' pos' h
    split at h
    · rename_i hb
      simp only [Option.some.injEq, Prod.mk.injEq] at h
      obtain ⟨rfl, rfl⟩ := h
      have ht : (buf.take pos).length = pos := by rw [List.length_take]; omega
      have he := length_enc t v
      have hd : (List.take pos buf ++ enc t v ++ List.drop (pos + serialSize t v) buf).drop pos =
          enc t v ++ List.drop (pos + serialSize t v) buf := by
        conv_lhs => rw [List.append_assoc]
        conv_lhs => arg 1; rw [← ht]
        rw [List.drop_left]
      refine ⟨rfl, ?_, ?_, ?_, ?_⟩
      · simp only [List.length_append, List.length_take, List.length_drop]; omega
      · conv_lhs => arg 1; rw [← ht]
        rw [List.append_assoc, List.take_left]
      · conv_lhs => arg 1; rw [← ht, ← he, ← List.length_append]
        rw [List.drop_left]
      · rw [unpack'_eq t v hf _ pos (by simp only [List.length_append, ht]; omega) ⟨_, hd.symm⟩, he]
    · simp at h

theorem packAvoid_room {n : Nat} {vect : List UInt8} (w : Nat) (hw : 0 < w) (resize : List UInt8 → Nat → List UInt8)
    (hr : ∀ l n, (resize l n).length = n) :
    n ≤ (if n > vect.length / w then resize vect (w * (n / w + 1)) else vect).length := by
  split
  · rw [hr]
    have := Nat.lt_mul_div_succ n hw
    omega
  · rename_i h
    have h1 : vect.length / w ≤ vect.length := Nat.div_le_self _ _
    omega

theorem length_resizeBytes (l : List UInt8) (n : Nat) : (resizeBytes l n).length = n := by
  simp [resizeBytes]; omega

/-- C05, whole vectors: `pack` into a vector of elements of any width succeeds, and `unpack` of the resulting vector yields the
object. -/
theorem pack_vector_round_trip (t : Ty) (v : Val t) (hf : Fits t v) (w : Nat) (hw : 0 < w) (fill : Nat → List UInt8)
    (hfill : ∀ n, (fill n).length = n) :
    ∃ bytes, packVector t v w fill = some (serialSize t v, bytes) ∧ bytes.length = w * (serialSize t v / w + 1) ∧
      (unpack' t bytes 0).map Prod.fst = some v := by
  have hroom : serialSize t v ≤ (fill (w * (serialSize t v / w + 1))).length := by
    rw [hfill]; exact Nat.le_of_lt (Nat.lt_mul_div_succ _ hw)
  obtain ⟨h1, h2⟩ := serialization_round_trip t v hf (fill (w * (serialSize t v / w + 1))) 0 (by omega)
  obtain ⟨⟨b, p⟩, hbp⟩ := Option.isSome_iff_exists.1 (h1.2 (by omega))
  obtain ⟨rfl, hl, _, _, hu⟩ := h2 b p hbp
  refine ⟨b, by rw [packVector, hbp]; rfl, by rw [hl, hfill], by rw [hu]; rfl⟩

/-- C05, `pack_avoid_resize`: never writes outside the vector although its guard compares bytes with elements. -/
theorem pack_avoid_resize_round_trip (t : Ty) (v : Val t) (hf : Fits t v) (w : Nat) (hw : 0 < w) (vect : List UInt8)
    (resize : List UInt8 → Nat → List UInt8) (hr : ∀ l n, (resize l n).length = n) :
    ∃ bytes, packAvoidResize t v w vect resize = some (serialSize t v, bytes) ∧
      bytes.length = (if serialSize t v > vect.length / w then w * (serialSize t v / w + 1) else vect.length) ∧
      ∀ tail, (unpack' t (bytes ++ tail) 0).map Prod.fst = some v := by
  set vect' := (if serialSize t v > vect.length / w then resize vect (w * (serialSize t v / w + 1)) else vect) with hv
  have hroom : serialSize t v ≤ vect'.length := packAvoid_room w hw resize hr
  obtain ⟨h1, h2⟩ := serialization_round_trip t v hf vect' 0 (by omega)
  obtain ⟨⟨b, p⟩, hbp⟩ := Option.isSome_iff_exists.1 (h1.2 (by omega))
  obtain ⟨rfl, hl, _, _, hu⟩ := h2 b p hbp
  refine ⟨b, ?_, ?_, ?_⟩
  · unfold packAvoidResize
    dsimp only
    rw [← hv, hbp]; rfl
  · rw [hl, hv]
    split
    · rw [hr]
    · rfl
  · intro tail
    have hpre : enc t v <+: b := by
      rw [pack'_eq t v _ (by simp)] at hbp
      unfold putBytes at hbp
      dsimp only at hbp
      rw [if_pos (by rw [length_enc]; omega)] at hbp
      simp only [List.take_zero, List.nil_append, Option.some.injEq, Prod.mk.injEq] at hbp
      exact ⟨_, hbp.1⟩
    rw [unpack'_eq t v hf (b ++ tail) 0 (by simp) (by
      rw [List.drop_zero]; exact hpre.trans (List.prefix_append _ _))]
    rfl

/-- C05, message passing: what `sendpacked` with a user buffer transmits is turned back into the object by `recvpacked`, whatever the
state of the two `int` buffers. -/
theorem sendpacked_recvpacked (t : Ty) (v : Val t) (hf : Fits t v) (sbuf rbuf : List UInt8) :
    ∃ message, sendpackedBuffer t v sbuf = some message ∧ recvpacked t message rbuf = some v := by
  obtain ⟨b, hb, -, hu⟩ := pack_avoid_resize_round_trip t v hf 4 (by omega) sbuf resizeBytes length_resizeBytes
  refine ⟨b, by rw [sendpackedBuffer, hb]; rfl, ?_⟩
  unfold recvpacked
  exact hu _

/-- non-vacuity: a `vector<pair<int, vector<int>>>` with two elements. -/
example : ∃ v : Val (.vec (.pair (.mem 4) (.vec (.mem 4)))), Fits _ v ∧ serialSize _ v = 8 + (4 + 8) + (4 + 8 + 4) := by
  refine ⟨[(⟨[1, 0, 0, 0], rfl⟩, []), (⟨[2, 0, 0, 0], rfl⟩, [⟨[3, 0, 0, 0], rfl⟩])], ?_, rfl⟩
  refine ⟨by decide, ?_⟩
  intro x hx
  rcases List.mem_cons.1 hx with rfl | hx
  · exact ⟨trivial, by decide, fun _ h => absurd h (by simp)⟩
  · rcases List.mem_cons.1 hx with rfl | hx
    · exact ⟨trivial, by decide, fun _ _ => trivial⟩
    · simp at hx

/-! ## C08 -/

/-- C08 (exact characterisation): `sendpacked(source, rank, tag)` stays inside its buffer iff the size in bytes does not exceed the
number of `int`s already in the buffer (so that the buffer is not resized). The full claim, for all objects and buffer states, is
refuted below. -/
theorem sendpackedStatic_in_bounds_iff_partial (t : Ty) (v : Val t) (hf : Fits t v) (buffer : List UInt8)
    (hb : buffer.length % 4 = 0) :
    (sendpackedStatic t v buffer).isSome ↔ serialSize t v ≤ buffer.length / 4 ∨ serialSize t v = 1 := by
  obtain ⟨b, hp, hl, -⟩ := pack_avoid_resize_round_trip t v hf 4 (by omega) buffer resizeBytes length_resizeBytes
  unfold sendpackedStatic
  rw [hp, Option.bind_some]
  dsimp only
  have hiff : 4 * serialSize t v ≤ b.length ↔ serialSize t v ≤ buffer.length / 4 ∨ serialSize t v = 1 := by
    rw [hl]; split <;> omega
  rw [← hiff]
  by_cases h : 4 * serialSize t v ≤ b.length
  · rw [if_pos h]; simp [h]
  · rw [if_neg h]; simpa using h

/-- C08, content: when the call stays in bounds, the message has four times the length of the packed object, begins with it, and the
receiver gets the object. -/
theorem sendpackedStatic_content_partial (t : Ty) (v : Val t) (hf : Fits t v) (buffer message rbuf : List UInt8)
    (h : sendpackedStatic t v buffer = some message) :
    message.length = 4 * serialSize t v ∧ recvpacked t message rbuf = some v := by
  unfold sendpackedStatic packAvoidResize at h
  dsimp only at h
  generalize (if serialSize t v > buffer.length / 4 then resizeBytes buffer (4 * (serialSize t v / 4 + 1)) else buffer) = vect at h
  rw [pack'_eq t v _ (by simp)] at h
  unfold putBytes at h
  dsimp only at h
  split at h
  · simp only [List.take_zero, List.nil_append, Option.map_some, Option.bind_some] at h
    split at h
    · rename_i hlen
      rw [Option.some.injEq] at h
      have hl : message.length = 4 * serialSize t v := by
        rw [← h, List.length_take]; omega
      refine ⟨hl, ?_⟩
      have hpre : enc t v <+: message := by
        rw [← h]
        refine List.prefix_of_prefix_length_le (List.prefix_append _ _) (List.take_prefix _ _) ?_
        rw [h, hl, length_enc]; omega
      unfold recvpacked
      dsimp only
      rw [unpack'_eq t v hf _ 0 (Nat.zero_le _) (by
        rw [List.drop_zero]; exact hpre.trans (List.prefix_append _ _))]
      rfl
    · cases h
  · simp at h

/-- non-vacuity: one `int` in a buffer of four. -/
example : (sendpackedStatic (.mem 4) ⟨[1, 2, 3, 4], rfl⟩ (List.replicate 16 9)).isSome = true := by
  rw [sendpackedStatic_in_bounds_iff_partial (.mem 4) ⟨[1, 2, 3, 4], rfl⟩ trivial _ (by simp)]
  left
  simp [serialSize]

/-- C08 is false of the code: starting from the empty static buffer, every object of two bytes or more makes `MPI_Send` read beyond the
buffer. -/
theorem sendpackedStatic_overreads (t : Ty) (v : Val t) (hf : Fits t v) (hs : 2 ≤ serialSize t v) :
    sendpackedStatic t v [] = none := by
  have := sendpackedStatic_in_bounds_iff_partial t v hf [] rfl
  rw [← Option.not_isSome_iff_eq_none, this]
  simp; omega

/-- non-vacuity: one `int`. -/
example : ∃ v : Val (.mem 4), Fits _ v ∧ 2 ≤ serialSize _ v := ⟨⟨[1, 0, 0, 0], rfl⟩, trivial, by decide⟩

end NimbleSM.Mpi
