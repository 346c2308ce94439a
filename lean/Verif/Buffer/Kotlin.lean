import Verif.Buffer.Builder
import Verif.Wire.ForeignLeaf2
import Verif.Wire.Lemmas4
/-
Kotlin's `allocationSize` and `lowerIntoRustBuffer`.
-/
namespace Verif.Buffer.Kotlin
open Verif Verif.Wire Verif.Buffer

/-- `String.length` in Kotlin: UTF-16 code units. A character outside the basic plane takes two. -/
def utf16Units (s : String) : Nat := (s.toList.map fun c => if c.toNat < 0x10000 then 1 else 2).sum

/-- `allocationSize` of the builtin converters, kotlin/templates: BooleanHelper.kt:17,
ByteArrayHelper.kt:11-13, CallbackInterfaceRuntime.kt:27, DurationHelper.kt:20, Float32Helper.kt:17,
Float64Helper.kt:17, Int8Helper.kt:17 and its siblings, ObjectTemplate.kt:277 and 325,
StringHelper.kt:45-49, TimestampHelper.kt:20. The sums are `ULong`; sizes of values that fit in
memory do not wrap, so they are natural numbers here. -/
def leafSize : Ty → Val → Nat
  | .int t, _ => t.width
  | .f32, _ => 4
  | .f64, _ => 8
  | .bool, _ => 1
  | .string, .str s => 4 + utf16Units s * 3
  | .timestamp, _ => 12
  | .duration, _ => 12
  | .handle, _ => 8
  | .seq _, .seq vs => 4 + vs.length
  | _, _ => 0

/-- Field by field, as in RecordTemplate.kt:64-68 and EnumTemplate.kt:145-157. -/
def sizeFields (f : Ty → Val → Nat) : List Ty → List Val → Nat
  | t :: ts, v :: vs => f t v + sizeFields f ts vs
  | _, _ => 0

/-- `allocationSize` of the generated converters: OptionalTemplate.kt:14-20,
SequenceTemplate.kt:14-18, MapTemplate.kt:19-26, SetTemplate.kt:16-20, RecordTemplate.kt:64-68,
EnumTemplate.kt:60 and 145-157, CustomTypeTemplate.kt:48-51. The first argument bounds the depth. -/
def allocationSize (env : Env) : Nat → Ty → Val → Nat
  | 0, _, _ => 0
  | fuel + 1, ty, p =>
    if ty.isLeaf then leafSize ty p
    else match ty, p with
    | .option t, p => if p = .none then 1 else 1 + allocationSize env fuel t p
    | .seq t, .seq vs => 4 + (vs.map (allocationSize env fuel t)).sum
    | .map k v, .map es =>
        4 + (es.map fun e => allocationSize env fuel k e.1 + allocationSize env fuel v e.2).sum
    | .set t, .set vs => 4 + (vs.map (allocationSize env fuel t)).sum
    | .box t, p => allocationSize env fuel t p
    | .named name, p =>
        match env name, p with
        | some (.record ts), .record fs => sizeFields (allocationSize env fuel) ts fs
        | some (.enum vs), .variant i fs =>
            match vs[i]? with
            | some ts => 4 + sizeFields (allocationSize env fuel) ts fs
            | none => 0
        | some (.custom t _ _), p => allocationSize env fuel t p
        | _, _ => 0
    | _, _ => 0

/-- `lowerIntoRustBuffer`, FfiConverterTemplate.kt:38-51, for a `write` that puts the bytes `bs`
(`none` if it throws): allocate, write into a `ByteBuffer` over the whole capacity (a put past the
end throws `BufferOverflowException`), set the length; on an exception free the buffer. -/
def lowerInto (h : Heap) (size : Nat) (written : Option Bytes) : Option (Heap × Option RustBuffer) :=
  match ffiAlloc h size with
  | none => none
  | some (h, _, false) => some (h, none)
  | some (h, b, true) =>
      match written with
      | some bs =>
          if bs.length ≤ b.capacity then
            (memmove h b.data 0 bs).map fun h => (h, some { b with len := bs.length })
          else (ffiFree h b).map fun r => (r.1, none)
      | none => (ffiFree h b).map fun r => (r.1, none)

/-! ### Lemmas -/

theorem utf8Size_le (c : Char) : c.utf8Size ≤ 3 * (if c.toNat < 0x10000 then 1 else 2) := by
  unfold Char.utf8Size
  have h : c.toNat = c.val.toNat := rfl
  have e : (UInt32.ofNatLT 65535 Char.utf8Size._proof_3).toNat = 65535 := rfl
  rw [h]
  simp only [UInt32.le_iff_toNat_le, e]
  repeat' split
  all_goals omega

theorem utf8_length_le (s : String) : (utf8 s).length ≤ utf16Units s * 3 := by
  rw [length_utf8]
  refine String.push_induction s (fun s => s.utf8ByteSize ≤ utf16Units s * 3) (by decide) ?_
  intro b c ih
  have := utf8Size_le c
  simp only [String.utf8ByteSize_push, utf16Units, String.toList_push, List.map_append,
    List.sum_append, List.map_cons, List.map_nil, List.sum_cons, List.sum_nil] at ih ⊢
  omega

theorem writeCount_length {n : Nat} {b : Bytes} (h : Wire.Kotlin.writeCount n = some b) :
    b.length = 4 := by
  unfold Wire.Kotlin.writeCount at h
  split at h
  · cases h; simp [writeInt, IntTy.width]
  · cases h

theorem mapM_length {f : Val → Option UInt8} : ∀ {vs : List Val} {bs : Bytes},
    vs.mapM f = some bs → bs.length = vs.length
  | [], bs, h => by simp at h; simp [h]
  | v :: vs, bs, h => by
    rw [List.mapM_cons] at h
    cases hv : f v with
    | none => simp [hv] at h
    | some b =>
      cases hvs : vs.mapM f with
      | none => simp [hv, hvs] at h
      | some c => simp [hv, hvs] at h; subst h; simp [mapM_length hvs]

theorem leaf_length {t : Ty} {p : Val} {bs : Bytes} (h : Wire.Kotlin.writeLeaf t p = some bs) :
    bs.length ≤ leafSize t p := by
  unfold Wire.Kotlin.writeLeaf at h
  split at h
  · rename_i t
    cases p <;> simp only [Wire.Kotlin.writeIntV] at h <;> try (cases h; done)
    split at h <;> cases h
    simp [leafSize]
  · cases p <;> simp only [fwriteBits] at h <;> try (cases h; done)
    split at h <;> cases h
    simp [leafSize]
  · cases p <;> simp only [fwriteBits] at h <;> try (cases h; done)
    split at h <;> cases h
    simp [leafSize]
  · cases p <;> simp only [Wire.Kotlin.writeBool] at h <;> cases h
    simp [leafSize, writeInt, IntTy.width]
  · cases p <;> simp only [Wire.Kotlin.writeStr, Option.map_eq_some_iff] at h <;> try (cases h; done)
    rename_i s
    obtain ⟨c, hc, rfl⟩ := h
    have := utf8_length_le s
    have := writeCount_length hc
    simp only [leafSize, List.length_append]
    omega
  · cases p <;> simp only [Wire.Kotlin.writeTime] at h <;> cases h
    simp [leafSize, writeInt, IntTy.width]
  · cases p <;> simp only [Wire.Kotlin.writeDur] at h <;> try (cases h; done)
    split at h <;> cases h
    simp [leafSize, writeInt, IntTy.width]
  · cases p <;> simp only [fwriteHandle] at h <;> try (cases h; done)
    split at h <;> cases h
    simp [leafSize]
  · cases p <;> simp only [fwriteBytes] at h <;> try (cases h; done)
    simp only [Option.bind_eq_some_iff, Option.map_eq_some_iff] at h
    obtain ⟨b, hb, c, hc, rfl⟩ := h
    have := mapM_length hb
    have := writeCount_length hc
    simp only [leafSize, List.length_append]
    omega
  · cases h

theorem fwriteAll_length {f : Val → Option Bytes} {g : Val → Nat}
    (hf : ∀ p bs, f p = some bs → bs.length ≤ g p) :
    ∀ (ps : List Val) (bs : Bytes), fwriteAll f ps = some bs → bs.length ≤ (ps.map g).sum
  | [], bs, h => by simp [fwriteAll] at h; simp [h]
  | p :: ps, bs, h => by
    simp only [fwriteAll, Option.bind_eq_some_iff, Option.map_eq_some_iff] at h
    obtain ⟨a, ha, b, hb, rfl⟩ := h
    have := hf p a ha
    have := fwriteAll_length hf ps b hb
    simp only [List.map_cons, List.sum_cons, List.length_append]; omega

theorem fwritePairs_length {f f' : Val → Option Bytes} {g g' : Val → Nat}
    (hf : ∀ p bs, f p = some bs → bs.length ≤ g p)
    (hf' : ∀ p bs, f' p = some bs → bs.length ≤ g' p) :
    ∀ (ps : List (Val × Val)) (bs : Bytes), fwritePairs f f' ps = some bs →
      bs.length ≤ (ps.map fun e => g e.1 + g' e.2).sum
  | [], bs, h => by simp [fwritePairs] at h; simp [h]
  | (k, p) :: ps, bs, h => by
    simp only [fwritePairs, Option.bind_eq_some_iff, Option.map_eq_some_iff] at h
    obtain ⟨a, ha, b, hb, c, hc, rfl⟩ := h
    have := hf k a ha
    have := hf' p b hb
    have := fwritePairs_length hf hf' ps c hc
    simp only [List.map_cons, List.sum_cons, List.length_append]; omega

theorem fwriteFields_length {f : Ty → Val → Option Bytes} {g : Ty → Val → Nat}
    (hf : ∀ t p bs, f t p = some bs → bs.length ≤ g t p) :
    ∀ (ts : List Ty) (ps : List Val) (bs : Bytes), fwriteFields f ts ps = some bs →
      bs.length ≤ sizeFields g ts ps
  | [], [], bs, h => by simp [fwriteFields] at h; simp [h]
  | [], _ :: _, bs, h => by simp [fwriteFields] at h
  | _ :: _, [], bs, h => by simp [fwriteFields] at h
  | t :: ts, p :: ps, bs, h => by
    simp only [fwriteFields, Option.bind_eq_some_iff, Option.map_eq_some_iff] at h
    obtain ⟨a, ha, b, hb, rfl⟩ := h
    have := hf t p a ha
    have := fwriteFields_length hf ts ps b hb
    simp only [sizeFields, List.length_append]; omega

theorem fwrite_length (lossy : Bytes → String) (env : Env) :
    ∀ (fuel : Nat) (t : Ty) (p : Val) (bs : Bytes),
      fwrite (Wire.Kotlin.lang lossy) env fuel t p = some bs → bs.length ≤ allocationSize env fuel t p
  | 0, t, p, bs, h => by simp [fwrite] at h
  | fuel + 1, t, p, bs, h => by
    have ih := fwrite_length lossy env fuel
    unfold fwrite at h
    unfold allocationSize
    by_cases hl : t.isLeaf = true
    · rw [if_pos hl] at h ⊢
      exact leaf_length h
    rw [if_neg hl] at h ⊢
    cases t with
    | int | f32 | f64 | bool | string | timestamp | duration | handle => simp [Ty.isLeaf] at hl
    | option t =>
      simp only at h ⊢
      by_cases hp : p = .none
      · rw [if_pos hp] at h ⊢; cases h; simp
      · rw [if_neg hp] at h ⊢
        rw [if_pos (by rfl), Option.map_eq_some_iff] at h
        obtain ⟨b, hb, rfl⟩ := h
        have := ih t p b hb
        simp only [List.length_append, length_beBytes]; omega
    | seq t =>
      cases p <;> simp only [Option.bind_eq_some_iff, Option.map_eq_some_iff] at h <;> try cases h
      rename_i vs c hcd
      obtain ⟨hc1, b, hb, rfl⟩ := hcd
      have := writeCount_length hc1
      have := fwriteAll_length (ih t) vs b hb
      simp only [List.length_append]; omega
    | set t =>
      cases p <;> simp only [Option.bind_eq_some_iff, Option.map_eq_some_iff] at h <;> try cases h
      rename_i vs c hcd
      obtain ⟨hc1, b, hb, rfl⟩ := hcd
      have := writeCount_length hc1
      have := fwriteAll_length (ih t) vs b hb
      simp only [List.length_append]; omega
    | map t u =>
      cases p <;> simp only [Option.bind_eq_some_iff, Option.map_eq_some_iff] at h <;> try cases h
      rename_i vs c hcd
      obtain ⟨hc1, b, hb, rfl⟩ := hcd
      have := writeCount_length hc1
      have := fwritePairs_length (ih t) (ih u) vs b hb
      simp only [List.length_append]; omega
    | box t => simp only at h ⊢; exact ih t p bs h
    | named n =>
      simp only at h ⊢
      cases he : env n with
      | none => simp [he] at h
      | some d =>
        cases d with
        | custom t lo li => simp only [he] at h ⊢; exact ih t p bs h
        | record ts =>
          cases p <;> simp only [he] at h <;> try cases h
          exact fwriteFields_length ih ts _ bs h
        | enum vs =>
          cases p <;> simp only [he] at h <;> try cases h
          rename_i i fs
          cases hi : vs[i]? with
          | none => simp [hi] at h
          | some ts =>
            simp only [hi, Option.bind_eq_some_iff, Option.map_eq_some_iff] at h
            obtain ⟨c, hc1, b, hb, rfl⟩ := h
            have := writeCount_length hc1
            have := fwriteFields_length ih ts fs b hb
            simp only [hi, List.length_append]; omega

/-- With enough room, `lowerInto` yields a buffer holding the bytes. -/
theorem lowerInto_spec {h : Heap} {held : List RustBuffer} (hi : Inv h held) (size : Nat)
    (bs : Bytes) (hs : size ≤ isizeMax) (hb : bs.length ≤ size) :
    ∃ h' b, lowerInto h size (some bs) = some (h', some b) ∧ Inv h' (b :: held) ∧
      b.bytes h' = bs ∧ Frame held h h' := by
  have hi1 := inv_vec hi (List.replicate size 0) []
  have hcap : (RustBuffer.fromVec (h.vec (List.replicate size 0) []).2).capacity = size := by
    simp [RustBuffer.fromVec, Heap.vec]
  have hn : ¬ isizeMax < size := by omega
  unfold lowerInto
  simp only [ffiAlloc, RustBuffer.newWithSize, if_neg hn, rustCall]
  rw [if_pos (by rw [hcap]; exact hb)]
  have hg := hi1.good _ List.mem_cons_self
  rcases memmove_good hg 0 bs (by rw [hcap]; omega) with ⟨e, e2⟩ | ⟨id, old, g1, g2, g3, e⟩
  · rw [e]
    subst e2
    refine ⟨_, _, rfl, inv_setLen hi1 _ (Nat.zero_le _), ?_, frame_vec hi _ _⟩
    have := bytes_length ((inv_setLen hi1 0 (Nat.zero_le _)).good _ List.mem_cons_self)
    exact List.eq_nil_of_length_eq_zero this
  · rw [e]
    refine ⟨_, _, rfl, inv_put hi1 g1 g2 (by simp; omega) _ (by omega), ?_,
      (frame_vec hi _ _).trans (frame_put hi1 g1 _)⟩
    simp only [RustBuffer.bytes, g1, Heap.get, put_get g2, Option.join_some]
    simp

/-- If `write` throws or runs over the end of the buffer, the buffer is freed and nothing else
changes. -/
theorem lowerInto_throws {h : Heap} {held : List RustBuffer} (hi : Inv h held) (size : Nat)
    (written : Option Bytes) (hw : ∀ bs, written = some bs → size < bs.length) :
    ∃ h', lowerInto h size written = some (h', none) ∧ Inv h' held := by
  unfold lowerInto ffiAlloc RustBuffer.newWithSize
  split
  · rename_i h1; split at h1 <;> cases h1
  · rename_i h1; split at h1 <;> cases h1
    exact ⟨_, rfl, hi⟩
  · rename_i h1; split at h1 <;> cases h1
    have hi1 := inv_vec hi (List.replicate size 0) []
    have hcap : (RustBuffer.fromVec (h.vec (List.replicate size 0) []).2).capacity = size := by
      simp [RustBuffer.fromVec, Heap.vec]
    have hf := destroy_good (hi1.good _ List.mem_cons_self)
    cases written with
    | none =>
      dsimp only
      rw [ffiFree, hf]
      exact ⟨_, rfl, inv_releaseOf hi1⟩
    | some bs =>
      dsimp only
      rw [if_neg (by rw [hcap]; have := hw bs rfl; omega), ffiFree, hf]
      exact ⟨_, rfl, inv_releaseOf hi1⟩

end Verif.Buffer.Kotlin
