import Verif.Call.FfiBuffer
import Verif.Wire.Lemmas
/-
C24: the argument-buffer calling convention.
-/
namespace Verif.Props.FfiBuffer
open Verif Verif.Wire Verif.Call Verif.FfiBuffer

/-! ### Lemmas -/

theorem length_enc (o : Endian) (n v : Nat) : (o.enc n v).length = n := by
  cases o <;> simp [Endian.enc]

theorem dec_enc (o : Endian) {n v : Nat} (h : v < 256 ^ n) : o.dec (o.enc n v) = v := by
  cases o
  · exact leNat_leBytes_of_lt h
  · exact beNat_beBytes_of_lt h

theorem get_set (o : Endian) {n v : Nat} (h : v < 256 ^ n) (e : Elem) :
    Elem.get o n (Elem.set o n v e) = v := by
  unfold Elem.get Elem.set
  have : (o.enc n v ++ e.drop n).take n = o.enc n v := by
    rw [List.take_append_of_le_length (by rw [length_enc]; exact Nat.le_refl _)]
    exact List.take_of_length_le (by rw [length_enc]; exact Nat.le_refl _)
  rw [this]
  exact dec_enc o h

theorem int_back {t : IntTy} {z : Int} (h : t.InRange z) :
    (if t.signed then toSigned t.width (toUnsigned t.width z)
      else ((toUnsigned t.width z : Nat) : Int)) = z := by
  have := decodeInt_writeInt h
  unfold decodeInt writeInt at this
  rwa [beNat_beBytes_of_lt (toUnsigned_lt _ _)] at this

theorem code_back (c : Code) : Code.ofInt (toSigned 1 (toUnsigned 1 c.toInt)) = some c := by
  cases c <;> decide +kernel

/-- Putting a value changes only its own slots, keeps their number, and the value can be got back
from them, whatever follows. -/
theorem put_spec (o : Endian) (v : FVal) (hv : v.Valid) (buf : List Elem)
    (h : v.ty.size ≤ buf.length) :
    ∃ own, put o buf v = some (own ++ buf.drop v.ty.size) ∧ own.length = v.ty.size ∧
      ∀ rest, get o (own ++ rest) v.ty = some v := by
  have e8 : (2 : Nat) ^ 64 = 256 ^ 8 := by decide
  have e4 : (2 : Nat) ^ 32 = 256 ^ 4 := by decide
  cases v with
  | int t z =>
    cases buf with
    | nil => simp [FVal.ty, FTy.size] at h
    | cons e buf =>
      refine ⟨[Elem.set o t.width (toUnsigned t.width z) e], by simp [put, setAt, FVal.ty, FTy.size],
        rfl, fun rest => ?_⟩
      simp only [FVal.ty, FfiBuffer.get, getAt, List.cons_append, List.nil_append, List.getElem?_cons_zero,
        Option.map_some, get_set o (toUnsigned_lt _ _)]
      rw [int_back hv]
  | f32 b =>
    cases buf with
    | nil => simp [FVal.ty, FTy.size] at h
    | cons e buf =>
      have hv : b < 256 ^ 4 := e4 ▸ hv
      exact ⟨[Elem.set o 4 b e], by simp [put, setAt, FVal.ty, FTy.size], rfl, fun rest => by
        simp [FVal.ty, FfiBuffer.get, getAt, get_set o hv]⟩
  | f64 b =>
    cases buf with
    | nil => simp [FVal.ty, FTy.size] at h
    | cons e buf =>
      have hv : b < 256 ^ 8 := e8 ▸ hv
      exact ⟨[Elem.set o 8 b e], by simp [put, setAt, FVal.ty, FTy.size], rfl, fun rest => by
        simp [FVal.ty, FfiBuffer.get, getAt, get_set o hv]⟩
  | bool b =>
    cases buf with
    | nil => simp [FVal.ty, FTy.size] at h
    | cons e buf =>
      refine ⟨[Elem.set o 1 (if b then 1 else 0) e], by simp [put, setAt, FVal.ty, FTy.size], rfl,
        fun rest => ?_⟩
      have hb : (if b then 1 else 0) < 256 ^ 1 := by cases b <;> decide
      simp only [FVal.ty, FfiBuffer.get, getAt, List.cons_append, List.nil_append, List.getElem?_cons_zero,
        Option.map_some, get_set o hb]
      cases b <;> decide +kernel
  | unit => exact ⟨[], by simp [put, FVal.ty, FTy.size], rfl, fun rest => rfl⟩
  | ptr b =>
    cases buf with
    | nil => simp [FVal.ty, FTy.size] at h
    | cons e buf =>
      have hv : b < 256 ^ 8 := e8 ▸ hv
      exact ⟨[Elem.set o 8 b e], by simp [put, setAt, FVal.ty, FTy.size], rfl, fun rest => by
        simp [FVal.ty, FfiBuffer.get, getAt, get_set o hv]⟩
  | handle b =>
    cases buf with
    | nil => simp [FVal.ty, FTy.size] at h
    | cons e buf =>
      have hv : b < 256 ^ 8 := e8 ▸ hv
      exact ⟨[Elem.set o 8 b e], by simp [put, setAt, FVal.ty, FTy.size], rfl, fun rest => by
        simp [FVal.ty, FfiBuffer.get, getAt, get_set o hv]⟩
  | rustBuffer c l d =>
    match buf, h with
    | e0 :: e1 :: e2 :: buf, _ =>
      obtain ⟨h1, h2, h3⟩ := hv
      rw [e8] at h1 h2 h3
      exact ⟨[Elem.set o 8 c e0, Elem.set o 8 l e1, Elem.set o 8 d e2],
        by simp [put, setAt, FVal.ty, FTy.size], rfl, fun rest => by
        simp [FVal.ty, FfiBuffer.get, getAt, get_set o h1, get_set o h2, get_set o h3]⟩
    | [], h => simp [FVal.ty, FTy.size] at h
    | [_], h => simp [FVal.ty, FTy.size] at h
    | [_, _], h => simp [FVal.ty, FTy.size] at h
  | foreignBytes l d =>
    match buf, h with
    | e0 :: e1 :: buf, _ =>
      obtain ⟨h1, h2⟩ := hv
      rw [e8] at h2
      have h3 := int_back h1
      simp only [IntTy.signed, IntTy.width, if_true] at h3
      exact ⟨[Elem.set o 4 (toUnsigned 4 l) e0, Elem.set o 8 d e1],
        by simp [put, setAt, FVal.ty, FTy.size], rfl, fun rest => by
        simp [FVal.ty, FfiBuffer.get, getAt, get_set o h2, get_set o (toUnsigned_lt 4 l), h3]⟩
    | [], h => simp [FVal.ty, FTy.size] at h
    | [_], h => simp [FVal.ty, FTy.size] at h
  | foreignBytesMut l d =>
    match buf, h with
    | e0 :: e1 :: buf, _ =>
      obtain ⟨h1, h2⟩ := hv
      rw [e8] at h2
      have h3 := int_back h1
      simp only [IntTy.signed, IntTy.width, if_true] at h3
      exact ⟨[Elem.set o 4 (toUnsigned 4 l) e0, Elem.set o 8 d e1],
        by simp [put, setAt, FVal.ty, FTy.size], rfl, fun rest => by
        simp [FVal.ty, FfiBuffer.get, getAt, get_set o h2, get_set o (toUnsigned_lt 4 l), h3]⟩
    | [], h => simp [FVal.ty, FTy.size] at h
    | [_], h => simp [FVal.ty, FTy.size] at h
  | status code c l d =>
    match buf, h with
    | e0 :: e1 :: e2 :: e3 :: buf, _ =>
      obtain ⟨h1, h2, h3⟩ := hv
      rw [e8] at h1 h2 h3
      exact ⟨[Elem.set o 1 (toUnsigned 1 code.toInt) e0, Elem.set o 8 c e1, Elem.set o 8 l e2,
          Elem.set o 8 d e3],
        by simp [put, setAt, FVal.ty, FTy.size], rfl, fun rest => by
        simp [FVal.ty, FfiBuffer.get, getAt, get_set o h1, get_set o h2, get_set o h3,
          get_set o (toUnsigned_lt 1 code.toInt), code_back]⟩
    | [], h => simp [FVal.ty, FTy.size] at h
    | [_], h => simp [FVal.ty, FTy.size] at h
    | [_, _], h => simp [FVal.ty, FTy.size] at h
    | [_, _, _], h => simp [FVal.ty, FTy.size] at h

/-! ### C24 -/

/-- Slots a list of values needs: `ffi_buffer_size!`, ffiserialize.rs:92-101. -/
def slots (vs : List FVal) : Nat := (vs.map fun v => v.ty.size).sum

/-- C24. Values written one after the other into a large enough buffer, whatever was in it, read
back unchanged in the same order; exactly the declared number of slots is used and the rest of
the buffer is untouched. -/
theorem C24_round_trip (o : Endian) : ∀ (vs : List FVal) (buf : List Elem),
    (∀ v ∈ vs, v.Valid) → slots vs ≤ buf.length →
    ∃ own, writeAll o vs buf = some (own ++ buf.drop (slots vs)) ∧ own.length = slots vs ∧
      ∀ rest, readAll o (vs.map FVal.ty) (own ++ rest) = some (vs, rest)
  | [], buf, _, _ => ⟨[], by simp [FfiBuffer.writeAll, slots], rfl, fun rest => rfl⟩
  | v :: vs, buf, hv, hb => by
    have hs : slots (v :: vs) = v.ty.size + slots vs := by simp [slots]
    rw [hs] at hb ⊢
    obtain ⟨own, h1, h2, h3⟩ := put_spec o v (hv v (by simp)) buf (by omega)
    obtain ⟨own', h4, h5, h6⟩ := C24_round_trip o vs (buf.drop v.ty.size)
      (fun w hw => hv w (by simp [hw])) (by simp; omega)
    refine ⟨own ++ own', ?_, by simp [h2, h5], fun rest => ?_⟩
    · have hd : (own ++ buf.drop v.ty.size).drop v.ty.size = buf.drop v.ty.size := by
        rw [← h2]; simp
      have ht : (own ++ buf.drop v.ty.size).take v.ty.size = own := by
        rw [← h2]; simp
      have hl : ¬ (own ++ buf.drop v.ty.size).length < v.ty.size := by simp [h2]
      simp only [FfiBuffer.writeAll, h1, Option.bind_some, if_neg hl, hd, ht, h4, Option.map_some,
        List.drop_drop]
      simp
    · have hl : ¬ (own ++ (own' ++ rest)).length < v.ty.size := by simp [h2]
      have hd : (own ++ (own' ++ rest)).drop v.ty.size = own' ++ rest := by rw [← h2]; simp
      simp only [List.map_cons, readAll, List.append_assoc, h3, Option.bind_some, if_neg hl, hd,
        h6, Option.map_some]

/-- C24. A value lies in the slots right after those of the values before it. -/
theorem C24_position (o : Endian) (pre post : List FVal) (v : FVal) (buf res : List Elem)
    (hv : ∀ w ∈ pre ++ v :: post, w.Valid) (hb : slots (pre ++ v :: post) ≤ buf.length)
    (hw : writeAll o (pre ++ v :: post) buf = some res) :
    get o (res.drop (slots pre)) v.ty = some v := by
  induction pre generalizing buf res with
  | nil =>
    obtain ⟨own, h1, h2, h3⟩ := put_spec o v (hv v (by simp)) buf (by
      simp [slots] at hb; omega)
    have hl : ¬ (own ++ buf.drop v.ty.size).length < v.ty.size := by simp [h2]
    have ht : (own ++ buf.drop v.ty.size).take v.ty.size = own := by rw [← h2]; simp
    simp only [List.nil_append, FfiBuffer.writeAll, h1, Option.bind_some, if_neg hl, ht,
      Option.map_eq_some_iff] at hw
    obtain ⟨tail, _, rfl⟩ := hw
    simpa [slots] using h3 tail
  | cons w pre ih =>
    have hs : slots (w :: pre) = w.ty.size + slots pre := by simp [slots]
    have hs2 : slots (w :: pre ++ v :: post) = w.ty.size + slots (pre ++ v :: post) := by
      simp [slots]
    rw [hs2] at hb
    obtain ⟨own, h1, h2, h3⟩ := put_spec o w (hv w (by simp)) buf (by omega)
    have hl : ¬ (own ++ buf.drop w.ty.size).length < w.ty.size := by simp [h2]
    have ht : (own ++ buf.drop w.ty.size).take w.ty.size = own := by rw [← h2]; simp
    have hd : (own ++ buf.drop w.ty.size).drop w.ty.size = buf.drop w.ty.size := by
      rw [← h2]; simp
    simp only [List.cons_append, FfiBuffer.writeAll, h1, Option.bind_some, if_neg hl, ht, hd,
      Option.map_eq_some_iff] at hw
    obtain ⟨tail, h4, rfl⟩ := hw
    have := ih (buf.drop w.ty.size) tail (fun x hx => hv x (by
      simp only [List.cons_append, List.mem_cons]; exact .inr hx)) (by simp; omega) h4
    rw [hs, ← h2, ← List.drop_drop]
    simpa using this

/-- C24. Calling through the argument buffer is calling the function: it receives exactly the
values written, and the caller reads back exactly its return value and then its status. -/
theorem C24_call (o : Endian) (fn : List FVal → FVal × FVal) (args : List FVal)
    (argBuf argBuf' retBuf : List Elem) (ret : FTy)
    (hargs : ∀ v ∈ args, v.Valid) (ha : slots args ≤ argBuf.length)
    (hw : writeAll o args argBuf = some argBuf')
    (hret : (fn args).1.Valid ∧ (fn args).1.ty = ret)
    (hst : (fn args).2.Valid ∧ (fn args).2.ty = .status)
    (hr : retBuf.length = ret.size + 4) :
    ∃ retBuf', ffiBufferFn o (args.map FVal.ty) fn argBuf' retBuf = some retBuf' ∧
      readAll o [ret, .status] retBuf' = some ([(fn args).1, (fn args).2], []) := by
  obtain ⟨own, h1, h2, h3⟩ := C24_round_trip o args argBuf hargs ha
  rw [h1] at hw; cases hw
  obtain ⟨own', h4, h5, h6⟩ := C24_round_trip o [(fn args).1, (fn args).2] retBuf
    (by simp [hret.1, hst.1]) (by
      have : FTy.size .status = 4 := rfl
      simp only [slots, List.map_cons, List.map_nil, List.sum_cons, List.sum_nil, hret.2, hst.2]; omega)
  have hd : retBuf.drop (slots [(fn args).1, (fn args).2]) = [] := by
    apply List.drop_of_length_le
    have : FTy.size .status = 4 := rfl
    simp only [slots, List.map_cons, List.map_nil, List.sum_cons, List.sum_nil, hret.2, hst.2]; omega
  rw [hd] at h4
  refine ⟨own' ++ [], ?_, ?_⟩
  · simp [ffiBufferFn, h3, h4]
  · have := h6 []
    simpa [hret.2, hst.2] using this

/-- C24. An unknown status code, which only foreign code can put there, reads as an unexpected
error. -/
theorem C24_unknown_code (o : Endian) (e0 e1 e2 e3 : Elem) (rest : List Elem)
    (h : ∀ c : Code, toSigned 1 (Elem.get o 1 e0) ≠ c.toInt) :
    ∃ c l d, get o (e0 :: e1 :: e2 :: e3 :: rest) .status = some (.status .unexpected c l d) := by
  have h0 := h .success
  have h1 := h .error
  have h2 := h .unexpected
  have h3 := h .cancelled
  simp only [Code.toInt] at h0 h1 h2 h3
  simp [FfiBuffer.get, getAt, Code.ofInt, h0, h1, h2, h3]

/-- A call with a narrow number, a buffer, a flag and nothing, into dirty buffers. -/
example :
    let args : List FVal := [.int .i16 (-2), .rustBuffer 8 3 4096, .unit, .bool true]
    let dirty : Elem := [9, 9, 9, 9, 9, 9, 9, 9]
    (∀ v ∈ args, v.Valid) ∧ slots args = 5 ∧
    writeAll .little args (List.replicate 6 dirty) = some
      [[254, 255, 9, 9, 9, 9, 9, 9], [8, 0, 0, 0, 0, 0, 0, 0], [3, 0, 0, 0, 0, 0, 0, 0],
        [0, 16, 0, 0, 0, 0, 0, 0], [1, 9, 9, 9, 9, 9, 9, 9], dirty] := by
  refine ⟨?_, by decide, by decide +kernel⟩
  intro v hv
  simp at hv
  rcases hv with rfl | rfl | rfl | rfl
  · simp only [FVal.Valid]; decide
  · simp [FVal.Valid]
  · trivial
  · trivial

end Verif.Props.FfiBuffer
