import Verif.Meta.BufferSpec
/- Lemmas about the metadata buffer. -/
namespace Verif.Meta
open Verif
open Verif.Wire (utf8)

/-- `b` holds exactly `bs`. -/
def Buf.Holds (b : Buf) (bs : Bytes) : Prop :=
  b.bytes.length = bufSize ∧ b.size = bs.length ∧ b.bytes.take b.size = bs

theorem holds_new : Buf.new.Holds [] := ⟨by simp [Buf.new], rfl, by simp [Buf.new]⟩

theorem Buf.Holds.le {b : Buf} {bs : Bytes} (h : b.Holds bs) : bs.length ≤ bufSize := by
  obtain ⟨h1, h2, h3⟩ := h
  rw [← h3, List.length_take, h1]; omega

theorem push_holds {b : Buf} {bs : Bytes} (h : b.Holds bs) (v : UInt8)
    (hl : bs.length < bufSize) : ∃ b', b.push v = some b' ∧ b'.Holds (bs ++ [v]) := by
  obtain ⟨h1, h2, h3⟩ := h
  refine ⟨_, if_pos (by omega), by simp [h1], by simp [h2], ?_⟩
  have hlt : b.size < b.bytes.length := by omega
  simp only
  rw [List.take_add_one, List.getElem?_set_self hlt]
  rw [List.take_set_of_le (Nat.le_refl _), h3]
  rfl

theorem pushAll_holds {b : Buf} {bs : Bytes} (h : b.Holds bs) (vs : Bytes)
    (hl : bs.length + vs.length ≤ bufSize) :
    ∃ b', b.pushAll vs = some b' ∧ b'.Holds (bs ++ vs) := by
  induction vs generalizing b bs with
  | nil => exact ⟨b, rfl, by simpa using h⟩
  | cons v vs ih =>
    simp only [List.length_cons] at hl
    obtain ⟨b1, e1, h1⟩ := push_holds h v (by omega)
    obtain ⟨b2, e2, h2⟩ := ih h1 (by simp; omega)
    exact ⟨b2, by simp [Buf.pushAll, e1, e2], by simpa using h2⟩

theorem le4 (v : Nat) : leBytes 4 v = [UInt8.ofNat (v % 256), UInt8.ofNat (v / 2 ^ 8 % 256),
    UInt8.ofNat (v / 2 ^ 16 % 256), UInt8.ofNat (v / 2 ^ 24 % 256)] := by
  simp only [leBytes, Nat.div_div_eq_div_mul]

mutual
  theorem Op.run_holds (op : Op) {b : Buf} {bs : Bytes} (h : b.Holds bs) (hs : op.Short)
      (hl : bs.length + op.bytes.length ≤ bufSize) :
      ∃ b', op.run b = some b' ∧ b'.Holds (bs ++ op.bytes) := by
    have h2 := h.2.1
    match op with
    | .value v =>
      simp only [Op.bytes, List.length_singleton] at hl
      simp only [Op.run, Buf.concatValue, Op.bytes]
      rw [if_pos (by omega)]; exact push_holds h v (by omega)
    | .bool v =>
      simp only [Op.bytes, List.length_singleton] at hl
      simp only [Op.run, Buf.concatBool, Buf.concatValue, Op.bytes]
      rw [if_pos (by omega)]; exact push_holds h _ (by omega)
    | .u32 v =>
      simp only [Op.bytes, length_leBytes] at hl
      simp only [Op.run, Buf.concatU32, Op.bytes, ← le4]
      rw [if_pos (by omega)]; exact pushAll_holds h _ (by simp; omega)
    | .str s =>
      simp only [Op.bytes, List.length_cons] at hl
      simp only [Op.Short] at hs
      simp only [Op.run, Buf.concatStr, Op.bytes]
      rw [if_pos (by omega), if_pos (by omega)]
      obtain ⟨b1, e1, g1⟩ := push_holds h (UInt8.ofNat (utf8 s).length) (by omega)
      obtain ⟨b2, e2, g2⟩ := pushAll_holds g1 (utf8 s) (by simp; omega)
      exact ⟨b2, by simp [e1, e2], by simpa using g2⟩
    | .longStr s =>
      simp only [Op.bytes, List.length_append, length_leBytes] at hl
      simp only [Op.run, Buf.concatLongStr, Op.bytes]
      have hb : bufSize = 32768 := rfl
      rw [if_pos (by omega), Nat.mod_eq_of_lt (by omega : (utf8 s).length < 2 ^ 16)]
      obtain ⟨b1, e1, g1⟩ := pushAll_holds h (leBytes 2 (utf8 s).length) (by simp; omega)
      obtain ⟨b2, e2, g2⟩ := pushAll_holds g1 (utf8 s) (by simp; omega)
      exact ⟨b2, by simp [e1, e2], by simpa using g2⟩
    | .buf ops =>
      simp only [Op.bytes] at hl
      simp only [Op.Short] at hs
      obtain ⟨b1, e1, g1⟩ := runAll_holds ops holds_new hs (by simp; omega)
      simp only [List.nil_append] at g1
      simp only [Op.run, e1, Option.bind_some, Buf.concat, Op.bytes]
      rw [if_pos (by have := g1.2.1; omega), g1.2.2]
      exact pushAll_holds h _ hl
  theorem runAll_holds (ops : List Op) {b : Buf} {bs : Bytes} (h : b.Holds bs) (hs : ShortAll ops)
      (hl : bs.length + (bytesAll ops).length ≤ bufSize) :
      ∃ b', runAll b ops = some b' ∧ b'.Holds (bs ++ bytesAll ops) := by
    match ops with
    | [] => exact ⟨b, rfl, by simpa [bytesAll] using h⟩
    | op :: ops =>
      simp only [bytesAll, List.length_append] at hl
      simp only [ShortAll] at hs
      obtain ⟨b1, e1, g1⟩ := op.run_holds h hs.1 (by omega)
      obtain ⟨b2, e2, g2⟩ := runAll_holds ops g1 hs.2 (by simp; omega)
      exact ⟨b2, by simp [runAll, e1, e2], by simpa [bytesAll] using g2⟩
end

theorem push_some {b b' : Buf} {v : UInt8} (h : b.push v = some b') : b'.size = b.size + 1 := by
  unfold Buf.push at h; split at h <;> cases h; rfl

theorem push_len {b b' : Buf} {v : UInt8} (h : b.push v = some b') :
    b'.bytes.length = b.bytes.length := by
  unfold Buf.push at h; split at h <;> cases h; simp

mutual
  /-- If a call succeeds, its strings are short and the result fits. -/
  theorem Op.run_some (op : Op) {b b' : Buf} {bs : Bytes} (h : b.Holds bs) (e : op.run b = some b') :
      op.Short ∧ bs.length + op.bytes.length ≤ bufSize := by
    have h2 := h.2.1
    match op with
    | .value v =>
      simp only [Op.run, Buf.concatValue] at e
      split at e
      · exact ⟨trivial, by simp [Op.bytes]; omega⟩
      · cases e
    | .bool v =>
      simp only [Op.run, Buf.concatBool, Buf.concatValue] at e
      split at e
      · exact ⟨trivial, by simp [Op.bytes]; omega⟩
      · cases e
    | .u32 v =>
      simp only [Op.run, Buf.concatU32] at e
      split at e
      · exact ⟨trivial, by simp [Op.bytes]; omega⟩
      · cases e
    | .str s =>
      simp only [Op.run, Buf.concatStr] at e
      split at e
      · split at e
        · exact ⟨by simp only [Op.Short]; omega, by simp [Op.bytes]; omega⟩
        · cases e
      · cases e
    | .longStr s =>
      simp only [Op.run, Buf.concatLongStr] at e
      split at e
      · exact ⟨trivial, by simp [Op.bytes]; omega⟩
      · cases e
    | .buf ops =>
      simp only [Op.run, Option.bind_eq_some_iff] at e
      obtain ⟨o, e1, e2⟩ := e
      obtain ⟨hs, hl⟩ := runAll_some ops holds_new e1
      obtain ⟨o', e1', g⟩ := runAll_holds ops holds_new hs hl
      rw [e1] at e1'; cases e1'
      simp only [Buf.concat] at e2
      split at e2
      · refine ⟨hs, ?_⟩
        have := g.2.1
        simp only [List.nil_append] at this
        simp only [Op.bytes]; omega
      · cases e2
  theorem runAll_some (ops : List Op) {b b' : Buf} {bs : Bytes} (h : b.Holds bs)
      (e : runAll b ops = some b') : ShortAll ops ∧ bs.length + (bytesAll ops).length ≤ bufSize := by
    match ops with
    | [] => exact ⟨trivial, by simpa [bytesAll] using h.le⟩
    | op :: ops =>
      simp only [runAll, Option.bind_eq_some_iff] at e
      obtain ⟨b1, e1, e2⟩ := e
      obtain ⟨hs, hl⟩ := op.run_some h e1
      obtain ⟨b1', e1', g1⟩ := op.run_holds h hs hl
      rw [e1] at e1'; cases e1'
      obtain ⟨hs2, hl2⟩ := runAll_some ops g1 e2
      exact ⟨⟨hs, hs2⟩, by simpa [bytesAll, Nat.add_assoc] using hl2⟩
end

theorem runAll_new_iff (ops : List Op) :
    (∃ b, runAll Buf.new ops = some b) ↔ ShortAll ops ∧ (bytesAll ops).length ≤ bufSize := by
  constructor
  · rintro ⟨b, e⟩
    have := runAll_some ops holds_new e
    simpa using this
  · rintro ⟨hs, hl⟩
    obtain ⟨b, e, _⟩ := runAll_holds ops holds_new hs (by simpa using hl)
    exact ⟨b, e⟩

theorem runAll_new_holds {ops : List Op} {b : Buf} (e : runAll Buf.new ops = some b) :
    b.Holds (bytesAll ops) := by
  obtain ⟨hs, hl⟩ := runAll_some ops holds_new e
  obtain ⟨b', e', g⟩ := runAll_holds ops holds_new hs hl
  rw [e] at e'; cases e'
  simpa using g

theorem emit_eq (ops : List Op) (bs : Bytes) :
    emit ops = some bs ↔ ShortAll ops ∧ (bytesAll ops).length ≤ bufSize ∧ bs = bytesAll ops := by
  simp only [emit, Option.bind_eq_some_iff]
  constructor
  · rintro ⟨b, e, e2⟩
    have g := runAll_new_holds e
    obtain ⟨hs, hl⟩ := (runAll_new_iff ops).1 ⟨b, e⟩
    refine ⟨hs, hl, ?_⟩
    unfold Buf.intoArray at e2
    split at e2
    · cases e2; exact g.2.2
    · cases e2
  · rintro ⟨hs, hl, rfl⟩
    obtain ⟨b, e⟩ := (runAll_new_iff ops).2 ⟨hs, hl⟩
    have g := runAll_new_holds e
    refine ⟨b, e, ?_⟩
    unfold Buf.intoArray
    rw [if_pos (by have := g.1; have := g.2.1; omega), g.2.2]

theorem bytesAll_append (a b : List Op) : bytesAll (a ++ b) = bytesAll a ++ bytesAll b := by
  induction a with
  | nil => rfl
  | cons x a ih => simp [bytesAll, ih]

theorem shortAll_append (a b : List Op) : ShortAll (a ++ b) ↔ ShortAll a ∧ ShortAll b := by
  induction a with
  | nil => simp [ShortAll]
  | cons x a ih => simp [ShortAll, ih, and_assoc]

theorem fnv_fold (bs : Bytes) (h : UInt64) :
    (bs.foldl fnvStep h).toNat =
      bs.foldl (fun h b => (h ^^^ b.toNat) * 1099511628211 % 2 ^ 64) h.toNat := by
  induction bs generalizing h with
  | nil => rfl
  | cons b bs ih =>
    have e : (fnvStep h b).toNat = (h.toNat ^^^ b.toNat) * 1099511628211 % 2 ^ 64 := by
      simp only [fnvStep, UInt64.toNat_mul, UInt64.toNat_xor, UInt8.toNat_toUInt64]
      congr 1
    simp only [List.foldl_cons]
    rw [ih, e]

theorem fold16_eq (h : UInt64) :
    fold16 h = UInt16.ofNat (h.toNat % 2 ^ 16 ^^^ h.toNat / 2 ^ 16 % 2 ^ 16 ^^^
      h.toNat / 2 ^ 32 % 2 ^ 16 ^^^ h.toNat / 2 ^ 48) := by
  apply UInt16.toNat_inj.mp
  have hl := h.toNat_lt
  have e : h.toNat / 2 ^ 48 = h.toNat / 2 ^ 48 % 2 ^ 16 := by omega
  rw [e]
  simp only [fold16, UInt64.toNat_toUInt16, UInt64.toNat_xor, UInt64.toNat_shiftRight, UInt16.toNat_ofNat']
  simp only [Nat.xor_mod_two_pow, Nat.shiftRight_eq_div_pow]
  simp

theorem calcChecksum_eq (bs : Bytes) (n : Nat) : calcChecksum bs n = fnv16 (bs.take n) := by
  have e : (0xcbf29ce484222325 : UInt64).toNat = 14695981039346656037 := by decide +kernel
  simp only [calcChecksum, fnv16, fold16_eq, fnv_fold, fnv1a, e]

end Verif.Meta
