import Verif.Wire.ForeignLeaf
/-
The converters of the builtin types in Kotlin, Swift and Ruby.
-/
namespace Verif.Wire
open Verif

theorem inRange_i32 {n : Nat} (h : n < 2 ^ 31) : IntTy.InRange .i32 (n : Int) :=
  inRange_i32_natCast h

/-- The parts of a written instant. -/
theorem writeTime_parts {ns : Int} {p : Bytes} (h : writeTime ns = some p) :
    ∃ sec : Int, ∃ n : Nat, p = writeInt .i64 sec ++ writeInt .u32 (n : Int) ∧
      IntTy.InRange .i64 sec ∧ n < 1000000000 ∧ n = ns.natAbs % 1000000000 ∧
      sec = (if 0 ≤ ns then 1 else -1) * ((ns.natAbs / 1000000000 : Nat) : Int) := by
  obtain ⟨hb, hp⟩ := writeTime_eq_some.1 h
  refine ⟨_, _, hp, ?_, by omega, rfl, rfl⟩
  apply inRange_i64 <;> split <;> omega

/-! ### Kotlin -/

namespace Kotlin

/-- Builtin values Kotlin can hold: instants in the range of `Instant`, durations whose seconds
fit a `Long`. -/
def Exact : Ty → Val → Prop
  | .timestamp, .time ns => instantMin ≤ ns ∧ ns < instantEnd ∧ ¬(-1000000000 < ns ∧ ns < 0)
  | .duration, .dur s _ => s < 2 ^ 63
  | _, _ => True

/-- What a written instant reads back as in Kotlin. -/
theorem readTime_write {ns : Int} {p : Bytes} (h : Wire.writeTime ns = some p) (rest : Bytes)
    (h1 : instantMin ≤ ns) (h2 : ns < instantEnd) :
    readTime (p ++ rest) = .ok (.time (if -1000000000 < ns ∧ ns < 0 then -ns else ns)) rest := by
  obtain ⟨sec, n, rfl, hr, hn, hn2, hsec⟩ := writeTime_parts h
  unfold readTime
  rw [List.append_assoc, readInt_writeInt hr,
    writeInt_signed_unsigned (t := .u32) (u := .i32) rfl]
  simp only [Res.bind_ok, readInt_writeInt (inRange_i32 (show n < 2 ^ 31 by omega))]
  rw [if_neg (by omega)]
  have e : (if 0 ≤ sec then 1 else -1) * ((sec.natAbs : Int) * 1000000000 + (n : Int)) =
      (if -1000000000 < ns ∧ ns < 0 then -ns else ns) := by
    split at hsec <;> split <;> split <;> omega
  have e3 : instant (if -1000000000 < ns ∧ ns < 0 then -ns else ns) =
      some (.time (if -1000000000 < ns ∧ ns < 0 then -ns else ns)) := by
    unfold instant
    rw [if_pos]
    unfold instantMin instantEnd at *
    split <;> omega
  rw [e, e3]

theorem readTime_ok {ns : Int} {p : Bytes} (h : Wire.writeTime ns = some p) (rest : Bytes)
    (hk : Exact .timestamp (.time ns)) : readTime (p ++ rest) = .ok (.time ns) rest := by
  simp only [Exact] at hk
  obtain ⟨h1, h2, h3⟩ := hk
  rw [readTime_write h rest h1 h2, if_neg h3]

theorem writeTime_ok {ns : Int} {p : Bytes} (h : Wire.writeTime ns = some p) :
    writeTime (.time ns) = some p := by
  obtain ⟨hb, rfl⟩ := writeTime_eq_some.1 h
  simp only [writeTime]
  have e : (if ns < 0 then (-1 : Int) else 1) = if 0 ≤ ns then 1 else -1 := by
    split <;> split <;> omega
  rw [e, writeInt_signed_unsigned (t := .i32) (u := .u32) rfl]

theorem readDur_ok {s n : Nat} (hn : n < 1000000000) (rest : Bytes)
    (hk : Exact .duration (.dur s n)) :
    readDur (Wire.writeDur s n ++ rest) = .ok (.dur s n) rest := by
  simp only [Exact] at hk
  unfold readDur Wire.writeDur
  rw [List.append_assoc, writeInt_signed_unsigned (t := .u64) (u := .i64) rfl,
    writeInt_signed_unsigned (t := .u32) (u := .i32) rfl,
    readInt_writeInt (inRange_i64 (by omega) (by omega))]
  simp only [Res.bind_ok, readInt_writeInt (inRange_i32 (show n < 2 ^ 31 by omega))]
  rw [if_neg (by omega), if_neg (by omega)]
  have e0 : (n : Int).toNat = n := by omega
  have e1 : (s : Int).toNat = s := by omega
  have e2 : ofSeconds s n = some (.dur s n) := by
    have e3 : n / 1000000000 = 0 := by omega
    have e4 : n % 1000000000 = n := by omega
    unfold ofSeconds
    rw [e3, e4, if_pos (by omega), Nat.add_zero]
  rw [e0, e1, e2]

theorem writeDur_ok {s n : Nat} (hk : Exact .duration (.dur s n)) :
    writeDur (.dur s n) = some (Wire.writeDur s n) := by
  simp only [Exact] at hk
  simp only [writeDur, Wire.writeDur]
  rw [if_pos hk, writeInt_signed_unsigned (t := .u64) (u := .i64) rfl,
    writeInt_signed_unsigned (t := .u32) (u := .i32) rfl]

theorem readCount_ok {n : Nat} (h : n < 2 ^ 31) (rest : Bytes) :
    readCount (beBytes 4 n ++ rest) = .ok n rest := by
  unfold readCount
  rw [readI32_count h]
  simp

theorem writeCount_ok {n : Nat} {p : Bytes} (h : writeLen n = some p) : writeCount n = some p := by
  obtain ⟨h1, rfl⟩ := writeLen_eq_some.1 h
  simp only [writeCount]
  rw [if_pos h1, writeInt_i32_natCast h1]

/-- Reading the signed number and converting it is reading the unsigned number. -/
theorem readInt_eq (t : IntTy) (bs : Bytes) : readInt t bs = (Wire.readInt t bs).map .int := by
  unfold readInt Wire.readInt
  cases hb : takeN t.width bs with
  | ok b r =>
    simp only [Res.map_ok]
    obtain ⟨_, hl⟩ := takeN_eq_ok.1 hb
    have hlt := beNat_lt b
    rw [hl] at hlt
    rw [toUnsigned_toSigned hlt]
    unfold decodeInt
    rfl
  | err e => rfl
  | panic => rfl
  | deep => rfl

theorem readLeaf_ok {lossy : Bytes → String} {env : Env} {t : Ty} {v : Val} {bs rest : Bytes}
    (hl : t.isLeaf = true) (ht : HasTy env t v) (hk : Exact t v) (hw : write env t v = some bs) :
    readLeaf lossy t (bs ++ rest) = .ok (repr (lang lossy) v) rest := by
  cases t <;> cases v <;> simp [HasTy, Ty.isLeaf] at ht hl
  case int.int t z =>
    simp [write] at hw; subst hw
    simp [readLeaf, readInt_eq, readInt_writeInt ht, repr, lang]
  case f32.float b =>
    simp [write] at hw; subst hw
    simp [readLeaf, readNat_beBytes (n := 4) (v := b) (by omega), repr, lang]
  case f64.float b =>
    simp [write] at hw; subst hw
    simp [readLeaf, readNat_beBytes (n := 8) (v := b) (by omega), repr, lang]
  case bool.bool b =>
    simp [write] at hw; subst hw
    unfold Wire.writeBool
    cases b <;> simp [readLeaf, readBool, readTag_i8, repr, lang]
  case string.str s =>
    simp only [write, Wire.writeStr, Option.map_eq_some_iff] at hw
    obtain ⟨p, hp, rfl⟩ := hw
    obtain ⟨h1, rfl⟩ := writeLen_eq_some.1 hp
    simp only [readLeaf, readStr, List.append_assoc, readCount_ok h1, Res.bind_ok, takeN_append,
      Res.map_ok, fromUtf8_utf8, repr, lang]
  case timestamp.time ns =>
    simp only [write] at hw
    simp only [readLeaf, readTime_ok hw rest hk, repr, lang]
  case duration.dur s n =>
    simp only [write, Option.some.injEq] at hw; subst hw
    simp only [readLeaf, readDur_ok ht.2 rest hk, repr, lang]
  case handle.handle h =>
    simp [write] at hw; subst hw
    simp [readLeaf, readNat_beBytes (n := 8) (v := h) (by omega), repr, lang]
  case seq.seq t vs =>
    subst hl
    obtain ⟨b, rfl, hb, rfl⟩ := write_bytes ht hw
    simp only [readLeaf, freadBytes_ok (fun r => readCount_ok hb r), repr]
    rw [reprAll_bytesVal (fun _ => rfl)]

theorem writeLeaf_ok {lossy : Bytes → String} {env : Env} {t : Ty} {v : Val} {bs : Bytes}
    (hl : t.isLeaf = true) (ht : HasTy env t v) (hk : Exact t v) (hw : write env t v = some bs) :
    writeLeaf t (repr (lang lossy) v) = some bs := by
  cases t <;> cases v <;> simp [HasTy, Ty.isLeaf] at ht hl
  case int.int t z =>
    simp [write] at hw; subst hw
    simp [writeLeaf, writeIntV, ht, writeInt, repr, lang]
  case f32.float b =>
    simp [write] at hw; subst hw
    simp [writeLeaf, fwriteBits, ht, repr, lang]
  case f64.float b =>
    simp [write] at hw; subst hw
    simp [writeLeaf, fwriteBits, ht, repr, lang]
  case bool.bool b =>
    simp [write] at hw; subst hw
    cases b <;> rfl
  case string.str s =>
    simp only [write, Wire.writeStr, Option.map_eq_some_iff] at hw
    obtain ⟨p, hp, rfl⟩ := hw
    simp only [writeLeaf, writeStr, repr, lang, writeCount_ok hp, Option.map_some]
  case timestamp.time ns =>
    simp only [write] at hw
    simp only [writeLeaf, repr, lang, writeTime_ok hw]
  case duration.dur s n =>
    simp only [write, Option.some.injEq] at hw; subst hw
    simp only [writeLeaf, repr, lang, writeDur_ok hk]
  case handle.handle h =>
    simp [write] at hw; subst hw
    simp [writeLeaf, fwriteHandle, repr, lang, ht]
  case seq.seq t vs =>
    subst hl
    obtain ⟨b, rfl, hb, rfl⟩ := write_bytes ht hw
    simp only [writeLeaf, repr]
    rw [reprAll_bytesVal (fun _ => rfl)]
    exact fwriteBytes_ok (writeCount_ok (writeLen_eq_some.2 ⟨hb, rfl⟩))

theorem readsLike (lossy : Bytes → String) (env : Env) (w : Bool) :
    ReadsLike (lang lossy) env (fun t v => Exact t v ∧ Compound (lang lossy) env w t v) where
  leaf t v bs rest hl ht hk hw := readLeaf_ok hl ht hk.1 hw
  tag0 rest := by simp [lang, readTag_i8]
  tag1 rest := by simp [lang, readTag_i8]
  count n p rest h := by
    obtain ⟨h1, rfl⟩ := writeLen_eq_some.1 h; exact readCount_ok h1 rest
  variant n p rest h := readVariantNumber h rest
  none := rfl
  keys k u es h := by simpa only [Compound] using h.2
  elems u vs h := by simpa only [Compound] using h.2

theorem writesLike (lossy : Bytes → String) (env : Env) :
    WritesLike (lang lossy) env (fun t v => Exact t v ∧ Compound (lang lossy) env true t v) := by
  refine ⟨fun t v bs hl ht hk hw => writeLeaf_ok hl ht hk.1 hw, fun n p h => ?_, fun n p h => ?_,
    rfl, fun t v h => ?_⟩
  · simp only [lang]; exact writeCount_ok h
  · simp only [lang]; exact writeCount_ok h
  · have := h.2
    simpa only [Compound, forall_const] using this

end Kotlin

/-! ### Swift -/

namespace Swift

/-- `Date` and `TimeInterval` are not modelled. -/
def Exact : Ty → Val → Prop
  | .timestamp, _ => False
  | .duration, _ => False
  | _, _ => True

theorem readCount_ok {n : Nat} (h : n < 2 ^ 31) (rest : Bytes) :
    readCount (beBytes 4 n ++ rest) = .ok n rest := by
  unfold readCount
  rw [readI32_count h]
  simp

theorem writeCount_ok {n : Nat} {p : Bytes} (h : writeLen n = some p) : writeCount n = some p := by
  obtain ⟨h1, rfl⟩ := writeLen_eq_some.1 h
  simp only [writeCount]
  rw [if_pos h1, writeInt_i32_natCast h1]

theorem readLeaf_ok {lossy : Bytes → String} {env : Env} {t : Ty} {v : Val} {bs rest : Bytes}
    (hl : t.isLeaf = true) (ht : HasTy env t v) (hk : Exact t v) (hw : write env t v = some bs) :
    readLeaf lossy t (bs ++ rest) = .ok (repr (lang lossy) v) rest := by
  cases t <;> cases v <;> simp [HasTy, Ty.isLeaf] at ht hl
  case int.int t z =>
    simp [write] at hw; subst hw
    simp [readLeaf, readInt_writeInt ht, repr, lang]
  case f32.float b =>
    simp [write] at hw; subst hw
    simp [readLeaf, readNat_beBytes (n := 4) (v := b) (by omega), repr, lang]
  case f64.float b =>
    simp [write] at hw; subst hw
    simp [readLeaf, readNat_beBytes (n := 8) (v := b) (by omega), repr, lang]
  case bool.bool b =>
    simp [write] at hw; subst hw
    unfold Wire.writeBool
    cases b <;> simp [readLeaf, readBool, readTag_i8, repr, lang]
  case string.str s =>
    simp only [write, Wire.writeStr, Option.map_eq_some_iff] at hw
    obtain ⟨p, hp, rfl⟩ := hw
    obtain ⟨h1, rfl⟩ := writeLen_eq_some.1 hp
    simp only [readLeaf, readStr, List.append_assoc, readCount_ok h1, Res.bind_ok, takeN_append,
      Res.map_ok, fromUtf8_utf8, repr, lang]
  case timestamp.time ns => exact hk.elim
  case duration.dur s n => exact hk.elim
  case handle.handle h =>
    simp [write] at hw; subst hw
    simp [readLeaf, readNat_beBytes (n := 8) (v := h) (by omega), repr, lang]
  case seq.seq t vs =>
    subst hl
    obtain ⟨b, rfl, hb, rfl⟩ := write_bytes ht hw
    simp only [readLeaf, freadBytes_ok (fun r => readCount_ok hb r), repr]
    rw [reprAll_bytesVal (fun _ => rfl)]

theorem writeLeaf_ok {lossy : Bytes → String} {env : Env} {t : Ty} {v : Val} {bs : Bytes}
    (hl : t.isLeaf = true) (ht : HasTy env t v) (hk : Exact t v) (hw : write env t v = some bs) :
    writeLeaf t (repr (lang lossy) v) = some bs := by
  cases t <;> cases v <;> simp [HasTy, Ty.isLeaf] at ht hl
  case int.int t z =>
    simp [write] at hw; subst hw
    simp [writeLeaf, fwriteInt_ok ht, repr, lang]
  case f32.float b =>
    simp [write] at hw; subst hw
    simp [writeLeaf, fwriteBits, ht, repr, lang]
  case f64.float b =>
    simp [write] at hw; subst hw
    simp [writeLeaf, fwriteBits, ht, repr, lang]
  case bool.bool b =>
    simp [write] at hw; subst hw
    cases b <;> rfl
  case string.str s =>
    simp only [write, Wire.writeStr, Option.map_eq_some_iff] at hw
    obtain ⟨p, hp, rfl⟩ := hw
    simp only [writeLeaf, writeStr, repr, lang, writeCount_ok hp, Option.map_some]
  case timestamp.time ns => exact hk.elim
  case duration.dur s n => exact hk.elim
  case handle.handle h =>
    simp [write] at hw; subst hw
    simp [writeLeaf, fwriteHandle, repr, lang, ht]
  case seq.seq t vs =>
    subst hl
    obtain ⟨b, rfl, hb, rfl⟩ := write_bytes ht hw
    simp only [writeLeaf, repr]
    rw [reprAll_bytesVal (fun _ => rfl)]
    exact fwriteBytes_ok (writeCount_ok (writeLen_eq_some.2 ⟨hb, rfl⟩))

theorem readsLike (lossy : Bytes → String) (env : Env) (w : Bool) :
    ReadsLike (lang lossy) env (fun t v => Exact t v ∧ Compound (lang lossy) env w t v) where
  leaf t v bs rest hl ht hk hw := readLeaf_ok hl ht hk.1 hw
  tag0 rest := by simp [lang, readTag_i8]
  tag1 rest := by simp [lang, readTag_i8]
  count n p rest h := by
    obtain ⟨h1, rfl⟩ := writeLen_eq_some.1 h; exact readCount_ok h1 rest
  variant n p rest h := readVariantNumber h rest
  none := rfl
  keys k u es h := by simpa only [Compound] using h.2
  elems u vs h := by simpa only [Compound] using h.2

theorem writesLike (lossy : Bytes → String) (env : Env) :
    WritesLike (lang lossy) env (fun t v => Exact t v ∧ Compound (lang lossy) env true t v) := by
  refine ⟨fun t v bs hl ht hk hw => writeLeaf_ok hl ht hk.1 hw, fun n p h => ?_, fun n p h => ?_,
    rfl, fun t v h => ?_⟩
  · simp only [lang]; exact writeCount_ok h
  · simp only [lang]; exact writeCount_ok h
  · intro hn; simp [lang] at hn

end Swift

/-! ### Ruby -/

namespace Ruby

/-- Builtin values the Ruby code gets right: `u8` up to 127 (outside byte arrays), and durations
whose seconds fit an `i64`. -/
def Exact : Ty → Val → Prop
  | .int .u8, .int z => z < 128
  | .timestamp, .time ns => ¬(-1000000000 < ns ∧ ns < 0)
  | .duration, .dur s _ => s < 2 ^ 63
  | _, _ => True

/-- What a written instant reads back as in Ruby. -/
theorem readTime_write {ns : Int} {p : Bytes} (h : Wire.writeTime ns = some p) (rest : Bytes) :
    readTime (p ++ rest) = .ok (.time (if -1000000000 < ns ∧ ns < 0 then -ns else ns)) rest := by
  obtain ⟨sec, n, rfl, hr, hn, hn2, hsec⟩ := writeTime_parts h
  unfold readTime
  rw [List.append_assoc, readInt_writeInt hr]
  simp only [Res.bind_ok, readInt_writeInt (inRange_u32 (show n < 2 ^ 32 by omega))]
  split
  · congr 2; split at hsec <;> split <;> omega
  · congr 2; split at hsec <;> split <;> omega

theorem writeTime_ok {ns : Int} {p : Bytes} (h : Wire.writeTime ns = some p) :
    writeTime (.time ns) = some p := by
  obtain ⟨hb, rfl⟩ := writeTime_eq_some.1 h
  simp only [writeTime]
  have h1 : IntTy.InRange .i64
      ((if 0 ≤ ns then 1 else -1) * ((ns.natAbs / 1000000000 : Nat) : Int)) := by
    apply inRange_i64 <;> split <;> omega
  have h2 : IntTy.InRange .u32 ((ns.natAbs % 1000000000 : Nat) : Int) := inRange_u32 (by omega)
  have e : (if ns / 1000000000 < 0 ∧ ns % 1000000000 ≠ 0 then
      (ns / 1000000000 + 1, 1000000000 - ns % 1000000000)
      else (ns / 1000000000, ns % 1000000000)) =
      ((if 0 ≤ ns then 1 else -1) * ((ns.natAbs / 1000000000 : Nat) : Int),
        ((ns.natAbs % 1000000000 : Nat) : Int)) := by
    split <;> split <;> simp only [Prod.mk.injEq] <;> constructor <;> omega
  rw [e]
  simp only [fwriteInt_ok h1, fwriteInt_ok h2]
  rfl

theorem readDur_ok {s n : Nat} (hn : n < 1000000000) (rest : Bytes)
    (hk : Exact .duration (.dur s n)) :
    readDur (Wire.writeDur s n ++ rest) = .ok (.time ((s : Int) * 1000000000 + n)) rest := by
  simp only [Exact] at hk
  unfold readDur Wire.writeDur
  rw [List.append_assoc, writeInt_signed_unsigned (t := .u64) (u := .i64) rfl,
    readInt_writeInt (inRange_i64 (by omega) (by omega))]
  simp only [Res.bind_ok, readInt_writeInt (inRange_u32 (show n < 2 ^ 32 by omega))]

theorem writeDur_ok {s n : Nat} (hs : s < 2 ^ 64) (hn : n < 1000000000) :
    writeDur (.time ((s : Int) * 1000000000 + n)) = some (Wire.writeDur s n) := by
  simp only [writeDur, Wire.writeDur]
  have e1 : ((s : Int) * 1000000000 + n) / 1000000000 = s := by omega
  have e2 : ((s : Int) * 1000000000 + n) % 1000000000 = n := by omega
  rw [e1, e2, if_neg (by omega), fwriteInt_ok (inRange_u64 hs),
    fwriteInt_ok (inRange_u32 (show n < 2 ^ 32 by omega))]
  rfl

theorem readCount_ok {n : Nat} (h : n < 2 ^ 31) (rest : Bytes) :
    readCount (beBytes 4 n ++ rest) = .ok n rest := by
  unfold readCount
  rw [readI32_count h]
  simp

theorem writeCount_ok {n : Nat} {p : Bytes} (h : writeLen n = some p) : writeCount n = some p := by
  obtain ⟨h1, rfl⟩ := writeLen_eq_some.1 h
  rfl

theorem readInt_ok {t : IntTy} {z : Int} (h : t.InRange z) (hk : Exact (.int t) (.int z))
    (rest : Bytes) : readInt t (writeInt t z ++ rest) = .ok (.int z) rest := by
  cases t <;> simp only [readInt]
  case u8 =>
    have h' : IntTy.InRange .i8 z := by
      simp only [Exact] at hk
      simp [IntTy.InRange, IntTy.signed, IntTy.width] at h ⊢
      omega
    rw [writeInt_signed_unsigned (t := .u8) (u := .i8) rfl, readInt_writeInt h']
    rfl
  all_goals rw [readInt_writeInt h]; rfl

theorem readLeaf_ok {env : Env} {t : Ty} {v : Val} {bs rest : Bytes}
    (hl : t.isLeaf = true) (ht : HasTy env t v) (hk : Exact t v) (hw : write env t v = some bs) :
    readLeaf t (bs ++ rest) = .ok (repr lang v) rest := by
  cases t <;> cases v <;> simp [HasTy, Ty.isLeaf] at ht hl
  case int.int t z =>
    simp only [write, Option.some.injEq] at hw; subst hw
    simp only [readLeaf, readInt_ok ht hk, repr, lang]
  case f32.float b =>
    simp [write] at hw; subst hw
    simp [readLeaf, readNat_beBytes (n := 4) (v := b) (by omega), repr, lang]
  case f64.float b =>
    simp [write] at hw; subst hw
    simp [readLeaf, readNat_beBytes (n := 8) (v := b) (by omega), repr, lang]
  case bool.bool b =>
    simp [write] at hw; subst hw
    unfold Wire.writeBool
    cases b <;> simp [readLeaf, readBool, readTag_i8, repr, lang]
  case string.str s =>
    simp only [write, Wire.writeStr, Option.map_eq_some_iff] at hw
    obtain ⟨p, hp, rfl⟩ := hw
    obtain ⟨h1, rfl⟩ := writeLen_eq_some.1 hp
    simp only [readLeaf, readStr, List.append_assoc, readCount_ok h1, Res.bind_ok, takeN_append,
      Res.map_ok, fromUtf8_utf8, repr, lang]
  case timestamp.time ns =>
    simp only [write] at hw
    simp only [Exact] at hk
    simp only [readLeaf, readTime_write hw rest, repr, lang, if_neg hk]
  case duration.dur s n =>
    simp only [write, Option.some.injEq] at hw; subst hw
    simp only [readLeaf, readDur_ok ht.2 rest hk, repr, lang]
  case handle.handle h =>
    simp [write] at hw; subst hw
    simp [readLeaf, readNat_beBytes (n := 8) (v := h) (by omega), repr, lang]
  case seq.seq t vs =>
    subst hl
    obtain ⟨b, rfl, hb, rfl⟩ := write_bytes ht hw
    simp only [readLeaf, freadBytes_ok (fun r => readCount_ok hb r), repr]
    rw [reprAll_bytesVal (fun _ => rfl)]

theorem writeLeaf_ok {env : Env} {t : Ty} {v : Val} {bs : Bytes}
    (hl : t.isLeaf = true) (ht : HasTy env t v) (hw : write env t v = some bs) :
    writeLeaf t (repr lang v) = some bs := by
  cases t <;> cases v <;> simp [HasTy, Ty.isLeaf] at ht hl
  case int.int t z =>
    simp [write] at hw; subst hw
    simp [writeLeaf, fwriteInt_ok ht, repr, lang]
  case f32.float b =>
    simp [write] at hw; subst hw
    simp [writeLeaf, fwriteBits, ht, repr, lang]
  case f64.float b =>
    simp [write] at hw; subst hw
    simp [writeLeaf, fwriteBits, ht, repr, lang]
  case bool.bool b =>
    simp [write] at hw; subst hw
    cases b <;> rfl
  case string.str s =>
    simp only [write, Wire.writeStr, Option.map_eq_some_iff] at hw
    obtain ⟨p, hp, rfl⟩ := hw
    simp only [writeLeaf, writeStr, repr, lang, writeCount_ok hp, Option.map_some]
  case timestamp.time ns =>
    simp only [write] at hw
    simp only [writeLeaf, repr, lang, writeTime_ok hw]
  case duration.dur s n =>
    simp only [write, Option.some.injEq] at hw; subst hw
    simp only [writeLeaf, repr, lang, writeDur_ok ht.1 ht.2]
  case handle.handle h =>
    simp [write] at hw; subst hw
    simp [writeLeaf, fwriteHandle, repr, lang, ht]
  case seq.seq t vs =>
    subst hl
    obtain ⟨b, rfl, hb, rfl⟩ := write_bytes ht hw
    simp only [writeLeaf, repr]
    rw [reprAll_bytesVal (fun _ => rfl)]
    exact fwriteBytes_ok (writeCount_ok (writeLen_eq_some.2 ⟨hb, rfl⟩))

theorem readsLike (env : Env) (w : Bool) :
    ReadsLike lang env (fun t v => Exact t v ∧ Compound lang env w t v) where
  leaf t v bs rest hl ht hk hw := readLeaf_ok hl ht hk.1 hw
  tag0 rest := by simp [lang, readTag_i8]
  tag1 rest := by simp [lang, readTag_i8]
  count n p rest h := by
    obtain ⟨h1, rfl⟩ := writeLen_eq_some.1 h; exact readCount_ok h1 rest
  variant n p rest h := readVariantNumber h rest
  none := rfl
  keys k u es h := by simpa only [Compound] using h.2
  elems u vs h := by simpa only [Compound] using h.2

theorem writesLike (env : Env) :
    WritesLike lang env (fun t v => Compound lang env true t v) := by
  refine ⟨fun t v bs hl ht hk hw => writeLeaf_ok hl ht hw, fun n p h => ?_, fun n p h => ?_,
    rfl, fun t v h => ?_⟩
  · simp only [lang]; exact writeCount_ok h
  · simp only [lang]; exact writeCount_ok h
  · simpa only [Compound, forall_const] using h

end Ruby
end Verif.Wire
