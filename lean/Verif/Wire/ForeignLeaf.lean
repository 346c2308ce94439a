import Verif.Wire.ForeignLemmas
import Verif.Wire.Lemmas4
/-
The converters of the builtin types, language by language.
-/
namespace Verif.Wire
open Verif

/-! ### Byte arrays -/

/-- The value of a byte array. -/
def bytesVal (b : Bytes) : List Val := b.map fun x => .int x.toNat

theorem writeInt_u8 (x : UInt8) : writeInt .u8 (x.toNat : Int) = [x] := by
  have h := x.toNat_lt
  unfold writeInt
  rw [toUnsigned_natCast (by simpa [IntTy.width] using h)]
  simp [IntTy.width, beBytes]

theorem write_bytes {env : Env} {vs : List Val} {bs : Bytes} (ht : HasTyAll env (.int .u8) vs)
    (hw : write env (.seq (.int .u8)) (.seq vs) = some bs) :
    ∃ b : Bytes, vs = bytesVal b ∧ b.length < 2 ^ 31 ∧ bs = beBytes 4 b.length ++ b := by
  simp only [write, Option.bind_eq_some_iff, Option.map_eq_some_iff] at hw
  obtain ⟨p, hp, c, hc, rfl⟩ := hw
  obtain ⟨hl, rfl⟩ := writeLen_eq_some.1 hp
  have key : ∀ (vs : List Val) (c : Bytes), HasTyAll env (.int .u8) vs →
      writeAll env (.int .u8) vs = some c → vs = bytesVal c := by
    intro vs
    induction vs with
    | nil => intro c _ h; simp [writeAll] at h; subst h; rfl
    | cons v vs ih =>
      intro c ht h
      simp only [writeAll, Option.bind_eq_some_iff, Option.map_eq_some_iff] at h
      obtain ⟨a, ha, d, hd, rfl⟩ := h
      simp only [HasTyAll] at ht
      have hv := ht.1
      cases v <;> simp [HasTy] at hv
      rename_i z
      simp [write] at ha
      simp [IntTy.InRange, IntTy.signed, IntTy.width] at hv
      obtain ⟨n, rfl⟩ := Int.eq_ofNat_of_zero_le hv.1
      have hn : n < 256 := by omega
      have e : (UInt8.ofNat n).toNat = n := by simp; omega
      have e2 := writeInt_u8 (UInt8.ofNat n)
      rw [e] at e2
      have ha' : writeInt .u8 (n : Int) = a := ha
      rw [e2] at ha'
      subst ha'
      have ih' := ih d ht.2 hd
      simp [bytesVal] at ih' ⊢
      exact ⟨by omega, ih'⟩
  have hk := key vs c ht hc
  subst hk
  refine ⟨c, rfl, ?_, ?_⟩
  · simpa [bytesVal] using hl
  · simp [bytesVal]

theorem reprAll_bytesVal {L : Lang} (h : ∀ z, L.leaf (.int z) = .int z) (b : Bytes) :
    reprAll L (bytesVal b) = bytesVal b := by
  induction b with
  | nil => rfl
  | cons x b ih => simp [bytesVal, reprAll, repr, h] at ih ⊢; exact ih

theorem freadBytes_ok {count : Bytes → Res Nat} {b rest : Bytes}
    (hc : ∀ rest, count (beBytes 4 b.length ++ rest) = .ok b.length rest) :
    freadBytes count (beBytes 4 b.length ++ b ++ rest) = .ok (.seq (bytesVal b)) rest := by
  simp [freadBytes, hc, takeN_append, bytesVal]

theorem mapM_byteOf (b : Bytes) : (bytesVal b).mapM byteOf = some b := by
  induction b with
  | nil => rfl
  | cons x b ih =>
    have h := x.toNat_lt
    have h2 : (x.toNat : Int) < 256 := by omega
    simp only [bytesVal, List.map_cons] at ih ⊢
    simp [List.mapM_cons, byteOf, ih, h2]

theorem fwriteBytes_ok {count : Nat → Option Bytes} {b : Bytes}
    (hc : count b.length = some (beBytes 4 b.length)) :
    fwriteBytes count (.seq (bytesVal b)) = some (beBytes 4 b.length ++ b) := by
  simp [fwriteBytes, mapM_byteOf, hc]

theorem readI32_count {n : Nat} (h : n < 2 ^ 31) (rest : Bytes) :
    readInt .i32 (beBytes 4 n ++ rest) = .ok (n : Int) rest := by
  rw [← writeInt_i32_natCast h]; exact readInt_writeInt (inRange_i32_natCast h) rest

theorem fwriteInt_ok {t : IntTy} {z : Int} (h : t.InRange z) :
    fwriteInt t (.int z) = some (writeInt t z) := by simp [fwriteInt, h]

theorem inRange_u32 {n : Nat} (h : n < 2 ^ 32) : IntTy.InRange .u32 (n : Int) := by
  simp [IntTy.InRange, IntTy.signed, IntTy.width]; omega
theorem inRange_u64 {n : Nat} (h : n < 2 ^ 64) : IntTy.InRange .u64 (n : Int) := by
  simp [IntTy.InRange, IntTy.signed, IntTy.width]; omega
theorem inRange_i64 {z : Int} (h : -(2 ^ 63) ≤ z) (h2 : z < 2 ^ 63) : IntTy.InRange .i64 z := by
  simp [IntTy.InRange, IntTy.signed, IntTy.width]; omega

/-- Small non-negative numbers look the same signed and unsigned. -/
theorem writeInt_signed_unsigned {t u : IntTy} (h : t.width = u.width) (z : Int) :
    writeInt t z = writeInt u z := by simp [writeInt, h]

theorem fwriteCount_ok {n : Nat} {p : Bytes} (h : writeLen n = some p) : fwriteCount n = some p := by
  obtain ⟨h1, rfl⟩ := writeLen_eq_some.1 h
  rw [fwriteCount, fwriteInt_ok (inRange_i32_natCast h1), writeInt_i32_natCast h1]

theorem readTag_u8 (k : Nat) (h : k < 256) (rest : Bytes) :
    readInt .u8 (beBytes 1 k ++ rest) = .ok (k : Int) rest := by
  have e : beBytes 1 k = writeInt .u8 (k : Int) := by
    unfold writeInt; rw [toUnsigned_natCast (by simpa [IntTy.width] using h)]; rfl
  rw [e]; exact readInt_writeInt (by simp [IntTy.InRange, IntTy.signed, IntTy.width]; omega) rest

theorem readTag_i8 (k : Nat) (h : k < 128) (rest : Bytes) :
    readInt .i8 (beBytes 1 k ++ rest) = .ok (k : Int) rest := by
  have e : beBytes 1 k = writeInt .i8 (k : Int) := by
    unfold writeInt; rw [toUnsigned_natCast (by simp [IntTy.width]; omega)]; rfl
  rw [e]; exact readInt_writeInt (by simp [IntTy.InRange, IntTy.signed, IntTy.width]; omega) rest

/-! ### The conditions on maps, sets and options every language shares -/

/-- Keys can be used as keys and stay distinct; with `w`, an optional holding a value does not
look like null. -/
def Compound (L : Lang) (env : Env) (w : Bool) : Ty → Val → Prop
  | .map k _, .map es =>
      ((reprPairs L es).map Prod.fst).Nodup ∧ (es ≠ [] → L.hashable env k = true)
  | .set t, .set vs => (reprAll L vs).Nodup ∧ (vs ≠ [] → L.hashable env t = true)
  | .option _, .some v => w = true → L.nullable = true → repr L v ≠ .none
  | _, _ => True

/-! ### Python -/

namespace Python

/-- Builtin values Python can hold exactly: times are whole microseconds within the years 1 to
9999, durations whole microseconds below 10^9 days, handles are not null. -/
def Exact : Ty → Val → Prop
  | .timestamp, .time ns => ns % 1000 = 0 ∧ dateMin * 1000 ≤ ns ∧ ns ≤ dateMax * 1000 ∧
      ¬(-1000000000 < ns ∧ ns < 0)
  | .duration, .dur s n => n % 1000 = 0 ∧ s < 86400 * 1000000000
  | .handle, .handle h => h ≠ 0
  | _, _ => True

theorem roundThousand_exact {n : Nat} (h : n % 1000 = 0) : roundThousand n = n / 1000 := by
  simp [roundThousand, h]

theorem timedelta_exact {s n : Nat} (h : n % 1000 = 0)
    (hb : s * 1000000 + n / 1000 < deltaEnd) :
    timedelta s n = some (s * 1000000 + n / 1000) := by
  unfold timedelta; rw [roundThousand_exact h, if_pos hb]

/-- What a written instant reads back as in Python. -/
theorem readTime_write {ns : Int} {p : Bytes} (h : Wire.writeTime ns = some p) (rest : Bytes)
    (hk : ns % 1000 = 0) (h1 : dateMin * 1000 ≤ ns) (h2 : ns ≤ dateMax * 1000) :
    readTime (p ++ rest) = .ok (.time (if -1000000000 < ns ∧ ns < 0 then -ns else ns)) rest := by
  obtain ⟨hb, rfl⟩ := writeTime_eq_some.1 h
  generalize hsec : (if 0 ≤ ns then (1 : Int) else -1) * ((ns.natAbs / 1000000000 : Nat) : Int)
    = sec
  have hr : IntTy.InRange .i64 sec := by
    apply inRange_i64 <;> (split at hsec <;> omega)
  have hr2 : IntTy.InRange .u32 ((ns.natAbs % 1000000000 : Nat) : Int) := inRange_u32 (by omega)
  unfold readTime
  rw [List.append_assoc, readInt_writeInt hr]
  simp only [Res.bind_ok, readInt_writeInt hr2]
  have habs : sec.natAbs = ns.natAbs / 1000000000 := by split at hsec <;> omega
  have e0 : ((ns.natAbs % 1000000000 : Nat) : Int).toNat = ns.natAbs % 1000000000 := by omega
  have e1 : ns.natAbs / 1000000000 * 1000000 + ns.natAbs % 1000000000 / 1000 = ns.natAbs / 1000 := by
    omega
  rw [e0, habs, timedelta_exact (by omega)
    (by rw [e1]; unfold deltaEnd; unfold dateMin dateMax at *; omega), e1]
  have e2 : (if 0 ≤ sec then ((ns.natAbs / 1000 : Nat) : Int) else -((ns.natAbs / 1000 : Nat) : Int))
      * 1000 = (if -1000000000 < ns ∧ ns < 0 then -ns else ns) := by
    split at hsec <;> split <;> split <;> omega
  have e3 : datetime (if 0 ≤ sec then ((ns.natAbs / 1000 : Nat) : Int)
      else -((ns.natAbs / 1000 : Nat) : Int)) =
      some (.time (if -1000000000 < ns ∧ ns < 0 then -ns else ns)) := by
    unfold datetime
    rw [e2, if_pos]
    unfold dateMin dateMax at *
    split <;> split at e2 <;> omega
  simp only [e3]

theorem readTime_ok {ns : Int} {p : Bytes} (h : Wire.writeTime ns = some p) (rest : Bytes)
    (hk : Exact .timestamp (.time ns)) : readTime (p ++ rest) = .ok (.time ns) rest := by
  simp only [Exact] at hk
  obtain ⟨h0, h1, h2, h3⟩ := hk
  rw [readTime_write h rest h0 h1 h2, if_neg h3]

theorem writeTime_ok {ns : Int} {p : Bytes} (h : Wire.writeTime ns = some p)
    (hk : ns % 1000 = 0) : writeTime (.time ns) = some p := by
  obtain ⟨hb, rfl⟩ := writeTime_eq_some.1 h
  simp only [writeTime]
  have e1 : ns.natAbs / 1000 / 1000000 = ns.natAbs / 1000000000 := by omega
  have e2 : ((ns.natAbs / 1000 % 1000000 * 1000 : Nat) : Int)
      = ((ns.natAbs % 1000000000 : Nat) : Int) := by omega
  have h1 : IntTy.InRange .i64
      ((if 0 ≤ ns then 1 else -1) * ((ns.natAbs / 1000000000 : Nat) : Int)) := by
    apply inRange_i64 <;> split <;> omega
  have h2 : IntTy.InRange .u32 ((ns.natAbs % 1000000000 : Nat) : Int) := inRange_u32 (by omega)
  rw [e1, e2, fwriteInt_ok h1, fwriteInt_ok h2]
  rfl

theorem readDur_ok {s n : Nat} (hs : s < 2 ^ 64) (hn : n < 1000000000) (rest : Bytes)
    (hk : Exact .duration (.dur s n)) :
    readDur (Wire.writeDur s n ++ rest) = .ok (.dur s n) rest := by
  simp only [Exact] at hk
  obtain ⟨h1, h2⟩ := hk
  unfold readDur Wire.writeDur
  rw [List.append_assoc, readInt_writeInt (inRange_u64 hs)]
  simp only [Res.bind_ok, readInt_writeInt (inRange_u32 (show n < 2 ^ 32 by omega))]
  have e0 : (n : Int).toNat = n := by omega
  have e1 : (s : Int).toNat = s := by omega
  rw [e0, e1, timedelta_exact h1 (by unfold deltaEnd; omega)]
  have e2 : (s * 1000000 + n / 1000) / 1000000 = s := by omega
  have e3 : (s * 1000000 + n / 1000) % 1000000 * 1000 = n := by omega
  simp only [e2, e3]

theorem writeDur_ok {s n : Nat} (hn : n < 1000000000)
    (hk : Exact .duration (.dur s n)) : writeDur (.dur s n) = some (Wire.writeDur s n) := by
  simp only [Exact] at hk
  obtain ⟨h1, h2⟩ := hk
  simp only [writeDur, Wire.writeDur]
  have e : n / 1000 * 1000 = n := by omega
  rw [fwriteInt_ok (inRange_i64 (by omega) (by omega)), e,
    fwriteInt_ok (inRange_u32 (show n < 2 ^ 32 by omega)),
    writeInt_signed_unsigned (t := .i64) (u := .u64) rfl]
  rfl

theorem readCount_ok {n : Nat} (h : n < 2 ^ 31) (rest : Bytes) :
    readCount (beBytes 4 n ++ rest) = .ok n rest := by
  unfold readCount
  rw [readI32_count h]
  simp

theorem readLeaf_ok {env : Env} {t : Ty} {v : Val} {bs rest : Bytes} (hl : t.isLeaf = true)
    (ht : HasTy env t v) (hk : Exact t v) (hw : write env t v = some bs) :
    readLeaf t (bs ++ rest) = .ok (repr lang v) rest := by
  cases t <;> cases v <;> simp [HasTy, Ty.isLeaf] at ht hl
  case int.int t z =>
    simp [write] at hw; subst hw
    simp [readLeaf, readInt_writeInt ht, repr, lang]
  case f32.float b =>
    simp [write] at hw; subst hw
    simp [readLeaf, readNat_beBytes (n := 4) (v := b) (by omega), repr, lang]
  case f64.float b =>
    simp [write] at hw; subst hw
    simp [readLeaf, readNat_beBytes (n := 8) (v := b) (by omega), repr, lang]
  case bool.bool b =>
    simp [write] at hw; subst hw
    unfold Wire.writeBool
    cases b <;> simp [readLeaf, readBool, readTag_u8, repr, lang]
  case string.str s =>
    simp only [write, Wire.writeStr, Option.map_eq_some_iff] at hw
    obtain ⟨p, hp, rfl⟩ := hw
    obtain ⟨h1, rfl⟩ := writeLen_eq_some.1 hp
    simp only [readLeaf, readStr, List.append_assoc, readCount_ok h1, Res.bind_ok, takeN_append,
      fromUtf8_utf8, repr, lang]
  case timestamp.time ns =>
    simp only [write] at hw
    simp only [readLeaf, readTime_ok hw rest hk, repr, lang]
  case duration.dur s n =>
    simp only [write, Option.some.injEq] at hw; subst hw
    simp only [readLeaf, readDur_ok ht.1 ht.2 rest hk, repr, lang]
  case handle.handle h =>
    simp [write] at hw; subst hw
    have : h ≠ 0 := by simpa only [Exact] using hk
    simp [readLeaf, readHandle, readNat_beBytes (n := 8) (v := h) (by omega), repr, lang, this]
  case seq.seq t vs =>
    subst hl
    obtain ⟨b, rfl, hb, rfl⟩ := write_bytes ht hw
    simp only [readLeaf, freadBytes_ok (fun r => readCount_ok hb r), repr]
    rw [reprAll_bytesVal (fun _ => rfl)]

theorem writeLeaf_ok {env : Env} {t : Ty} {v : Val} {bs : Bytes} (hl : t.isLeaf = true)
    (ht : HasTy env t v) (hk : Exact t v) (hw : write env t v = some bs) :
    writeLeaf t (repr lang v) = some bs := by
  cases t <;> cases v <;> simp [HasTy, Ty.isLeaf] at ht hl
  case int.int t z =>
    simp [write] at hw; subst hw
    simp [writeLeaf, fwriteInt_ok ht, repr, lang]
  case f32.float b =>
    simp [write] at hw; subst hw
    simp [writeLeaf, fwriteBits, ht, repr, lang]
  case f64.float b =>
    simp [write] at hw; subst hw
    simp [writeLeaf, fwriteBits, ht, repr, lang]
  case bool.bool b =>
    simp [write] at hw; subst hw
    cases b <;> rfl
  case string.str s =>
    simp only [write, Wire.writeStr, Option.map_eq_some_iff] at hw
    obtain ⟨p, hp, rfl⟩ := hw
    simp only [writeLeaf, writeStr, repr, lang, fwriteCount_ok hp, Option.map_some]
  case timestamp.time ns =>
    simp only [write] at hw
    simp only [writeLeaf, repr, lang, writeTime_ok hw (by simp only [Exact] at hk; exact hk.1)]
  case duration.dur s n =>
    simp only [write, Option.some.injEq] at hw; subst hw
    simp only [writeLeaf, repr, lang, writeDur_ok ht.2 hk]
  case handle.handle h =>
    simp [write] at hw; subst hw
    simp [writeLeaf, fwriteHandle, repr, lang, ht]
  case seq.seq t vs =>
    subst hl
    obtain ⟨b, rfl, hb, rfl⟩ := write_bytes ht hw
    simp only [writeLeaf, repr]
    rw [reprAll_bytesVal (fun _ => rfl)]
    exact fwriteBytes_ok (fwriteCount_ok (writeLen_eq_some.2 ⟨hb, rfl⟩))

theorem readsLike (env : Env) (w : Bool) :
    ReadsLike lang env (fun t v => Exact t v ∧ Compound lang env w t v) where
  leaf t v bs rest hl ht hk hw := readLeaf_ok hl ht hk.1 hw
  tag0 rest := by simp [lang, readTag_u8]
  tag1 rest := by simp [lang, readTag_u8]
  count n p rest h := by
    obtain ⟨h1, rfl⟩ := writeLen_eq_some.1 h; exact readCount_ok h1 rest
  variant n p rest h := readVariantNumber h rest
  none := rfl
  keys k u es h := by simpa only [Compound] using h.2
  elems u vs h := by simpa only [Compound] using h.2

theorem writesLike (env : Env) :
    WritesLike lang env (fun t v => Exact t v ∧ Compound lang env true t v) := by
  refine ⟨fun t v bs hl ht hk hw => writeLeaf_ok hl ht hk.1 hw, fun n p h => ?_, fun n p h => ?_,
    rfl, fun t v h => ?_⟩
  · simp only [lang]; exact fwriteCount_ok h
  · simp only [lang]; exact fwriteCount_ok h
  · have := h.2
    simpa only [Compound, forall_const] using this

end Python
end Verif.Wire
