import Verif.Wire.Types
/-
The Rust side of the wire format: `Lower::write` and `Lift::try_read` for every type.
-/
namespace Verif.Wire
open Verif

/-! ### Writing

`write` appends to a buffer; the model returns the appended bytes. `none` is a panic. -/

/-- `i32::try_from(len).unwrap()` then `put_i32`: ffi_converter_impls.rs:148-149, 343-344,
392-393, 490-491. Panics above `i32::MAX`. Also used for variant numbers
(uniffi_macros/src/enum_.rs:179-224), where a larger number would be a compile error. -/
def writeLen (n : Nat) : Option Bytes :=
  if n < 2 ^ 31 then some (beBytes 4 n) else none

/-- `put_u8` .. `put_i64`: ffi_converter_impls.rs:56-58. -/
def writeInt (t : IntTy) (z : Int) : Bytes := beBytes t.width (toUnsigned t.width z)

/-- `bool::write`: ffi_converter_impls.rs:100-102. -/
def writeBool (b : Bool) : Bytes := beBytes 1 (if b then 1 else 0)

/-- The UTF-8 bytes of a string: `str::as_bytes`. -/
def utf8 (s : String) : Bytes := s.toUTF8.data.toList

/-- `String::write`: ffi_converter_impls.rs:145-151. -/
def writeStr (s : String) : Option Bytes :=
  (writeLen (utf8 s).length).map (· ++ utf8 s)

/-- `SystemTime::write`: ffi_converter_impls.rs:186-201. `duration_since` gives the distance to
the epoch and the sign is kept apart; `i64::try_from(as_secs()).expect(..)` panics when the
distance is 2^63 seconds. -/
def writeTime (ns : Int) : Option Bytes :=
  let sign : Int := if 0 ≤ ns then 1 else -1
  let offset : Nat := ns.natAbs
  let secs := offset / nsPerSec
  if secs < 2 ^ 63 then
    some (writeInt .i64 (sign * secs) ++ writeInt .u32 (offset % nsPerSec : Nat))
  else none

/-- `Duration::write`: ffi_converter_impls.rs:231-234. -/
def writeDur (secs nanos : Nat) : Bytes := writeInt .u64 secs ++ writeInt .u32 nanos

mutual
/-- `<T as Lower<UT>>::write`. Options: ffi_converter_impls.rs:257-265; boxes: 302-304;
vectors: 341-348; maps: 390-398; sets: 488-495. Records write the fields in order
(uniffi_macros/src/record.rs:115), enums a 1-based i32 and then the fields
(uniffi_macros/src/enum_.rs:179-224), custom types write their builtin value
(uniffi_macros/src/custom.rs). Handles: `put_u64` (uniffi_macros/src/object.rs:210-215,
export/trait_interface.rs:246-252). -/
def write (env : Env) : Ty → Val → Option Bytes
  | .int t, .int z => some (writeInt t z)
  | .f32, .float b => some (beBytes 4 b)
  | .f64, .float b => some (beBytes 8 b)
  | .bool, .bool b => some (writeBool b)
  | .string, .str s => writeStr s
  | .timestamp, .time ns => writeTime ns
  | .duration, .dur s n => some (writeDur s n)
  | .handle, .handle h => some (beBytes 8 h)
  | .option _, .none => some (beBytes 1 0)
  | .option t, .some v => (write env t v).map (beBytes 1 1 ++ ·)
  | .seq t, .seq vs =>
      (writeLen vs.length).bind fun p => (writeAll env t vs).map (p ++ ·)
  | .map k v, .map es =>
      (writeLen es.length).bind fun p => (writePairs env k v es).map (p ++ ·)
  | .set t, .set vs =>
      (writeLen vs.length).bind fun p => (writeAll env t vs).map (p ++ ·)
  | .box t, .box v => write env t v
  | .named n, .record fs =>
      match env n with
      | some (.record ts) => writeFields env ts fs
      | _ => none
  | .named n, .variant i fs =>
      match env n with
      | some (.enum vs) =>
        match vs[i]? with
        | some ts => (writeLen (i + 1)).bind fun p => (writeFields env ts fs).map (p ++ ·)
        | none => none
      | _ => none
  | .named n, .custom _ low =>
      match env n with
      | some (.custom t _ _) => write env t low
      | _ => none
  | _, _ => none
/-- The `for item in obj` loops of ffi_converter_impls.rs:345-347 and 492-494. -/
def writeAll (env : Env) : Ty → List Val → Option Bytes
  | _, [] => some []
  | t, v :: vs => (write env t v).bind fun b => (writeAll env t vs).map (b ++ ·)
/-- The `for (key, value) in obj` loop of ffi_converter_impls.rs:394-397. -/
def writePairs (env : Env) : Ty → Ty → List (Val × Val) → Option Bytes
  | _, _, [] => some []
  | t, u, (k, v) :: es =>
      (write env t k).bind fun a => (write env u v).bind fun b =>
        (writePairs env t u es).map (a ++ b ++ ·)
/-- The generated sequence of field writes, uniffi_macros/src/record.rs:115 and enum_.rs:179-224. -/
def writeFields (env : Env) : List Ty → List Val → Option Bytes
  | [], [] => some []
  | t :: ts, v :: vs => (write env t v).bind fun b => (writeFields env ts vs).map (b ++ ·)
  | _, _ => none
end

/-! ### Reading -/

/-- Why a read failed (the texts of the `bail!`s). -/
inductive ReadErr where
  | short      -- check_remaining, uniffi_core/src/lib.rs:188
  | badBool    -- "unexpected byte for Boolean"
  | badOption  -- "unexpected tag byte for Option"
  | negLen     -- usize::try_from(i32)
  | badUtf8    -- String::from_utf8
  | badVariant -- "Invalid {enum} enum value"
  | badCustom  -- the user's try_lift failed
  | noType     -- no such type: not reachable in generated code
  | junk       -- trailing bytes, ffi_converter_traits.rs:231-239
  deriving DecidableEq, Repr

/-- Outcome of a read: a value and the remaining bytes, an `Err`, a panic, or running out of
stack (`deep`, when the fuel is used up). -/
inductive Res (α : Type) where
  | ok (a : α) (rest : Bytes)
  | err (e : ReadErr)
  | panic
  | deep
  deriving DecidableEq, Repr

/-- Rust's `?` and statement sequencing. -/
def Res.bind {α β : Type} : Res α → (α → Bytes → Res β) → Res β
  | .ok a rest, f => f a rest
  | .err e, _ => .err e
  | .panic, _ => .panic
  | .deep, _ => .deep

/-- `Result::map`. -/
def Res.map {α β : Type} (f : α → β) : Res α → Res β
  | .ok a rest => .ok (f a) rest
  | .err e => .err e
  | .panic => .panic
  | .deep => .deep

/-- `check_remaining(buf, n)?` (uniffi_core/src/lib.rs:188-196) and then taking `n` bytes. -/
def takeN (n : Nat) (bs : Bytes) : Res Bytes :=
  if bs.length < n then .err .short else .ok (bs.take n) (bs.drop n)

/-- Interpret the bytes of an integer primitive. -/
def decodeInt (t : IntTy) (b : Bytes) : Int :=
  if t.signed then toSigned t.width (beNat b) else (beNat b : Int)

/-- `try_read` for integers: ffi_converter_impls.rs:60-63. -/
def readInt (t : IntTy) (bs : Bytes) : Res Int := (takeN t.width bs).map (decodeInt t)

/-- `try_read` for unsigned big-endian quantities (floats as bits, handles). -/
def readNat (n : Nat) (bs : Bytes) : Res Nat := (takeN n bs).map beNat

/-- `check_remaining(buf, 4)?; usize::try_from(buf.get_i32())?`:
ffi_converter_impls.rs:154-155, 364-365, 413-414, 509-510. -/
def readLen (bs : Bytes) : Res Nat :=
  (readInt .i32 bs).bind fun z rest => if z < 0 then .err .negLen else .ok z.toNat rest

/-- `bool::try_read`/`try_lift`: ffi_converter_impls.rs:92-107. -/
def readBool (bs : Bytes) : Res Val :=
  (readInt .i8 bs).bind fun z rest =>
    if z = 0 then .ok (.bool false) rest
    else if z = 1 then .ok (.bool true) rest
    else .err .badBool

/-- `String::from_utf8`. -/
def fromUtf8 (b : Bytes) : Option String := String.fromUTF8? ⟨b.toArray⟩

/-- `String::try_read`: ffi_converter_impls.rs:153-164. -/
def readStr (bs : Bytes) : Res Val :=
  (readLen bs).bind fun len rest => (takeN len rest).bind fun b rest =>
    match fromUtf8 b with
    | some s => .ok (.str s) rest
    | none => .err .badUtf8

/-- `Duration::new(secs, nanos)` of std: nanoseconds above a second carry over, and overflowing
the seconds panics. `none` is the panic. -/
def durationNew (secs nanos : Nat) : Option (Nat × Nat) :=
  let s := secs + nanos / nsPerSec
  if s < 2 ^ 64 then some (s, nanos % nsPerSec) else none

/-- `SystemTime::try_read`: ffi_converter_impls.rs:203-214. `i64::wrapping_abs() as u64` is the
absolute value also for `i64::MIN`. Adding to or subtracting from the epoch panics when the
result is not a representable instant. -/
def readTime (bs : Bytes) : Res Val :=
  (takeN 12 bs).bind fun b rest =>
    let seconds := decodeInt .i64 (b.take 8)
    let nanos := beNat (b.drop 8)
    match durationNew seconds.natAbs nanos with
    | none => .panic
    | some (s, n) =>
      let offset : Int := (s * nsPerSec + n : Nat)
      let t : Int := if 0 ≤ seconds then offset else -offset
      if timeMin ≤ t ∧ t < timeEnd then .ok (.time t) rest else .panic

/-- `Duration::try_read`: ffi_converter_impls.rs:236-239. -/
def readDur (bs : Bytes) : Res Val :=
  (takeN 12 bs).bind fun b rest =>
    match durationNew (beNat (b.take 8)) (beNat (b.drop 8)) with
    | none => .panic
    | some (s, n) => .ok (.dur s n) rest

/-- `HashMap::insert`: replaces the value of an equal key, otherwise adds an entry. -/
def mapInsert (k v : Val) : List (Val × Val) → List (Val × Val)
  | [] => [(k, v)]
  | (k', v') :: es => if k = k' then (k', v) :: es else (k', v') :: mapInsert k v es

/-- `HashSet::insert`: does nothing when an equal element is present. -/
def setInsert (v : Val) (vs : List Val) : List Val := if v ∈ vs then vs else vs ++ [v]

/-- `for _ in 0..len { vec.push(T::try_read(buf)?) }`: ffi_converter_impls.rs:366-370. -/
def readSeq (f : Bytes → Res Val) : Nat → Bytes → Res (List Val)
  | 0, bs => .ok [] bs
  | n + 1, bs => (f bs).bind fun v rest => (readSeq f n rest).map (v :: ·)

/-- `for _ in 0..len { set.insert(T::try_read(buf)?); }`: ffi_converter_impls.rs:511-515. -/
def readSet (f : Bytes → Res Val) : Nat → List Val → Bytes → Res (List Val)
  | 0, acc, bs => .ok acc bs
  | n + 1, acc, bs => (f bs).bind fun v rest => readSet f n (setInsert v acc) rest

/-- `for _ in 0..len { key; value; map.insert(key, value) }`: ffi_converter_impls.rs:415-421. -/
def readMap (f g : Bytes → Res Val) : Nat → List (Val × Val) → Bytes → Res (List (Val × Val))
  | 0, acc, bs => .ok acc bs
  | n + 1, acc, bs =>
      (f bs).bind fun k rest => (g rest).bind fun v rest => readMap f g n (mapInsert k v acc) rest

/-- The generated struct literal `Self { a: try_read(buf)?, b: try_read(buf)?, .. }`:
uniffi_macros/src/record.rs:116, enum_.rs:226-250. -/
def readFields (f : Ty → Bytes → Res Val) : List Ty → Bytes → Res (List Val)
  | [], bs => .ok [] bs
  | t :: ts, bs => (f t bs).bind fun v rest => (readFields f ts rest).map (v :: ·)

/-- `<T as Lift<UT>>::try_read`. Options: ffi_converter_impls.rs:275-282; boxes: 314-316;
vectors: 363-371; maps: 412-422; sets: 508-516; enums: uniffi_macros/src/enum_.rs:226-250;
records: record.rs:116; custom types: custom.rs; handles: object.rs:222-225. The first argument
bounds the recursion depth. `with_capacity` allocations are not modelled. -/
def read (env : Env) : Nat → Ty → Bytes → Res Val
  | 0, _, _ => .deep
  | fuel + 1, ty, bs =>
    match ty with
    | .int t => (readInt t bs).map .int
    | .f32 => (readNat 4 bs).map .float
    | .f64 => (readNat 8 bs).map .float
    | .bool => readBool bs
    | .string => readStr bs
    | .timestamp => readTime bs
    | .duration => readDur bs
    | .handle => (readNat 8 bs).map .handle
    | .option t =>
        (readInt .i8 bs).bind fun z rest =>
          if z = 0 then .ok .none rest
          else if z = 1 then (read env fuel t rest).map .some
          else .err .badOption
    | .seq t => (readLen bs).bind fun n rest => (readSeq (read env fuel t) n rest).map .seq
    | .map k v =>
        (readLen bs).bind fun n rest =>
          (readMap (read env fuel k) (read env fuel v) n [] rest).map .map
    | .set t => (readLen bs).bind fun n rest => (readSet (read env fuel t) n [] rest).map .set
    | .box t => (read env fuel t bs).map .box
    | .named name =>
        match env name with
        | some (.record ts) => (readFields (read env fuel) ts bs).map .record
        | some (.enum vs) =>
            (readInt .i32 bs).bind fun z rest =>
              if z < 1 then .err .badVariant
              else match vs[(z - 1).toNat]? with
                | some ts => (readFields (read env fuel) ts rest).map (.variant (z - 1).toNat)
                | none => .err .badVariant
        | some (.custom t lower lift) =>
            (read env fuel t bs).bind fun v rest =>
              match lift v with
              | some id => .ok (.custom id (lower id)) rest
              | none => .err .badCustom
        | none => .err .noType

/-- `Lower::lower_into_rust_buffer`: ffi_converter_traits.rs:265-270 (the buffer's contents). -/
def lowerBuffer (env : Env) (t : Ty) (v : Val) : Option Bytes := write env t v

/-- `Lift::try_lift_from_rust_buffer`: ffi_converter_traits.rs:231-239, also the
`ffi_converter_rust_buffer_lift_and_lower!` macro: read, then fail on remaining bytes. -/
def liftBuffer (env : Env) (fuel : Nat) (t : Ty) (bs : Bytes) : Res Val :=
  (read env fuel t bs).bind fun v rest =>
    if rest.isEmpty then .ok v [] else .err .junk

end Verif.Wire
