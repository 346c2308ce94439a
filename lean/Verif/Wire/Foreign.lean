import Verif.Wire.Rust
/-
The foreign side of the wire format: the generated Python, Kotlin, Swift and Ruby converters.

The templates of the four languages have the same shape for compound types, so the compound
converters are written once over a record `Lang` of the operations in which they differ.
Paths below are relative to uniffi_bindgen/src/bindings.
-/
namespace Verif.Wire
open Verif

/-- What one language's generated code does for the pieces the templates do not share.
`readLeaf`/`writeLeaf` are the converters of the types for which `Ty.isLeaf` holds. `none` from a
writer and `err`/`panic` from a reader are exceptions or traps. -/
structure Lang where
  /-- Converters of the builtin types, and of `bytes` (`Vec<u8>`). -/
  readLeaf : Ty → Bytes → Res Val
  writeLeaf : Ty → Val → Option Bytes
  /-- How a builtin Rust value looks in this language. -/
  leaf : Val → Val
  /-- The flag of an optional: `true` when a value follows. -/
  readTag : Bytes → Res Bool
  /-- Element count of a sequence, map or set. -/
  readCount : Bytes → Res Nat
  writeCount : Nat → Option Bytes
  /-- Variant number of an enum. -/
  readVariant : Bytes → Res Int
  writeVariant : Nat → Option Bytes
  /-- `Optional<T>` is `T` or null, so that `Some(None)` and `None` are the same value. -/
  nullable : Bool
  /-- Whether a value of this type can be a map key or a set element. -/
  hashable : Env → Ty → Bool
  /-- Whether `lift` looks for bytes left over in the buffer. -/
  checksJunk : Bool

/-- Types with a converter of their own; everything else is built from them. `Vec<u8>` is the
builtin type `bytes` in the generated code (uniffi_meta/src/reader.rs:196-203). -/
def Ty.isLeaf : Ty → Bool
  | .option _ | .map _ _ | .set _ | .box _ | .named _ => false
  | .seq t => t = .int .u8
  | _ => true

mutual
/-- The value the foreign code holds for a Rust value. Boxes are transparent
(kotlin/gen_kotlin/mod.rs:657, swift/gen_swift/mod.rs:767, ruby/gen_ruby/mod.rs:77,
python/templates/BoxTemplate.py), custom types without configuration are their builtin type
(python/templates/CustomType.py:5-27, kotlin/templates/CustomTypeTemplate.kt:3-7,
swift/templates/CustomType.swift:4-28, ruby/templates/RustBufferStream.rb:326-331). -/
def repr (L : Lang) : Val → Val
  | .some v => if L.nullable then repr L v else .some (repr L v)
  | .seq vs => .seq (reprAll L vs)
  | .map es => .map (reprPairs L es)
  | .set vs => .set (reprAll L vs)
  | .box v => repr L v
  | .record fs => .record (reprAll L fs)
  | .variant i fs => .variant i (reprAll L fs)
  | .custom _ low => repr L low
  | v => L.leaf v
def reprAll (L : Lang) : List Val → List Val
  | [] => []
  | v :: vs => repr L v :: reprAll L vs
def reprPairs (L : Lang) : List (Val × Val) → List (Val × Val)
  | [] => []
  | (k, v) :: es => (repr L k, repr L v) :: reprPairs L es
end

/-- The generated `read`. Optional: python/templates/OptionalTemplate.py:16-24,
kotlin/templates/OptionalTemplate.kt:7-12, swift/templates/OptionalTemplate.swift:16-22,
ruby/templates/RustBufferStream.rb:250-260. Sequence: SequenceTemplate.py:14-22, .kt:7-12,
.swift:15-23, RustBufferStream.rb:265-277. Map: MapTemplate.py:15-30, .kt:8-17, .swift:14-24,
RustBufferStream.rb:299-310. Set: SetTemplate.py:13-21, .kt:7-14, .swift:13-22,
RustBufferStream.rb:282-294. Record: RecordTemplate.py:58-64, .kt:52-62, .swift:37-48,
RustBufferStream.rb:239-245. Enum: EnumTemplate.py:155-171, .kt:50-58 and 132-143,
.swift:45-62, RustBufferStream.rb:167-194. Putting an unhashable key in a dict or set is an
error. -/
def fread (L : Lang) (env : Env) : Nat → Ty → Bytes → Res Val
  | 0, _, _ => .deep
  | fuel + 1, ty, bs =>
    if ty.isLeaf then L.readLeaf ty bs
    else match ty with
    | .option t =>
        (L.readTag bs).bind fun flag rest =>
          if flag then
            (fread L env fuel t rest).map fun v => if L.nullable then v else .some v
          else .ok .none rest
    | .seq t => (L.readCount bs).bind fun n rest => (readSeq (fread L env fuel t) n rest).map .seq
    | .map k v =>
        (L.readCount bs).bind fun n rest =>
          if n ≠ 0 ∧ L.hashable env k = false then .err .noType
          else (readMap (fread L env fuel k) (fread L env fuel v) n [] rest).map .map
    | .set t =>
        (L.readCount bs).bind fun n rest =>
          if n ≠ 0 ∧ L.hashable env t = false then .err .noType
          else (readSet (fread L env fuel t) n [] rest).map .set
    | .box t => fread L env fuel t bs
    | .named name =>
        match env name with
        | some (.record ts) => (readFields (fread L env fuel) ts bs).map .record
        | some (.enum vs) =>
            (L.readVariant bs).bind fun z rest =>
              if z < 1 then .err .badVariant
              else match vs[(z - 1).toNat]? with
                | some ts => (readFields (fread L env fuel) ts rest).map (.variant (z - 1).toNat)
                | none => .err .badVariant
        | some (.custom t _ _) => fread L env fuel t bs
        | none => .err .noType
    | _ => .err .noType

/-- The `for item in value` loops of the writers. -/
def fwriteAll (f : Val → Option Bytes) : List Val → Option Bytes
  | [] => some []
  | v :: vs => (f v).bind fun b => (fwriteAll f vs).map (b ++ ·)

/-- The `for (key, value)` loops of the map writers. -/
def fwritePairs (f g : Val → Option Bytes) : List (Val × Val) → Option Bytes
  | [] => some []
  | (k, v) :: es => (f k).bind fun a => (g v).bind fun b => (fwritePairs f g es).map (a ++ b ++ ·)

/-- The generated sequence of field writes. -/
def fwriteFields (f : Ty → Val → Option Bytes) : List Ty → List Val → Option Bytes
  | [], [] => some []
  | t :: ts, v :: vs => (f t v).bind fun b => (fwriteFields f ts vs).map (b ++ ·)
  | _, _ => none

/-- The generated `write`. Optional: OptionalTemplate.py:7-14, .kt:22-29, .swift:7-14,
ruby/templates/RustBufferBuilder.rb:236-243. Sequence: SequenceTemplate.py:7-12, .kt:20-25,
.swift:7-13, RustBufferBuilder.rb:248-254. Map: MapTemplate.py:8-13, .kt:28-37, .swift:5-12,
RustBufferBuilder.rb:270-277. Set: SetTemplate.py:7-11, .kt:22-27, .swift:5-11,
RustBufferBuilder.rb:259-265. Record: RecordTemplate.py:76-84, .kt:70-74, .swift:50-54,
RustBufferBuilder.rb:227-231. Enum: EnumTemplate.py:196-213, .kt:62-64 and 159-171,
.swift:64-79, RustBufferBuilder.rb:175-192. The first argument bounds the recursion depth. -/
def fwrite (L : Lang) (env : Env) : Nat → Ty → Val → Option Bytes
  | 0, _, _ => none
  | fuel + 1, ty, p =>
    if ty.isLeaf then L.writeLeaf ty p
    else match ty, p with
    | .option t, p =>
        if p = .none then some (beBytes 1 0)
        else if L.nullable then (fwrite L env fuel t p).map (beBytes 1 1 ++ ·)
        else match p with
          | .some v => (fwrite L env fuel t v).map (beBytes 1 1 ++ ·)
          | _ => none
    | .seq t, .seq vs =>
        (L.writeCount vs.length).bind fun b => (fwriteAll (fwrite L env fuel t) vs).map (b ++ ·)
    | .map k v, .map es =>
        (L.writeCount es.length).bind fun b =>
          (fwritePairs (fwrite L env fuel k) (fwrite L env fuel v) es).map (b ++ ·)
    | .set t, .set vs =>
        (L.writeCount vs.length).bind fun b => (fwriteAll (fwrite L env fuel t) vs).map (b ++ ·)
    | .box t, p => fwrite L env fuel t p
    | .named name, p =>
        match env name, p with
        | some (.record ts), .record fs => fwriteFields (fwrite L env fuel) ts fs
        | some (.enum vs), .variant i fs =>
            match vs[i]? with
            | some ts =>
                (L.writeVariant (i + 1)).bind fun b =>
                  (fwriteFields (fwrite L env fuel) ts fs).map (b ++ ·)
            | none => none
        | some (.custom t _ _), p => fwrite L env fuel t p
        | _, _ => none
    | _, _ => none

/-- The generated `lift` from a buffer: python/templates/RustBufferTemplate.py:47-60 with
RustBufferHelper.py:36-39, kotlin/templates/FfiConverterTemplate.kt:57-68,
swift/templates/RustBufferTemplate.swift:251-259, ruby/templates/RustBufferTemplate.rb:53-61.
In Ruby the block given to `consumeWithStream` leaves through `return`
(RustBufferTemplate.rb:95, 109, 122, 146, ...), which skips the check for left-over bytes. -/
def flift (L : Lang) (env : Env) (fuel : Nat) (t : Ty) (bs : Bytes) : Res Val :=
  (fread L env fuel t bs).bind fun v rest =>
    if L.checksJunk ∧ rest ≠ [] then .err .junk else .ok v rest

/-! ### Pieces several languages share -/

/-- Reading a byte array: the count, then that many bytes. -/
def freadBytes (count : Bytes → Res Nat) (bs : Bytes) : Res Val :=
  (count bs).bind fun n rest => (takeN n rest).map fun b => .seq (b.map fun x => .int x.toNat)

/-- The byte of a `Val` inside a byte array. -/
def byteOf : Val → Option UInt8
  | .int z => if 0 ≤ z ∧ z < 256 then some (UInt8.ofNat z.toNat) else none
  | _ => none

/-- Writing a byte array: the count, then the bytes. -/
def fwriteBytes (count : Nat → Option Bytes) : Val → Option Bytes
  | .seq vs => (vs.mapM byteOf).bind fun b => (count b.length).map (· ++ b)
  | _ => none

/-- Writing an integer after a range check that raises. -/
def fwriteInt (t : IntTy) : Val → Option Bytes
  | .int z => if t.InRange z then some (writeInt t z) else none
  | _ => none

/-- A 32-bit count written by code that raises or traps when it does not fit. -/
def fwriteCount (n : Nat) : Option Bytes := fwriteInt .i32 (.int n)

/-- Floats and handles are bit patterns. -/
def fwriteBits (n : Nat) : Val → Option Bytes
  | .float b => if b < 2 ^ (8 * n) then some (beBytes n b) else none
  | _ => none

def fwriteHandle : Val → Option Bytes
  | .handle h => if h < 2 ^ 64 then some (beBytes 8 h) else none
  | _ => none

/-! ### Python -/

namespace Python

/-- `round` to the nearest, ties to even, of `n / 1000`. `datetime.timedelta` rounds the float
`n / 1000` this way; the float is close enough that the result is the same. -/
def roundThousand (n : Nat) : Nat :=
  let q := n / 1000
  let r := n % 1000
  if r < 500 then q else if r > 500 then q + 1 else if q % 2 = 0 then q else q + 1

/-- Largest `datetime.timedelta` in microseconds, plus one: 10^9 days. -/
def deltaEnd : Nat := 86400 * 1000000000 * 1000000
/-- First and last microsecond of `datetime.datetime`: the years 1 to 9999. -/
def dateMin : Int := -62135596800000000
def dateMax : Int := 253402300799999999

/-- `datetime.timedelta(seconds=.., microseconds=.. / 1000)` as a number of microseconds; raises
`OverflowError` when too large. -/
def timedelta (seconds nanos : Nat) : Option Nat :=
  if seconds * 1000000 + roundThousand nanos < deltaEnd then
    some (seconds * 1000000 + roundThousand nanos)
  else none

/-- `datetime.datetime.fromtimestamp(0, tz=utc)` plus or minus that many microseconds, as
nanoseconds since the epoch; raises `OverflowError` outside the years 1 to 9999. -/
def datetime (micros : Int) : Option Val :=
  if dateMin ≤ micros ∧ micros ≤ dateMax then some (.time (micros * 1000)) else none

/-- python/templates/builtins/Timestamp.py:8-18. -/
def readTime (bs : Bytes) : Res Val :=
  (Wire.readInt .i64 bs).bind fun seconds rest => (Wire.readInt .u32 rest).bind fun n rest =>
    match timedelta seconds.natAbs n.toNat with
    | none => .err .badCustom
    | some micros =>
      match datetime (if 0 ≤ seconds then micros else -micros) with
      | none => .err .badCustom
      | some v => .ok v rest

/-- Timestamp.py:24-36. -/
def writeTime : Val → Option Bytes
  | .time ns =>
      let sign : Int := if 0 ≤ ns then 1 else -1
      let micros := ns.natAbs / 1000
      let seconds := micros / 1000000
      let nanos := micros % 1000000 * 1000
      (fwriteInt .i64 (.int (sign * seconds))).bind fun a =>
        (fwriteInt .u32 (.int nanos)).map (a ++ ·)
  | _ => none

/-- python/templates/builtins/Duration.py:8-12. -/
def readDur (bs : Bytes) : Res Val :=
  (Wire.readInt .u64 bs).bind fun seconds rest => (Wire.readInt .u32 rest).bind fun n rest =>
    match timedelta seconds.toNat n.toNat with
    | none => .err .badCustom
    | some micros => .ok (.dur (micros / 1000000) (micros % 1000000 * 1000)) rest

/-- Duration.py:20-25; a `timedelta` is normalised, so its sub-second part is below a second. -/
def writeDur : Val → Option Bytes
  | .dur s n => (fwriteInt .i64 (.int s)).bind fun a => (fwriteInt .u32 (.int (n / 1000 * 1000 : Nat))).map (a ++ ·)
  | _ => none

/-- Boolean.py:10-16: any non-zero byte is true. -/
def readBool (bs : Bytes) : Res Val := (Wire.readInt .u8 bs).map fun z => .bool (z ≠ 0)

/-- Boolean.py:18-20. -/
def writeBool : Val → Option Bytes
  | .bool b => fwriteInt .u8 (.int (if b then 1 else 0))
  | _ => none

/-- `read_i32` and the negative check of the templates. -/
def readCount (bs : Bytes) : Res Nat :=
  (Wire.readInt .i32 bs).bind fun z rest => if z < 0 then .err .negLen else .ok z.toNat rest

/-- String.py:8-14; `decode("utf-8")` raises. -/
def readStr (bs : Bytes) : Res Val :=
  (readCount bs).bind fun n rest => (takeN n rest).bind fun b rest =>
    match fromUtf8 b with
    | some s => .ok (.str s) rest
    | none => .err .badUtf8

/-- String.py:16-20. -/
def writeStr : Val → Option Bytes
  | .str s => (fwriteCount (utf8 s).length).map (· ++ utf8 s)
  | _ => none

/-- InterfaceTemplate.py:106-111 and 155-160. -/
def readHandle (bs : Bytes) : Res Val :=
  (readNat 8 bs).bind fun h rest => if h = 0 then .err .badCustom else .ok (.handle h) rest

/-- python/templates/builtins/*.py and RustBufferTemplate.py:178-309. -/
def readLeaf : Ty → Bytes → Res Val
  | .int t, bs => (Wire.readInt t bs).map .int
  | .f32, bs => (readNat 4 bs).map .float
  | .f64, bs => (readNat 8 bs).map .float
  | .bool, bs => readBool bs
  | .string, bs => readStr bs
  | .timestamp, bs => readTime bs
  | .duration, bs => readDur bs
  | .handle, bs => readHandle bs
  | .seq _, bs => freadBytes readCount bs
  | _, _ => .err .noType

def writeLeaf : Ty → Val → Option Bytes
  | .int t, p => fwriteInt t p
  | .f32, p => fwriteBits 4 p
  | .f64, p => fwriteBits 8 p
  | .bool, p => writeBool p
  | .string, p => writeStr p
  | .timestamp, p => writeTime p
  | .duration, p => writeDur p
  | .handle, p => fwriteHandle p
  | .seq _, p => fwriteBytes fwriteCount p
  | _, _ => none

/-- A Python value that can be a dict key. Records and data-carrying enums are dataclasses with
`__eq__` and without `__hash__` (RecordTemplate.py:1-55, EnumTemplate.py:65-143), lists, dicts and
sets are unhashable. Simplification: an exported `Hash` trait would add `__hash__`. The recursion
through options, boxes and custom types is bounded by `fuel`. -/
def hashableAt (env : Env) : Nat → Ty → Bool
  | 0, _ => false
  | fuel + 1, t =>
    match t with
    | .option t => hashableAt env fuel t
    | .box t => hashableAt env fuel t
    | .map _ _ | .set _ => false
    | .seq t => t = .int .u8
    | .named n =>
        match env n with
        | some (.enum vs) => vs.all (·.isEmpty)
        | some (.custom t _ _) => hashableAt env fuel t
        | _ => false
    | _ => true

def lang : Lang where
  readLeaf := readLeaf
  writeLeaf := writeLeaf
  leaf v := v
  readTag bs := (Wire.readInt .u8 bs).bind fun z rest =>
    if z = 0 then .ok false rest else if z = 1 then .ok true rest else .err .badOption
  readCount := readCount
  writeCount := fwriteCount
  readVariant := Wire.readInt .i32
  writeVariant := fwriteCount
  nullable := true
  hashable env t := hashableAt env 64 t
  checksJunk := true

end Python

/-! ### Kotlin -/

namespace Kotlin

/-- `java.time.Instant.MIN` and `MAX` in nanoseconds. -/
def instantMin : Int := -31557014167219200 * 1000000000
def instantEnd : Int := 31556889864403200 * 1000000000

/-- An `Instant` that many nanoseconds from the epoch; throws `DateTimeException` when out of
range. -/
def instant (ns : Int) : Option Val :=
  if instantMin ≤ ns ∧ ns < instantEnd then some (.time ns) else none

/-- kotlin/templates/TimestampHelper.kt:5-17. `Instant` and `Duration` arithmetic is exact and
throws when the result is out of range. -/
def readTime (bs : Bytes) : Res Val :=
  (Wire.readInt .i64 bs).bind fun seconds rest => (Wire.readInt .i32 rest).bind fun n rest =>
    if n < 0 then .err .badCustom
    else
      match instant ((if 0 ≤ seconds then 1 else -1) * (seconds.natAbs * 1000000000 + n)) with
      | none => .err .badCustom
      | some v => .ok v rest

/-- TimestampHelper.kt:22-40. -/
def writeTime : Val → Option Bytes
  | .time ns =>
      let sign : Int := if ns < 0 then -1 else 1
      let offset := ns.natAbs
      some (writeInt .i64 (sign * (offset / 1000000000 : Nat)) ++
        writeInt .i32 (offset % 1000000000 : Nat))
  | _ => none

/-- `java.time.Duration.ofSeconds(seconds, nanos)`: carries, and throws when the seconds overflow
a `Long`. -/
def ofSeconds (s n : Nat) : Option Val :=
  if s + n / 1000000000 < 2 ^ 63 then some (.dur (s + n / 1000000000) (n % 1000000000)) else none

/-- kotlin/templates/DurationHelper.kt:5-17. -/
def readDur (bs : Bytes) : Res Val :=
  (Wire.readInt .i64 bs).bind fun s rest => (Wire.readInt .i32 rest).bind fun n rest =>
    if s < 0 then .err .badCustom
    else if n < 0 then .err .badCustom
    else match ofSeconds s.toNat n.toNat with
      | none => .err .badCustom
      | some v => .ok v rest

/-- DurationHelper.kt:22-38. `seconds` is a Kotlin `Long`. -/
def writeDur : Val → Option Bytes
  | .dur s n => if s < 2 ^ 63 then some (writeInt .i64 s ++ writeInt .i32 n) else none
  | _ => none

/-- BooleanHelper.kt:5-11: any non-zero byte is true. -/
def readBool (bs : Bytes) : Res Val := (Wire.readInt .i8 bs).map fun z => .bool (z ≠ 0)

/-- BooleanHelper.kt:13-21. -/
def writeBool : Val → Option Bytes
  | .bool b => some (writeInt .i8 (if b then 1 else 0))
  | _ => none

/-- `getInt()`; `ByteArray(len)`, `List(len)`, `buildMap(len)` and `buildSet(len)` throw for a
negative size. -/
def readCount (bs : Bytes) : Res Nat :=
  (Wire.readInt .i32 bs).bind fun z rest => if z < 0 then .err .negLen else .ok z.toNat rest

/-- `value.size` is an `Int`, so a larger collection does not exist. -/
def writeCount (n : Nat) : Option Bytes :=
  if n < 2 ^ 31 then some (writeInt .i32 n) else none

/-- StringHelper.kt:18-23. Malformed bytes are replaced; what by is left open (`lossy`). -/
def readStr (lossy : Bytes → String) (bs : Bytes) : Res Val :=
  (readCount bs).bind fun n rest => (takeN n rest).map fun b =>
    match fromUtf8 b with
    | some s => .str s
    | none => .str (lossy b)

/-- StringHelper.kt:25-31 and 51-55. Strings with lone surrogates, which are not values here,
throw. -/
def writeStr : Val → Option Bytes
  | .str s => (writeCount (utf8 s).length).map (· ++ utf8 s)
  | _ => none

/-- Integers: {Int,UInt}{8,16,32,64}Helper.kt. Unsigned types read the signed value and convert
it to the unsigned type with the same bits, and back. -/
def readInt (t : IntTy) (bs : Bytes) : Res Val :=
  (takeN t.width bs).map fun b =>
    let signed := toSigned t.width (beNat b)
    .int (if t.signed then signed else (toUnsigned t.width signed : Int))

/-- `put`, `putShort`, `putInt`, `putLong` after `toByte()` etc. -/
def writeIntV (t : IntTy) : Val → Option Bytes
  | .int z => if t.InRange z then some (beBytes t.width (toUnsigned t.width z)) else none
  | _ => none

def readLeaf (lossy : Bytes → String) : Ty → Bytes → Res Val
  | .int t, bs => readInt t bs
  | .f32, bs => (readNat 4 bs).map .float
  | .f64, bs => (readNat 8 bs).map .float
  | .bool, bs => readBool bs
  | .string, bs => readStr lossy bs
  | .timestamp, bs => readTime bs
  | .duration, bs => readDur bs
  -- ObjectTemplate.kt:273-275, CallbackInterfaceRuntime.kt:23
  | .handle, bs => (readNat 8 bs).map .handle
  -- ByteArrayHelper.kt:5-10
  | .seq _, bs => freadBytes readCount bs
  | _, _ => .err .noType

def writeLeaf : Ty → Val → Option Bytes
  | .int t, p => writeIntV t p
  | .f32, p => fwriteBits 4 p
  | .f64, p => fwriteBits 8 p
  | .bool, p => writeBool p
  | .string, p => writeStr p
  | .timestamp, p => writeTime p
  | .duration, p => writeDur p
  | .handle, p => fwriteHandle p
  | .seq _, p => fwriteBytes writeCount p
  | _, _ => none

/-- OptionalTemplate.kt:8-11: only the byte 0 means null. -/
def lang (lossy : Bytes → String) : Lang where
  readLeaf := readLeaf lossy
  writeLeaf := writeLeaf
  leaf v := v
  readTag bs := (Wire.readInt .i8 bs).map fun z => decide (z ≠ 0)
  readCount := readCount
  writeCount := writeCount
  readVariant := Wire.readInt .i32
  writeVariant := writeCount
  nullable := true
  hashable _ _ := true
  checksJunk := true

end Kotlin

/-! ### Swift -/

namespace Swift

/-- RustBufferTemplate.swift:137-151. -/
def readCount (bs : Bytes) : Res Nat :=
  (Wire.readInt .i32 bs).bind fun z rest => if z < 0 then .panic else .ok z.toNat rest

/-- `Int32(value.count)` traps when it does not fit: SequenceTemplate.swift:8. -/
def writeCount (n : Nat) : Option Bytes :=
  if n < 2 ^ 31 then some (writeInt .i32 n) else none

/-- BooleanHelper.swift:8-18. -/
def readBool (bs : Bytes) : Res Val := (Wire.readInt .i8 bs).map fun z => .bool (z ≠ 0)

/-- BooleanHelper.swift:12-22. -/
def writeBool : Val → Option Bytes
  | .bool b => some (writeInt .i8 (if b then 1 else 0))
  | _ => none

/-- StringHelper.swift:34-38: `String(decoding:as:)` replaces malformed bytes. -/
def readStr (lossy : Bytes → String) (bs : Bytes) : Res Val :=
  (readCount bs).bind fun n rest => (takeN n rest).map fun b =>
    match fromUtf8 b with
    | some s => .str s
    | none => .str (lossy b)

/-- StringHelper.swift:40-44. -/
def writeStr : Val → Option Bytes
  | .str s => (writeCount (utf8 s).length).map (· ++ utf8 s)
  | _ => none

/-- {Int,UInt}*Helper.swift with RustBufferTemplate.swift:137-151 and 199-202. `Date` and
`TimeInterval` are binary floating point numbers; the two types are not modelled and read as an
error here. -/
def readLeaf (lossy : Bytes → String) : Ty → Bytes → Res Val
  | .int t, bs => (Wire.readInt t bs).map .int
  | .f32, bs => (readNat 4 bs).map .float
  | .f64, bs => (readNat 8 bs).map .float
  | .bool, bs => readBool bs
  | .string, bs => readStr lossy bs
  | .handle, bs => (readNat 8 bs).map .handle
  -- DataHelper.swift:7-10
  | .seq _, bs => freadBytes readCount bs
  | _, _ => .err .noType

def writeLeaf : Ty → Val → Option Bytes
  | .int t, p => fwriteInt t p
  | .f32, p => fwriteBits 4 p
  | .f64, p => fwriteBits 8 p
  | .bool, p => writeBool p
  | .string, p => writeStr p
  | .handle, p => fwriteHandle p
  | .seq _, p => fwriteBytes writeCount p
  | _, _ => none

/-- OptionalTemplate.swift:16-22; Swift optionals nest. -/
def lang (lossy : Bytes → String) : Lang where
  readLeaf := readLeaf lossy
  writeLeaf := writeLeaf
  leaf v := v
  readTag bs := (Wire.readInt .i8 bs).bind fun z rest =>
    if z = 0 then .ok false rest else if z = 1 then .ok true rest else .err .badOption
  readCount := readCount
  writeCount := writeCount
  readVariant := Wire.readInt .i32
  writeVariant := writeCount
  nullable := false
  hashable _ _ := true
  checksJunk := true

end Swift

/-! ### Ruby -/

namespace Ruby

/-- RustBufferStream.rb:28-74. `UInt8` is unpacked with the signed format `c` (36-38). -/
def readInt (t : IntTy) (bs : Bytes) : Res Val :=
  match t with
  | .u8 => (Wire.readInt .i8 bs).map .int
  | t => (Wire.readInt t bs).map .int

/-- RustBufferStream.rb:90-97. -/
def readBool (bs : Bytes) : Res Val :=
  (Wire.readInt .i8 bs).bind fun z rest =>
    if z = 0 then .ok (.bool false) rest
    else if z = 1 then .ok (.bool true) rest
    else .err .badBool

/-- RustBufferBuilder.rb:104-106. -/
def writeBool : Val → Option Bytes
  | .bool b => some (writeInt .i8 (if b then 1 else 0))
  | _ => none

/-- RustBufferStream.rb:102-104, 266-268, 283-285, 300-301. -/
def readCount (bs : Bytes) : Res Nat :=
  (Wire.readInt .i32 bs).bind fun z rest => if z < 0 then .err .negLen else .ok z.toNat rest

/-- `pack_into 4, 'l>', size`: RustBufferBuilder.rb:112, 249, 260, 271. Packing keeps the low 32
bits. -/
def writeCount (n : Nat) : Option Bytes := some (beBytes 4 n)

/-- RustBufferStream.rb:101-107. `force_encoding` does not check; a string with invalid bytes is
shown as the list of its bytes. -/
def readStr (bs : Bytes) : Res Val :=
  (readCount bs).bind fun n rest => (takeN n rest).map fun b =>
    match fromUtf8 b with
    | some s => .str s
    | none => .seq (b.map fun x => .int x.toNat)

/-- RustBufferBuilder.rb:110-114. -/
def writeStr : Val → Option Bytes
  | .str s => (writeCount (utf8 s).length).map (· ++ utf8 s)
  | _ => none

/-- RustBufferStream.rb:123-141. A Ruby `Time` is an exact rational number of seconds. -/
def readTime (bs : Bytes) : Res Val :=
  (Wire.readInt .i64 bs).bind fun seconds rest => (Wire.readInt .u32 rest).bind fun nanos rest =>
    if seconds < 0 ∧ nanos ≠ 0 then
      .ok (.time ((seconds - 1) * 1000000000 + (1000000000 - nanos))) rest
    else .ok (.time (seconds * 1000000000 + nanos)) rest

/-- RustBufferBuilder.rb:128-147. `tv_sec` rounds down. -/
def writeTime : Val → Option Bytes
  | .time ns =>
      let seconds := ns / 1000000000
      let nanos := ns % 1000000000
      let (seconds, nanos) :=
        if seconds < 0 ∧ nanos ≠ 0 then (seconds + 1, 1000000000 - nanos) else (seconds, nanos)
      (fwriteInt .i64 (.int seconds)).bind fun a => (fwriteInt .u32 (.int nanos)).map (a ++ ·)
  | _ => none

/-- RustBufferStream.rb:146-151: a duration is a `Time`, and the seconds are unpacked as signed. -/
def readDur (bs : Bytes) : Res Val :=
  (Wire.readInt .i64 bs).bind fun seconds rest => (Wire.readInt .u32 rest).bind fun nanos rest =>
    .ok (.time (seconds * 1000000000 + nanos)) rest

/-- RustBufferBuilder.rb:152-160. -/
def writeDur : Val → Option Bytes
  | .time ns =>
      let seconds := ns / 1000000000
      if seconds < 0 then none
      else (fwriteInt .u64 (.int seconds)).bind fun a =>
        (fwriteInt .u32 (.int (ns % 1000000000))).map (a ++ ·)
  | _ => none

def readLeaf : Ty → Bytes → Res Val
  | .int t, bs => readInt t bs
  | .f32, bs => (readNat 4 bs).map .float
  | .f64, bs => (readNat 8 bs).map .float
  | .bool, bs => readBool bs
  | .string, bs => readStr bs
  | .timestamp, bs => readTime bs
  | .duration, bs => readDur bs
  -- RustBufferStream.rb:156-159, 336-339
  | .handle, bs => (readNat 8 bs).map .handle
  -- RustBufferStream.rb:111-117
  | .seq _, bs => freadBytes readCount bs
  | _, _ => .err .noType

def writeLeaf : Ty → Val → Option Bytes
  | .int t, p => fwriteInt t p
  | .f32, p => fwriteBits 4 p
  | .f64, p => fwriteBits 8 p
  | .bool, p => writeBool p
  | .string, p => writeStr p
  | .timestamp, p => writeTime p
  | .duration, p => writeDur p
  | .handle, p => fwriteHandle p
  | .seq _, p => fwriteBytes writeCount p
  | _, _ => none

/-- RustBufferStream.rb:250-260. -/
def lang : Lang where
  readLeaf := readLeaf
  writeLeaf := writeLeaf
  leaf v := match v with
    | .dur s n => .time (s * 1000000000 + n)
    | v => v
  readTag bs := (Wire.readInt .i8 bs).bind fun z rest =>
    if z = 0 then .ok false rest else if z = 1 then .ok true rest else .err .badOption
  readCount := readCount
  writeCount := writeCount
  readVariant := Wire.readInt .i32
  writeVariant := writeCount
  nullable := true
  hashable _ _ := true
  checksJunk := false

end Ruby

end Verif.Wire
