import Verif.Meta.Buffer
import Verif.Meta.Types
/-
The metadata reader: uniffi_meta/src/reader.rs.
-/
namespace Verif.Meta
open Verif
open Verif.Wire (fromUtf8)

/-- The outcome of a reader function: a value, an `Err(_)`, or a panic. -/
inductive Res (α : Type) where
  | ok (a : α)
  | err
  | panic
  deriving DecidableEq, Repr

/-- A method of `MetadataReader` (reader.rs:19-24): `initial_data` and the rest `buf` of it come in,
the value and the new `buf` go out. -/
def Rd (α : Type) := Bytes → Bytes → Res (α × Bytes)

namespace Rd

/-- `Ok(a)`. -/
def pure {α : Type} (a : α) : Rd α := fun _ buf => .ok (a, buf)

/-- `?`. -/
def bind {α β : Type} (x : Rd α) (f : α → Rd β) : Rd β := fun init buf =>
  match x init buf with
  | .ok (a, buf') => f a init buf'
  | .err => .err
  | .panic => .panic

instance : Monad Rd where
  pure := Rd.pure
  bind := Rd.bind

/-- `bail!`. -/
def fail {α : Type} : Rd α := fun _ _ => .err

/-- `read_u8`: reader.rs:71-79. -/
def u8 : Rd UInt8 := fun _ buf =>
  match buf with
  | [] => .err
  | b :: rest => .ok (b, rest)

/-- `peek_u8`: reader.rs:81-87. -/
def peek : Rd UInt8 := fun _ buf =>
  match buf with
  | [] => .err
  | b :: rest => .ok (b, b :: rest)

/-- `read_u16`: reader.rs:89-98. -/
def u16 : Rd Nat := fun _ buf =>
  match buf with
  | a :: b :: rest => .ok (leNat [a, b], rest)
  | _ => .err

/-- `read_u32`: reader.rs:100-112. The sum cannot overflow. -/
def u32 : Rd UInt32 := fun _ buf =>
  match buf with
  | a :: b :: c :: d :: rest =>
    .ok (a.toUInt32 + (b.toUInt32 <<< 8) + (c.toUInt32 <<< 16) + (d.toUInt32 <<< 24), rest)
  | _ => .err

/-- `read_bool`: reader.rs:114-116. -/
def bool : Rd Bool := do
  let b ← u8
  return b == 1

/-- `split_at(size)`, which panics when the slice is shorter, then `String::from_utf8`:
reader.rs:120-122, 132-134. -/
def take (size : Nat) : Rd String := fun _ buf =>
  if size ≤ buf.length then
    match fromUtf8 (buf.take size) with
    | some s => .ok (s, buf.drop size)
    | none => .err
  else .panic

/-- `read_string`: reader.rs:118-123. -/
def string : Rd String := do
  let size ← u8
  take size.toNat

/-- `read_optional_string`: reader.rs:125-128. -/
def optString : Rd (Option String) := do
  if ← bool then return some (← string) else return none

/-- `read_long_string`: reader.rs:130-135. -/
def longString : Rd String := do
  let size ← u16
  take size

/-- `read_optional_long_string`: reader.rs:137-139. -/
def optLongString : Rd (Option String) := do
  let s ← longString
  return if s.isEmpty then none else some s

/-- `read_trait_kind`: reader.rs:363-370. -/
def traitKind : Rd TraitKind := do
  let v ← u8
  if v == Codes.kRustOnly then return .rustOnly
  else if v == Codes.kBoth then return .both
  else if v == Codes.kForeignOnly then return .foreignOnly
  else fail

/-- The body of `read_type`, reader.rs:141-217, with `rec` for the recursive calls. -/
def typeBody (rec : Rd MTy) : Rd MTy := do
  let v ← u8
  if v == Codes.tU8 then return .uint8
  else if v == Codes.tI8 then return .int8
  else if v == Codes.tU16 then return .uint16
  else if v == Codes.tI16 then return .int16
  else if v == Codes.tU32 then return .uint32
  else if v == Codes.tI32 then return .int32
  else if v == Codes.tU64 then return .uint64
  else if v == Codes.tI64 then return .int64
  else if v == Codes.tF32 then return .float32
  else if v == Codes.tF64 then return .float64
  else if v == Codes.tBool then return .boolean
  else if v == Codes.tString then return .string
  else if v == Codes.tDuration then return .duration
  else if v == Codes.tSystemTime then return .timestamp
  else if v == Codes.tRecord then
    let m ← string
    let n ← string
    return .record m n
  else if v == Codes.tEnum then
    let m ← string
    let n ← string
    return .enum m n
  else if v == Codes.tInterface then
    let m ← string
    let n ← string
    return .object m n .struct
  else if v == Codes.tTraitInterface then
    let m ← string
    let n ← string
    let k ← traitKind
    return .object m n (.trait k)
  else if v == Codes.tCallbackInterface then
    let m ← string
    let n ← string
    return .callbackInterface m n
  else if v == Codes.tCustom then
    let m ← string
    let n ← string
    let t ← rec
    return .custom m n t
  else if v == Codes.tOption then
    let t ← rec
    return .optional t
  else if v == Codes.tBox then
    let t ← rec
    return .box t
  else if v == Codes.tVec then
    let t ← rec
    if t = .uint8 then return .bytes else return .sequence t
  else if v == Codes.tHashMap then
    let k ← rec
    let t ← rec
    return .map k t
  else if v == Codes.tHashSet then
    let t ← rec
    return .set t
  else fail

/-- `read_type` to recursion depth `n`. -/
def typeN : Nat → Rd MTy
  | 0 => fail
  | n + 1 => typeBody (typeN n)

/-- `read_type`: reader.rs:141-217. Every level reads a byte, so the length of the data bounds the
depth. -/
def type : Rd MTy := fun init buf => typeN (buf.length + 1) init buf

/-- `read_optional_type`: reader.rs:219-227. -/
def optType : Rd (Option MTy) := do
  let v ← peek
  if v == Codes.tUnit then
    let _ ← u8
    return none
  else
    return some (← type)

/-- `read_return_type`: reader.rs:229-241. -/
def returnType : Rd (Option MTy × Option MTy) := do
  let v ← peek
  if v == Codes.tUnit then
    let _ ← u8
    return (none, none)
  else if v == Codes.tResult then
    let _ ← u8
    let t ← optType
    let e ← optType
    return (t, e)
  else
    let t ← type
    return (some t, none)

/-- `checksum_metadata` and `calc_checksum`, the copies of the generator:
uniffi_meta/src/metadata.rs:83-102. -/
def checksumMetadata (buf : Bytes) : UInt16 :=
  let hash := (buf.take buf.length).foldl
    (fun hash b => (hash ^^^ b.toUInt64) * 0x100000001b3) (0xcbf29ce484222325 : UInt64)
  (hash ^^^ (hash >>> 16) ^^^ (hash >>> 32) ^^^ (hash >>> 48)).toUInt16

/-- `calc_checksum`: reader.rs:543-547. -/
def checksum : Rd (Option UInt16) := fun init buf =>
  let read := init.length - buf.length
  .ok (some (checksumMetadata (init.take read)), buf)

/-- The digits of `str::parse` for integers. -/
def parseDigits (cs : List Char) : Option Nat :=
  if cs.isEmpty then none
  else if cs.all Char.isDigit then some (Nat.ofDigitChars 10 cs 0) else none

/-- The value of a string of digits with an optional `+`. -/
def unsignedValue : List Char → Option Nat
  | '+' :: cs => parseDigits cs
  | cs => parseDigits cs

/-- The value of a string of digits with an optional sign. -/
def signedValue : List Char → Option Int
  | '+' :: cs => (parseDigits cs).map Int.ofNat
  | '-' :: cs => (parseDigits cs).map fun n => -Int.ofNat n
  | cs => (parseDigits cs).map Int.ofNat

/-- `str::parse` for an unsigned type with `bits` bits. -/
def parseUInt (bits : Nat) (s : String) : Option Nat :=
  (unsignedValue s.toList).bind fun n => if n < 2 ^ bits then some n else none

/-- `str::parse` for a signed type with `bits` bits. -/
def parseSInt (bits : Nat) (s : String) : Option Int :=
  (signedValue s.toList).bind fun z =>
    if -2 ^ (bits - 1) ≤ z ∧ z < 2 ^ (bits - 1) then some z else none

/-- `parse_int!` for unsigned types: reader.rs:608-621. -/
def uintLit (bits : Nat) (ty : MTy) (s : String) : Rd MLit :=
  match parseUInt bits s with
  | some n => pure (.uint n .decimal ty)
  | none => fail

/-- `parse_int!` for signed types: reader.rs:608-621. -/
def intLit (bits : Nat) (ty : MTy) (s : String) : Rd MLit :=
  match parseSInt bits s with
  | some z => pure (.int z .decimal ty)
  | none => fail

/-- `if let Type::Custom { builtin, .. } = ty { builtin } else { ty }`: reader.rs:582-586. -/
def stripCustom : MTy → MTy
  | .custom _ _ t => t
  | t => t

/-- reader.rs:600-607. -/
def intLitType (s : String) (ty : MTy) : MTy :=
  if s.toList.head? = some '-' ∧ ty = .uint64 then .int64 else ty

/-- `read_literal`: reader.rs:579-661. `rec` is `read_default` for the type inside of an
`Optional`. -/
def literalBody (ty : MTy) (rec : Rd MDef) : Rd MLit := do
  let kind ← u8
  let ty := stripCustom ty
  if kind == Codes.lStr then
    match ty with
    | .string => do return .string (← string)
    | _ => fail
  else if kind == Codes.lInt then
    let s ← string
    match intLitType s ty with
    | .uint8 => uintLit 8 .uint8 s
    | .int8 => intLit 8 .int8 s
    | .uint16 => uintLit 16 .uint16 s
    | .int16 => intLit 16 .int16 s
    | .uint32 => uintLit 32 .uint32 s
    | .int32 => intLit 32 .int32 s
    | .uint64 => uintLit 64 .uint64 s
    | .int64 => intLit 64 .int64 s
    | _ => fail
  else if kind == Codes.lFloat then
    match ty with
    | .float32 => do return .float (← string) .float32
    | .float64 => do return .float (← string) .float64
    | _ => fail
  else if kind == Codes.lBool then return .boolean (← bool)
  else if kind == Codes.lNone then
    match ty with
    | .optional _ => return .optNone
    | _ => fail
  else if kind == Codes.lSome then
    match ty with
    | .optional _ => do return .optSome (← rec)
    | _ => fail
  else if kind == Codes.lEmptySeq then return .emptySequence
  else if kind == Codes.lEmptyMap then return .emptyMap
  else if kind == Codes.lEmptySet then return .emptySet
  else fail

/-- `read_default`: reader.rs:561-569. -/
def defaultBody (lit : Rd MLit) : Rd MDef := do
  let kind ← u8
  if kind == Codes.dDefault then return .default
  else if kind == Codes.dLiteral then return .literal (← lit)
  else fail

/-- `read_default`, recursive through `Some`: reader.rs:561-569, 650-655. -/
def default : MTy → Rd MDef
  | .optional t => defaultBody (literalBody (.optional t) (default t))
  | .custom m n (.optional t) => defaultBody (literalBody (.custom m n (.optional t)) (default t))
  | ty => defaultBody (literalBody ty fail)

/-- `read_literal`: reader.rs:579-661. -/
def literal : MTy → Rd MLit
  | .optional t => literalBody (.optional t) (default t)
  | .custom m n (.optional t) => literalBody (.custom m n (.optional t)) (default t)
  | ty => literalBody ty fail

/-- `read_optional_default`: reader.rs:549-559. -/
def optDefault (ty : MTy) : Rd (Option MDef) := do
  if ← bool then return some (← default ty) else return none

/-- `read_optional_literal`: reader.rs:571-577. -/
def optLiteral (ty : MTy) : Rd (Option MLit) := do
  if ← bool then return some (← literal ty) else return none

/-- `(0..len).map(|_| ..).collect()`. -/
def times {α : Type} (x : Rd α) : Nat → Rd (List α)
  | 0 => pure []
  | n + 1 => do
    let a ← x
    let as ← times x n
    return a :: as

/-- `read_pass_by`: reader.rs:532-541. -/
def passBy : Rd PassBy := do
  let r ← bool
  let m ← bool
  match r, m with
  | false, false => return .value
  | true, false => return .ref
  | true, true => return .mutRef
  | false, true => fail

/-- One argument: reader.rs:517-527. -/
def input : Rd MArg := do
  let name ← string
  let ty ← type
  let passBy ← passBy
  let default ← optDefault ty
  return { name, ty, passBy, default, optional := false }

/-- `read_inputs`: reader.rs:513-530. -/
def inputs : Rd (List MArg) := do
  let len ← u8
  times input len.toNat

/-- One field: reader.rs:468-478. -/
def field : Rd MField := do
  let name ← string
  let origName ← optString
  let ty ← type
  let default ← optDefault ty
  let docstring ← optLongString
  return { name, origName, ty, default, docstring }

/-- `read_fields`: reader.rs:464-481. -/
def fields : Rd (List MField) := do
  let len ← u8
  times field len.toNat

/-- One variant: reader.rs:487-493. -/
def variant : Rd MVariant := do
  let name ← string
  let origName ← optString
  let discr ← optLiteral .uint64
  let fields ← fields
  let docstring ← optLongString
  return { name, origName, discr, fields, docstring }

/-- `read_variants`: reader.rs:483-496. -/
def variants : Rd (List MVariant) := do
  let len ← u8
  times variant len.toNat

/-- One flat variant: reader.rs:502-508. -/
def flatVariant : Rd MVariant := do
  let name ← string
  let origName ← optString
  let docstring ← optLongString
  return { name, origName, discr := none, fields := [], docstring }

/-- `read_flat_variants`: reader.rs:498-511. -/
def flatVariants : Rd (List MVariant) := do
  let len ← u8
  times flatVariant len.toNat

/-- `read_func`: reader.rs:243-262. -/
def func : Rd MFn := do
  let modulePath ← string
  let name ← string
  let origName ← optString
  let isAsync ← bool
  let inputs ← inputs
  let (returnType, throws) ← returnType
  let docstring ← optLongString
  let checksum ← checksum
  return { modulePath, name, origName, isAsync, inputs, returnType, throws, docstring, checksum }

/-- The check of reader.rs:274-285. -/
def constructorReturns (selfName : String) : Option MTy → Bool
  | some (.object _ name .struct) => name == selfName
  | _ => false

/-- `read_constructor`: reader.rs:264-298. -/
def constructor : Rd MCons := do
  let modulePath ← string
  let selfName ← string
  let name ← string
  let origName ← optString
  let isAsync ← bool
  let inputs ← inputs
  let (returnType, throws) ← returnType
  let docstring ← optLongString
  if constructorReturns selfName returnType then
    let checksum ← checksum
    return { modulePath, selfName, name, origName, isAsync, inputs, throws, docstring, checksum }
  else fail

/-- `read_method`: reader.rs:300-322. -/
def method : Rd MMethod := do
  let modulePath ← string
  let selfName ← string
  let name ← string
  let origName ← optString
  let isAsync ← bool
  let inputs ← inputs
  let (returnType, throws) ← returnType
  let docstring ← optLongString
  let checksum ← checksum
  return { selfName, fn :=
    { modulePath, name, origName, isAsync, inputs, returnType, throws, docstring, checksum } }

/-- `read_trait_method`: reader.rs:431-455. -/
def traitMethod : Rd Metadata := do
  let modulePath ← string
  let traitName ← string
  let index ← u32
  let name ← string
  let origName ← optString
  let isAsync ← bool
  let inputs ← inputs
  let (returnType, throws) ← returnType
  let docstring ← optLongString
  let checksum ← checksum
  return .traitMethod traitName index
    { modulePath, name, origName, isAsync, inputs, returnType, throws, docstring, checksum }

/-- `read_record`: reader.rs:324-333. -/
def record : Rd Metadata := do
  let m ← string
  let n ← string
  let o ← optString
  let fs ← fields
  let d ← optLongString
  return .record m n o fs d

/-- `EnumShape::from`: uniffi_meta/src/lib.rs:368-375. -/
def shape : Rd Shape := do
  let v ← u8
  if v == 0 then return .enum
  else if v == 1 then return .error false
  else if v == 2 then return .error true
  else fail

/-- reader.rs:340-344. -/
def discrType : Rd (Option MTy) := do
  if ← bool then return some (← type) else return none

/-- reader.rs:345-348. -/
def variantsFor : Shape → Rd (List MVariant)
  | .enum => variants
  | .error false => variants
  | .error true => flatVariants

/-- `read_enum`: reader.rs:335-361. -/
def enum : Rd Metadata := do
  let m ← string
  let n ← string
  let o ← optString
  let s ← shape
  let dt ← discrType
  let vs ← variantsFor s
  let ne ← bool
  let d ← optLongString
  return .enum m n o s dt vs ne d

/-- `read_object`: reader.rs:372-381, and reader.rs:56-61. -/
def object (trait : Bool) : Rd Metadata := do
  let m ← string
  let n ← string
  let o ← optString
  let d ← optLongString
  if trait then
    let k ← traitKind
    return .object m n o (.trait k) d
  else return .object m n o .struct d

/-- `read_custom_type`: reader.rs:383-393. -/
def customType : Rd Metadata := do
  let m ← string
  let n ← string
  let t ← type
  let d ← optLongString
  return .customType m n none t d

/-- `read_metadata_method`: reader.rs:397-401. -/
def codedMethod : Rd MMethod := do
  let code ← u8
  if code == Codes.method then method else fail

/-- `read_uniffi_trait`: reader.rs:395-421, with `UniffiTraitDiscriminants::from`: lib.rs:512-521. -/
def uniffiTrait : Rd Metadata := do
  let code ← u8
  if code == 0 then return .uniffiTrait (.debug (← codedMethod))
  else if code == 1 then return .uniffiTrait (.display (← codedMethod))
  else if code == 2 then
    let eq ← codedMethod
    let ne ← codedMethod
    return .uniffiTrait (.eq eq ne)
  else if code == 3 then return .uniffiTrait (.hash (← codedMethod))
  else if code == 4 then return .uniffiTrait (.ord (← codedMethod))
  else fail

/-- `read_callback_interface`: reader.rs:423-429. -/
def callbackInterface : Rd Metadata := do
  let m ← string
  let n ← string
  let d ← optLongString
  return .callbackInterface m n d

/-- `read_object_trait_impl`: reader.rs:457-462. -/
def objectTraitImpl : Rd Metadata := do
  let t ← type
  let u ← type
  return .objectTraitImpl t u

/-- reader.rs:40-44. -/
def namespace_ : Rd Metadata := do
  let c ← string
  let n ← string
  return .namespace_ c n

/-- reader.rs:45-50. -/
def udlFile : Rd Metadata := do
  let m ← string
  let n ← string
  let s ← string
  return .udlFile m n s

/-- `MetadataReader::read_metadata`: reader.rs:37-69. -/
def metadata : Rd Metadata := do
  let v ← u8
  if v == Codes.namespace_ then namespace_
  else if v == Codes.udlFile then udlFile
  else if v == Codes.func then return .func (← func)
  else if v == Codes.constructor then return .constructor (← constructor)
  else if v == Codes.method then return .method (← method)
  else if v == Codes.record then record
  else if v == Codes.enum then enum
  else if v == Codes.interface then object false
  else if v == Codes.traitInterface then object true
  else if v == Codes.callbackInterface then callbackInterface
  else if v == Codes.traitMethod then traitMethod
  else if v == Codes.uniffiTrait then uniffiTrait
  else if v == Codes.objectTraitImpl then objectTraitImpl
  else if v == Codes.customType then customType
  else fail

end Rd

/-- The value of a reader applied to data, without what is left of the data. -/
def Rd.runOn {α : Type} (x : Rd α) (data : Bytes) : Res α :=
  match x data data with
  | .ok (a, _) => .ok a
  | .err => .err
  | .panic => .panic

/-- `read_metadata`: reader.rs:9-11. Data after the item is ignored. -/
def readMetadata (data : Bytes) : Res Metadata := Rd.metadata.runOn data

/-- `read_metadata_type`: reader.rs:14-16. -/
def readMetadataType (data : Bytes) : Res MTy := Rd.type.runOn data

end Verif.Meta
