import Verif.Wire.Rust
/-
What the metadata describes: the Rust items the macros see, and the values the bindings generators
get (`uniffi_meta::Metadata`).
-/
namespace Verif.Meta
open Verif

/-! Metadata codes as the scaffolding writes them: uniffi_core/src/metadata.rs:28-94. -/
namespace Core
def func : UInt8 := 0
def method : UInt8 := 1
def record : UInt8 := 2
def enum : UInt8 := 3
def interface : UInt8 := 4
def namespace_ : UInt8 := 6
def constructor : UInt8 := 7
def udlFile : UInt8 := 8
def callbackInterface : UInt8 := 9
def traitMethod : UInt8 := 10
def uniffiTrait : UInt8 := 11
def traitInterface : UInt8 := 12
def objectTraitImpl : UInt8 := 14
def customType : UInt8 := 15
def tU8 : UInt8 := 0
def tU16 : UInt8 := 1
def tU32 : UInt8 := 2
def tU64 : UInt8 := 3
def tI8 : UInt8 := 4
def tI16 : UInt8 := 5
def tI32 : UInt8 := 6
def tI64 : UInt8 := 7
def tF32 : UInt8 := 8
def tF64 : UInt8 := 9
def tBool : UInt8 := 10
def tString : UInt8 := 11
def tOption : UInt8 := 12
def tRecord : UInt8 := 13
def tEnum : UInt8 := 14
def tInterface : UInt8 := 16
def tVec : UInt8 := 17
def tHashMap : UInt8 := 18
def tSystemTime : UInt8 := 19
def tDuration : UInt8 := 20
def tCallbackInterface : UInt8 := 21
def tCustom : UInt8 := 22
def tResult : UInt8 := 23
def tTraitInterface : UInt8 := 24
def tBox : UInt8 := 26
def tHashSet : UInt8 := 27
def tUnit : UInt8 := 255
def kRustOnly : UInt8 := 0
def kBoth : UInt8 := 1
def kForeignOnly : UInt8 := 2
def lStr : UInt8 := 0
def lInt : UInt8 := 1
def lFloat : UInt8 := 2
def lBool : UInt8 := 3
def lNone : UInt8 := 4
def lSome : UInt8 := 5
def lEmptySeq : UInt8 := 6
def dDefault : UInt8 := 0
def dLiteral : UInt8 := 1
end Core

/-! Metadata codes as the reader knows them: uniffi_meta/src/metadata.rs:11-77. -/
namespace Codes
def func : UInt8 := 0
def method : UInt8 := 1
def record : UInt8 := 2
def enum : UInt8 := 3
def interface : UInt8 := 4
def namespace_ : UInt8 := 6
def constructor : UInt8 := 7
def udlFile : UInt8 := 8
def callbackInterface : UInt8 := 9
def traitMethod : UInt8 := 10
def uniffiTrait : UInt8 := 11
def traitInterface : UInt8 := 12
def objectTraitImpl : UInt8 := 14
def customType : UInt8 := 15
def tU8 : UInt8 := 0
def tU16 : UInt8 := 1
def tU32 : UInt8 := 2
def tU64 : UInt8 := 3
def tI8 : UInt8 := 4
def tI16 : UInt8 := 5
def tI32 : UInt8 := 6
def tI64 : UInt8 := 7
def tF32 : UInt8 := 8
def tF64 : UInt8 := 9
def tBool : UInt8 := 10
def tString : UInt8 := 11
def tOption : UInt8 := 12
def tRecord : UInt8 := 13
def tEnum : UInt8 := 14
def tInterface : UInt8 := 16
def tVec : UInt8 := 17
def tHashMap : UInt8 := 18
def tSystemTime : UInt8 := 19
def tDuration : UInt8 := 20
def tCallbackInterface : UInt8 := 21
def tCustom : UInt8 := 22
def tResult : UInt8 := 23
def tTraitInterface : UInt8 := 24
def tBox : UInt8 := 26
def tHashSet : UInt8 := 27
def tUnit : UInt8 := 255
def kRustOnly : UInt8 := 0
def kBoth : UInt8 := 1
def kForeignOnly : UInt8 := 2
def lStr : UInt8 := 0
def lInt : UInt8 := 1
def lFloat : UInt8 := 2
def lBool : UInt8 := 3
def lNone : UInt8 := 4
def lSome : UInt8 := 5
def lEmptySeq : UInt8 := 6
def lEmptyMap : UInt8 := 7
def lEmptySet : UInt8 := 8
def dDefault : UInt8 := 0
def dLiteral : UInt8 := 1
end Codes

/-- `TraitKind`: uniffi_meta/src/types.rs:33-40. -/
inductive TraitKind where
  | rustOnly | both | foreignOnly
  deriving DecidableEq, Repr

/-- `ObjectImpl`: types.rs:45-52. -/
inductive Impl where
  | struct | trait (kind : TraitKind)
  deriving DecidableEq, Repr

/-- `uniffi_meta::Type`: types.rs:84-147. -/
inductive MTy where
  | uint8 | int8 | uint16 | int16 | uint32 | int32 | uint64 | int64
  | float32 | float64 | boolean | string | bytes | timestamp | duration
  | object (modulePath name : String) (imp : Impl)
  | record (modulePath name : String)
  | enum (modulePath name : String)
  | callbackInterface (modulePath name : String)
  | optional (inner : MTy)
  | box (inner : MTy)
  | sequence (inner : MTy)
  | set (inner : MTy)
  | map (key value : MTy)
  | custom (modulePath name : String) (builtin : MTy)
  deriving DecidableEq, Repr

/-- A Rust type that can be exported. `modulePath` is `module_path!()` where the type is exported. -/
inductive RTy where
  | u8 | i8 | u16 | i16 | u32 | i32 | u64 | i64
  | f32 | f64 | bool | string | systemTime | duration
  /-- `&[u8]` and `&mut [u8]` arguments, received as `ForeignBytes` and `ForeignBytesMut` -/
  | byteSlice
  /-- `Arc<Object>` -/
  | object (modulePath name : String)
  /-- `Arc<dyn Trait>` -/
  | traitObject (modulePath name : String) (kind : TraitKind)
  /-- `Box<dyn Trait>` -/
  | callbackInterface (modulePath name : String)
  | record (modulePath name : String)
  | enum (modulePath name : String)
  | custom (modulePath name : String) (builtin : RTy)
  | option (inner : RTy)
  | box (inner : RTy)
  | vec (inner : RTy)
  | hashMap (key value : RTy)
  | hashSet (inner : RTy)
  deriving DecidableEq, Repr

/-- A default as written in an attribute: `DefaultValue`, uniffi_macros/src/default.rs:17-31.
An integer literal carries its value, a float literal its digits. -/
inductive DefSrc where
  | str (s : String)
  | int (z : Int) (suffix : Bool)
  | float (digits : String) (suffix : Bool)
  | bool (b : Bool)
  /-- byte strings, characters, … -/
  | otherLiteral
  | optNone
  | optSome (inner : DefSrc)
  | emptySeq
  | default
  deriving DecidableEq, Repr

/-- `PassBy`: types.rs:267-286. -/
inductive PassBy where
  | value | ref | mutRef
  deriving DecidableEq, Repr

/-- A function argument. -/
structure ArgSrc where
  name : String
  ty : RTy
  passBy : PassBy
  default : Option DefSrc
  deriving DecidableEq, Repr

/-- A return type; `none` is `()`. -/
inductive RetSrc where
  | plain (t : Option RTy)
  | result (t e : Option RTy)
  deriving DecidableEq, Repr

/-- What kind of callable is exported: `FnKind`, uniffi_macros/src/fnsig.rs. -/
inductive FnKind where
  | function
  | method (selfName : String)
  | constructor (selfName : String)
  | traitMethod (selfName : String) (index : UInt32)
  deriving DecidableEq, Repr

/-- An exported function, method, constructor or trait method. `origName` is the Rust name when the
exported name comes from an attribute. -/
structure FnSrc where
  kind : FnKind
  modulePath : String
  name : String
  origName : Option String
  isAsync : Bool
  args : List ArgSrc
  ret : RetSrc
  docstring : String
  deriving DecidableEq, Repr

/-- A field of a record or of a variant. -/
structure FieldSrc where
  name : String
  origName : Option String
  ty : RTy
  default : Option DefSrc
  docstring : String
  deriving DecidableEq, Repr

/-- A variant. `discr` is an explicit `= literal`. -/
structure VariantSrc where
  name : String
  origName : Option String
  discr : Option Int
  fields : List FieldSrc
  docstring : String
  deriving DecidableEq, Repr

/-- `EnumShape`: uniffi_meta/src/lib.rs:355-358. -/
inductive Shape where
  | enum | error (flat : Bool)
  deriving DecidableEq, Repr

/-- Which built-in trait is exported, with the generated methods. -/
inductive UTraitSrc where
  | debug (fmt : FnSrc)
  | display (fmt : FnSrc)
  | eq (eq ne : FnSrc)
  | hash (hash : FnSrc)
  | ord (cmp : FnSrc)

/-- An item the macros (or, for `udlFile`, the scaffolding template) emit metadata for. -/
inductive Item where
  | namespace_ (crateName name : String)
  | udlFile (modulePath ns fileStub : String)
  | fn (f : FnSrc)
  | record (modulePath name : String) (origName : Option String) (fields : List FieldSrc)
      (docstring : String)
  | enum (modulePath name : String) (origName : Option String) (discrType : Option RTy)
      (variants : List VariantSrc) (nonExhaustive : Bool) (docstring : String)
  | error (modulePath name : String) (origName : Option String) (flat : Bool)
      (variants : List VariantSrc) (nonExhaustive : Bool) (docstring : String)
  | object (modulePath name : String) (origName : Option String) (imp : Impl) (docstring : String)
  | callbackInterface (modulePath name docstring : String)
  | uniffiTrait (t : UTraitSrc)
  | objectTraitImpl (modulePath objectName : String) (trait : RTy)
  | custom (modulePath name : String) (builtin : RTy) (docstring : String)

/-- `Radix`: uniffi_meta/src/lib.rs:319-323. -/
inductive Radix where
  | decimal | octal | hexadecimal
  deriving DecidableEq, Repr

mutual
  /-- `LiteralMetadata`: lib.rs:286-314. `Enum` is only produced from UDL and is left out. -/
  inductive MLit where
    | boolean (b : Bool)
    | string (s : String)
    | uint (n : Nat) (radix : Radix) (ty : MTy)
    | int (z : Int) (radix : Radix) (ty : MTy)
    | float (digits : String) (ty : MTy)
    | emptySequence | emptyMap | emptySet
    | optNone
    | optSome (inner : MDef)
  /-- `DefaultValueMetadata`: lib.rs:326-331. -/
  inductive MDef where
    | default
    | literal (l : MLit)
end

mutual
  /-- Derived `PartialEq`. -/
  def MLit.decEq : (a b : MLit) → Decidable (a = b)
    | .boolean a, .boolean b => decidable_of_iff (a = b) (by simp)
    | .string a, .string b => decidable_of_iff (a = b) (by simp)
    | .uint a r t, .uint b s u => decidable_of_iff (a = b ∧ r = s ∧ t = u) (by simp)
    | .int a r t, .int b s u => decidable_of_iff (a = b ∧ r = s ∧ t = u) (by simp)
    | .float a t, .float b u => decidable_of_iff (a = b ∧ t = u) (by simp)
    | .emptySequence, .emptySequence => isTrue rfl
    | .emptyMap, .emptyMap => isTrue rfl
    | .emptySet, .emptySet => isTrue rfl
    | .optNone, .optNone => isTrue rfl
    | .optSome a, .optSome b =>
      match a.decEq b with
      | isTrue h => isTrue (by rw [h])
      | isFalse h => isFalse (by simpa using h)
    | .boolean _, .string _ | .boolean _, .uint .. | .boolean _, .int .. | .boolean _, .float ..
    | .boolean _, .emptySequence | .boolean _, .emptyMap | .boolean _, .emptySet
    | .boolean _, .optNone | .boolean _, .optSome _ => isFalse nofun
    | .string _, .boolean _ | .string _, .uint .. | .string _, .int .. | .string _, .float ..
    | .string _, .emptySequence | .string _, .emptyMap | .string _, .emptySet
    | .string _, .optNone | .string _, .optSome _ => isFalse nofun
    | .uint .., .boolean _ | .uint .., .string _ | .uint .., .int .. | .uint .., .float ..
    | .uint .., .emptySequence | .uint .., .emptyMap | .uint .., .emptySet
    | .uint .., .optNone | .uint .., .optSome _ => isFalse nofun
    | .int .., .boolean _ | .int .., .string _ | .int .., .uint .. | .int .., .float ..
    | .int .., .emptySequence | .int .., .emptyMap | .int .., .emptySet
    | .int .., .optNone | .int .., .optSome _ => isFalse nofun
    | .float .., .boolean _ | .float .., .string _ | .float .., .uint .. | .float .., .int ..
    | .float .., .emptySequence | .float .., .emptyMap | .float .., .emptySet
    | .float .., .optNone | .float .., .optSome _ => isFalse nofun
    | .emptySequence, .boolean _ | .emptySequence, .string _ | .emptySequence, .uint ..
    | .emptySequence, .int .. | .emptySequence, .float .. | .emptySequence, .emptyMap
    | .emptySequence, .emptySet | .emptySequence, .optNone
    | .emptySequence, .optSome _ => isFalse nofun
    | .emptyMap, .boolean _ | .emptyMap, .string _ | .emptyMap, .uint .. | .emptyMap, .int ..
    | .emptyMap, .float .. | .emptyMap, .emptySequence | .emptyMap, .emptySet
    | .emptyMap, .optNone | .emptyMap, .optSome _ => isFalse nofun
    | .emptySet, .boolean _ | .emptySet, .string _ | .emptySet, .uint .. | .emptySet, .int ..
    | .emptySet, .float .. | .emptySet, .emptySequence | .emptySet, .emptyMap
    | .emptySet, .optNone | .emptySet, .optSome _ => isFalse nofun
    | .optNone, .boolean _ | .optNone, .string _ | .optNone, .uint .. | .optNone, .int ..
    | .optNone, .float .. | .optNone, .emptySequence | .optNone, .emptyMap
    | .optNone, .emptySet | .optNone, .optSome _ => isFalse nofun
    | .optSome _, .boolean _ | .optSome _, .string _ | .optSome _, .uint .. | .optSome _, .int ..
    | .optSome _, .float .. | .optSome _, .emptySequence | .optSome _, .emptyMap
    | .optSome _, .emptySet | .optSome _, .optNone => isFalse nofun
  /-- Derived `PartialEq`. -/
  def MDef.decEq : (a b : MDef) → Decidable (a = b)
    | .default, .default => isTrue rfl
    | .literal a, .literal b =>
      match a.decEq b with
      | isTrue h => isTrue (by rw [h])
      | isFalse h => isFalse (by simpa using h)
    | .default, .literal _ => isFalse nofun
    | .literal _, .default => isFalse nofun
end

instance : DecidableEq MLit := MLit.decEq
instance : DecidableEq MDef := MDef.decEq

/-- `FnParamMetadata`: lib.rs:265-271. -/
structure MArg where
  name : String
  ty : MTy
  passBy : PassBy
  optional : Bool
  default : Option MDef
  deriving DecidableEq

/-- `FnMetadata`, `MethodMetadata` and `TraitMethodMetadata`: lib.rs:140-156, 192-216, 218-244.
`takes_self_by_arc`, always false, is left out. -/
structure MFn where
  modulePath : String
  name : String
  origName : Option String
  isAsync : Bool
  inputs : List MArg
  returnType : Option MTy
  throws : Option MTy
  checksum : Option UInt16
  docstring : Option String
  deriving DecidableEq

/-- `ConstructorMetadata`: lib.rs:164-179. -/
structure MCons where
  modulePath : String
  selfName : String
  name : String
  origName : Option String
  isAsync : Bool
  inputs : List MArg
  throws : Option MTy
  checksum : Option UInt16
  docstring : Option String
  deriving DecidableEq

/-- A `MethodMetadata`: `MFn` with the name of the object. -/
structure MMethod where
  selfName : String
  fn : MFn
  deriving DecidableEq

/-- `FieldMetadata`: lib.rs:345-351. -/
structure MField where
  name : String
  origName : Option String
  ty : MTy
  default : Option MDef
  docstring : Option String
  deriving DecidableEq

/-- `VariantMetadata`: lib.rs:398-405. -/
structure MVariant where
  name : String
  origName : Option String
  discr : Option MLit
  fields : List MField
  docstring : Option String
  deriving DecidableEq

/-- `UniffiTraitMetadata`: lib.rs:447-464. -/
inductive MUTrait where
  | debug (fmt : MMethod)
  | display (fmt : MMethod)
  | eq (eq ne : MMethod)
  | hash (hash : MMethod)
  | ord (cmp : MMethod)
  deriving DecidableEq

/-- `Metadata`: lib.rs:575-590. The constant `remote: false` fields are left out. -/
inductive Metadata where
  | namespace_ (crateName name : String)
  | udlFile (modulePath ns fileStub : String)
  | func (f : MFn)
  | object (modulePath name : String) (origName : Option String) (imp : Impl)
      (docstring : Option String)
  | callbackInterface (modulePath name : String) (docstring : Option String)
  | record (modulePath name : String) (origName : Option String) (fields : List MField)
      (docstring : Option String)
  | enum (modulePath name : String) (origName : Option String) (shape : Shape)
      (discrType : Option MTy) (variants : List MVariant) (nonExhaustive : Bool)
      (docstring : Option String)
  | constructor (c : MCons)
  | method (m : MMethod)
  | traitMethod (traitName : String) (index : UInt32) (f : MFn)
  | customType (modulePath name : String) (origName : Option String) (builtin : MTy)
      (docstring : Option String)
  | uniffiTrait (t : MUTrait)
  | objectTraitImpl (ty traitTy : MTy)
  deriving DecidableEq

end Verif.Meta
