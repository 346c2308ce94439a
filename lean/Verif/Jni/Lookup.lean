import Verif.Jni.Calls
/-
How Rust finds the Kotlin functions that put values together: it asks the virtual machine for a static method by class,
name and signature, where the signature is made from the Kotlin name of the type. Strings are lists of characters.
-/
namespace Verif.Jni.Lookup
open Verif.Jni Verif.Jni.Calls

abbrev Str := List Char

/-- The names that come from elsewhere. -/
structure Names where
  /-- `package_name_for_namespace`: context.rs:123-128 -/
  pkg : Name → Str
  /-- `class_name_kt` without its backticks: names.rs:11-19 -/
  cls : Ty → Str

/-- The last arm for named types in `type_kt`: types.rs:141-145. -/
def Names.named (N : Names) (n : Name) (t : Ty) : Str := N.pkg n ++ '.' :: '`' :: N.cls t ++ ['`']

/-- `type_kt`: `uniffi-bindgen-kotlin-jni/src/pipeline/types.rs:94-151`. -/
def typeKt (N : Names) : Ty → Str
  | .int .u8 => "kotlin.UByte".toList
  | .int .i8 => "kotlin.Byte".toList
  | .int .u16 => "kotlin.UShort".toList
  | .int .i16 => "kotlin.Short".toList
  | .int .u32 => "kotlin.UInt".toList
  | .int .i32 => "kotlin.Int".toList
  | .int .u64 => "kotlin.ULong".toList
  | .int .i64 => "kotlin.Long".toList
  | .f32 => "kotlin.Float".toList
  | .f64 => "kotlin.Double".toList
  | .bool => "kotlin.Boolean".toList
  | .string => "kotlin.String".toList
  | .option t => typeKt N t ++ ['?']
  | .seq t => "kotlin.collections.List<".toList ++ typeKt N t ++ ['>']
  | .map k v => "kotlin.collections.Map<".toList ++ typeKt N k ++ ", ".toList ++ typeKt N v ++ ['>']
  | .set t => "kotlin.collections.Set<".toList ++ typeKt N t ++ ['>']
  | .record n => N.named n (.record n)
  | .enum n => N.named n (.enum n)
  | .custom n b => N.named n (.custom n b)
  | .iface n => N.named n (.iface n)
  | .callback n => N.named n (.callback n)
  | .box t => typeKt N t
  | .duration => "java.time.Duration".toList
  | .timestamp => "java.time.Instant".toList
  | .bytes => "kotlin.ByteArray".toList

/-- `strip_suffix("?")`. -/
def stripQ (s : Str) : Option Str := if s.getLast? = some '?' then some s.dropLast else none

/-- The optional types with signatures of their own: types.rs:521-534. -/
def boxedTable : List (Str × Str) :=
  [("kotlin.Byte".toList, "Ljava/lang/Byte;".toList), ("kotlin.Short".toList, "Ljava/lang/Short;".toList),
   ("kotlin.Int".toList, "Ljava/lang/Int;".toList), ("kotlin.Long".toList, "Ljava/lang/Long;".toList),
   ("kotlin.Float".toList, "Ljava/lang/Float;".toList), ("kotlin.Double".toList, "Ljava/lang/Double;".toList),
   ("kotlin.Boolean".toList, "Ljava/lang/Boolean;".toList), ("kotlin.UByte".toList, "Lkotlin/UByte;".toList),
   ("kotlin.UShort".toList, "Lkotlin/UShort;".toList), ("kotlin.UInt".toList, "Lkotlin/UInt;".toList),
   ("kotlin.ULong".toList, "Lkotlin/ULong;".toList)]

/-- The primitive types: types.rs:541-547. -/
def primTable : List (Str × Str) :=
  [("kotlin.Byte".toList, ['B']), ("kotlin.UByte".toList, ['B']), ("kotlin.Short".toList, ['S']),
   ("kotlin.UShort".toList, ['S']), ("kotlin.Int".toList, ['I']), ("kotlin.UInt".toList, ['I']),
   ("kotlin.Long".toList, ['J']), ("kotlin.ULong".toList, ['J']), ("kotlin.Float".toList, ['F']),
   ("kotlin.Double".toList, ['D']), ("kotlin.Boolean".toList, ['Z'])]

/-- `replace(".", "/").replace("`", "")`. -/
def slashes (s : Str) : Str := (s.map fun c => if c = '.' then '/' else c).filter fun c => c ≠ '`'

/-- The second half of `jni_return_signature`: types.rs:539-553. -/
def plainSig (s : Str) : Str :=
  match primTable.lookup s with
  | some r => r
  | none =>
    if "kotlin.collections.List".toList.isPrefixOf s then "Ljava/util/List;".toList
    else if "kotlin.collections.Map".toList.isPrefixOf s then "Ljava/util/Map;".toList
    else if "kotlin.collections.Set".toList.isPrefixOf s then "Ljava/util/Set;".toList
    else 'L' :: slashes s ++ [';']

/-- `jni_return_signature`: types.rs:515-554. -/
def retSig (s : Str) : Str :=
  match stripQ s with
  | some inner =>
    match boxedTable.lookup inner with
    | some r => r
    | none => plainSig inner
  | none => plainSig s

/-- `FfiType::jni_signature`: ffi_types.rs:218-236. -/
def ffiSig : Ffi → Str
  | .int8 => ['B']
  | .int16 => ['S']
  | .int32 => ['I']
  | .int64 => ['J']
  | .float32 => ['F']
  | .float64 => ['D']
  | .boolean => ['Z']
  | .string => "Ljava/lang/String;".toList
  | .byteBuffer => "Ljava/nio/ByteBuffer;".toList
  | .byteArray => "[B".toList
  | .shortArray => "[S".toList
  | .intArray => "[I".toList
  | .longArray => "[J".toList
  | .floatArray => "[F".toList
  | .doubleArray => "[D".toList

/-- `FfiType::type_kt`: ffi_types.rs:152-173. The types of the parameters of Kotlin `lift` functions (RecordFfi.kt:33-36,
EnumFfi.kt:75-78, OptionalFfi.kt:35-38, CustomFfi.kt:12-15; elsewhere the same types are written out). -/
def ffiKt : Ffi → String
  | .int8 => "Byte"
  | .int16 => "Short"
  | .int32 => "Int"
  | .int64 => "Long"
  | .float32 => "Float"
  | .float64 => "Double"
  | .boolean => "Boolean"
  | .string => "String?"
  | .byteArray => "kotlin.ByteArray?"
  | .shortArray => "kotlin.ShortArray?"
  | .intArray => "kotlin.IntArray?"
  | .longArray => "kotlin.LongArray?"
  | .floatArray => "kotlin.FloatArray?"
  | .doubleArray => "kotlin.DoubleArray?"
  | .byteBuffer => "java.nio.ByteBuffer?"

/-- `FfiType::jvalue_field`: ffi_types.rs:239-257. -/
def jvalueField : Ffi → Char
  | .int8 => 'b'
  | .int16 => 's'
  | .int32 => 'i'
  | .int64 => 'j'
  | .float32 => 'f'
  | .float64 => 'd'
  | .boolean => 'z'
  | _ => 'l'

/-- `lift_fn_jni_signature`: types.rs:505-513. -/
def liftSig (N : Names) (ffi : List Ffi) (t : Ty) : Str :=
  '(' :: ffi.flatMap ffiSig ++ ')' :: retSig (typeKt N t)

/-- The types of `lift_kt_from_rust_types` before those seen are left out: root.rs:73-93. -/
def wanted (r : Root) : List Ty :=
  (r.rustFns ++ r.kotlinFns).flatMap (fun c => (c.ret.toList.filter fun t => r.one t = false) ++ c.throws.toList) ++
    r.packages.flatten.flatMap fun d => match d with | .box t => [t] | _ => []

/-- The first type for each number. -/
def firsts (r : Root) : List Nat → List Ty → List Ty
  | _, [] => []
  | seen, t :: ts => if r.id t ∈ seen then firsts r seen ts else t :: firsts r (r.id t :: seen) ts

/-- The types with a static method: lift_lower.rs:1-7. Of each one the name of the variable has the number of the type. -/
def statics (r : Root) : List Ty := firsts r [] (wanted r)

/-- `lift_kt_from_rust_var`: types.rs:501-503. -/
def varName (r : Root) (t : Ty) : String := "UNIFFI_CACHED_LIFT_KT_" ++ toString (r.id t)

/-- The types whose variables are used: jni_method.rs:74, 98; async.rs:111; box.rs:81. -/
def used (r : Root) : List Ty :=
  r.rustFns.flatMap (fun c => (c.ret.toList.filter fun t => r.one t = false) ++ c.throws.toList) ++
    r.defs.flatMap fun d => match d with | .box t => [t] | _ => []

end Verif.Jni.Lookup
