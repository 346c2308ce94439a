import Verif.Jni.Lookup
/-
The signatures that the Kotlin compiler gives to functions, as far as generated functions need them.
-/
namespace Verif.Jni.Lookup
open Verif.Jni Verif.Jni.Calls

/-- The class of a named type: the package with slashes, and backticks are not part of names. -/
def classOf (N : Names) (n : Name) (t : Ty) : Str :=
  'L' :: ((N.pkg n).filter (· ≠ '`')).map (fun c => if c = '.' then '/' else c) ++ '/' :: N.cls t ++ [';']

/-- The descriptor of a Kotlin type. A primitive type is boxed when `null` is possible; `T??` is `T?`; an alias is what it
stands for; type arguments are erased. Simplified: a custom type without configuration, which is an alias of its builtin
type. -/
def descriptor (N : Names) (nullable : Bool) : Ty → Str
  | .int .i8 => if nullable then "Ljava/lang/Byte;".toList else ['B']
  | .int .i16 => if nullable then "Ljava/lang/Short;".toList else ['S']
  | .int .i32 => if nullable then "Ljava/lang/Integer;".toList else ['I']
  | .int .i64 => if nullable then "Ljava/lang/Long;".toList else ['J']
  | .int .u8 => if nullable then "Lkotlin/UByte;".toList else ['B']
  | .int .u16 => if nullable then "Lkotlin/UShort;".toList else ['S']
  | .int .u32 => if nullable then "Lkotlin/UInt;".toList else ['I']
  | .int .u64 => if nullable then "Lkotlin/ULong;".toList else ['J']
  | .f32 => if nullable then "Ljava/lang/Float;".toList else ['F']
  | .f64 => if nullable then "Ljava/lang/Double;".toList else ['D']
  | .bool => if nullable then "Ljava/lang/Boolean;".toList else ['Z']
  | .string => "Ljava/lang/String;".toList
  | .bytes => "[B".toList
  | .option t => descriptor N true t
  | .box t => descriptor N nullable t
  | .custom _ b => descriptor N nullable b
  | .seq _ => "Ljava/util/List;".toList
  | .map _ _ => "Ljava/util/Map;".toList
  | .set _ => "Ljava/util/Set;".toList
  | .duration => "Ljava/time/Duration;".toList
  | .timestamp => "Ljava/time/Instant;".toList
  | .record n => classOf N n (.record n)
  | .enum n => classOf N n (.enum n)
  | .iface n => classOf N n (.iface n)
  | .callback n => classOf N n (.callback n)

/-- The descriptors of the types of parameters. -/
def paramDescriptor : String → Option String
  | "Byte" => some "B"
  | "Short" => some "S"
  | "Int" => some "I"
  | "Long" => some "J"
  | "Float" => some "F"
  | "Double" => some "D"
  | "Boolean" => some "Z"
  | "String?" => some "Ljava/lang/String;"
  | "kotlin.ByteArray?" => some "[B"
  | "kotlin.ShortArray?" => some "[S"
  | "kotlin.IntArray?" => some "[I"
  | "kotlin.LongArray?" => some "[J"
  | "kotlin.FloatArray?" => some "[F"
  | "kotlin.DoubleArray?" => some "[D"
  | "java.nio.ByteBuffer?" => some "Ljava/nio/ByteBuffer;"
  | _ => none

/-- The descriptor of a function with parameters of these types and a result with this descriptor. -/
def methodDescriptor (params : List String) (ret : Str) : Option Str := do
  let ps ← params.mapM paramDescriptor
  some ('(' :: ps.flatMap String.toList ++ ')' :: ret)

/-- Packages are not below `kotlin.collections`, and class names have no dots or backticks. -/
structure Names.Ok (N : Names) : Prop where
  pkg : ∀ n, ¬ "kotlin.collections".toList <+: N.pkg n
  cls : ∀ t, ∀ c ∈ N.cls t, c ≠ '.' ∧ c ≠ '`'

/-- The type without its boxes and options. -/
def core : Ty → Ty
  | .box t => core t
  | .option t => core t
  | t => t

/-- How many options there are around it. -/
def depth : Ty → Nat
  | .box t => depth t
  | .option t => depth t + 1
  | _ => 0

/-- Lists, maps and sets. -/
def Collection (t : Ty) : Prop := (∃ u, t = .seq u) ∨ (∃ k v, t = .map k v) ∨ ∃ u, t = .set u

/-- The types with the right signature: lists, maps and sets, with any options around them; other types but strings, bytes
and custom types, with at most one option around them, and none around an `i32`. -/
def Fit (t : Ty) : Prop :=
  Collection (core t) ∨ ((core t ≠ .string ∧ core t ≠ .bytes ∧ ∀ n b, core t ≠ .custom n b) ∧
    (depth t = 0 ∨ depth t = 1 ∧ core t ≠ .int .i32))

/-- A type that is a primitive type in Kotlin. -/
def Primitive (t : Ty) : Prop :=
  depth t = 0 ∧ ((∃ i, core t = .int i) ∨ core t = .f32 ∨ core t = .f64 ∨ core t = .bool)

end Verif.Jni.Lookup
