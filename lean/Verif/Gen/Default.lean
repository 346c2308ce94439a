import Verif.Meta.Types
/-
How the generators write default values: the text of a default argument or field.

uniffi_bindgen/src/bindings/kotlin/gen_kotlin/{primitives,compounds,custom}.rs,
swift/gen_swift/{primitives,compounds,custom}.rs, ruby/gen_ruby/mod.rs and
python/pipeline/default.rs. Enum literals (made from UDL only) and the defaults of types with a name
(calls of a constructor) are left out. Text is a list of characters; `none` is an error of the
generator, or its panic.
-/
namespace Verif.Gen.Default
open Verif.Meta

abbrev Text := List Char

/-- `format!("\"{s}\"")`. -/
def quote (s : String) : Text := '"' :: s.toList ++ ['"']

/-- `{i}` of a signed number. -/
def fmtInt (z : Int) : Text :=
  if z < 0 then '-' :: Nat.toDigits 10 z.natAbs else Nat.toDigits 10 z.natAbs

/-- An `i64` as `{:x}` and `{:o}` see it: the two's complement. -/
def bits64 (z : Int) : Nat := (z % 2 ^ 64).toNat

/-- `{i:#x}`. -/
def fmtHex (n : Nat) : Text := '0' :: 'x' :: Nat.toDigits 16 n

/-- `0o{i:o}`. -/
def fmtOct (n : Nat) : Text := '0' :: 'o' :: Nat.toDigits 8 n

/-- `typed_number` looks through one `Optional`: kotlin/gen_kotlin/primitives.rs:14-17. -/
def unwrapOptional : MTy → MTy
  | .optional t => t
  | t => t

namespace Kotlin

/-- `typed_number`: kotlin/gen_kotlin/primitives.rs:13-30. -/
def typedNumber (ty : MTy) (num : Text) : Option Text :=
  match unwrapOptional ty with
  | .int8 | .int16 | .int32 => some num
  | .int64 => some (num ++ ['L'])
  | .uint8 | .uint16 | .uint32 => some (num ++ ['u'])
  | .uint64 => some (num ++ ['u', 'L'])
  | .float32 => some (num ++ ['f'])
  | .float64 => some num
  | _ => none

/-- `render_literal`: kotlin/gen_kotlin/primitives.rs:12-55. Octal numbers are written in
hexadecimal. -/
def literal : MLit → Option Text
  | .boolean true => some "true".toList
  | .boolean false => some "false".toList
  | .string s => some (quote s)
  | .int z .decimal t => typedNumber t (fmtInt z)
  | .int z _ t => typedNumber t (fmtHex (bits64 z))
  | .uint n .decimal t => typedNumber t (Nat.toDigits 10 n)
  | .uint n _ t => typedNumber t (fmtHex n)
  | .float d t => typedNumber t d.toList
  | _ => none

/-- `CodeType::default` of the type: primitives.rs:60-93, compounds.rs:42-51, 81-89, 128-136, 168-176,
custom.rs:29-33. -/
def default : MTy → MDef → Option Text
  | .custom _ _ t, d => default t d
  | .box t, d => default t d
  | .optional _, .default => some "null".toList
  | .optional _, .literal .optNone => some "null".toList
  | .optional t, .literal (.optSome d) => default t d
  | .optional _, _ => none
  | .sequence _, .default => some "listOf()".toList
  | .sequence _, .literal .emptySequence => some "listOf()".toList
  | .sequence _, _ => none
  | .map _ _, .default => some "mapOf()".toList
  | .map _ _, .literal .emptyMap => some "mapOf()".toList
  | .map _ _, _ => none
  | .set _, .default => some "setOf()".toList
  | .set _, .literal .emptySequence => some "setOf()".toList
  | .set _, _ => none
  | .boolean, .default => some "false".toList
  | .string, .default => some "\"\"".toList
  | .bytes, .default => some "byteArrayOf()".toList
  | .int8, .default => some "0.toByte()".toList
  | .int16, .default => some "0".toList
  | .int32, .default => some "0".toList
  | .int64, .default => some "0L".toList
  | .uint8, .default => some "0U".toList
  | .uint16, .default => some "0U".toList
  | .uint32, .default => some "0U".toList
  | .uint64, .default => some "0UL".toList
  | .float32, .default => some "0.0f".toList
  | .float64, .default => some "0.0".toList
  | .boolean, .literal l | .string, .literal l | .bytes, .literal l
  | .int8, .literal l | .int16, .literal l | .int32, .literal l | .int64, .literal l
  | .uint8, .literal l | .uint16, .literal l | .uint32, .literal l | .uint64, .literal l
  | .float32, .literal l | .float64, .literal l => literal l
  | _, _ => none

end Kotlin

namespace Swift

/-- The names of number types: swift/gen_swift/primitives.rs:86-98. -/
def label : MTy → Option Text
  | .int8 => some "Int8".toList
  | .uint8 => some "UInt8".toList
  | .int16 => some "Int16".toList
  | .uint16 => some "UInt16".toList
  | .int32 => some "Int32".toList
  | .uint32 => some "UInt32".toList
  | .int64 => some "Int64".toList
  | .uint64 => some "UInt64".toList
  | .float32 => some "Float".toList
  | .float64 => some "Double".toList
  | _ => none

/-- `typed_number`: swift/gen_swift/primitives.rs:13-40. A type `Optional` would be written with a
question mark; no reader makes such a literal, and the model has no text for it. -/
def typedNumber (ty : MTy) (num : Text) : Option Text :=
  match ty with
  | .int32 => some num
  | t => (label t).map fun l => l ++ '(' :: num ++ [')']

/-- `render_literal`: swift/gen_swift/primitives.rs:12-64. -/
def literal : MLit → Option Text
  | .boolean true => some "true".toList
  | .boolean false => some "false".toList
  | .string s => some (quote s)
  | .int z .decimal t => typedNumber t (fmtInt z)
  | .int z .octal t => typedNumber t (fmtOct (bits64 z))
  | .int z .hexadecimal t => typedNumber t (fmtHex (bits64 z))
  | .uint n .decimal t => typedNumber t (Nat.toDigits 10 n)
  | .uint n .octal t => typedNumber t (fmtOct n)
  | .uint n .hexadecimal t => typedNumber t (fmtHex n)
  | .float d t => typedNumber t d.toList
  | _ => none

/-- `CodeType::default` of the type: primitives.rs:66-98, compounds.rs:35-43, 72-79, 111-116, 145-152,
custom.rs:28-32. -/
def default : MTy → MDef → Option Text
  | .custom _ _ t, d => default t d
  | .box t, d => default t d
  | .optional _, .default => some "nil".toList
  | .optional _, .literal .optNone => some "nil".toList
  | .optional t, .literal (.optSome d) => default t d
  | .optional _, _ => none
  | .sequence _, .default => some "[]".toList
  | .sequence _, .literal .emptySequence => some "[]".toList
  | .sequence _, _ => none
  | .map _ _, .default => some "[:]".toList
  | .map _ _, .literal .emptyMap => some "[:]".toList
  | .map _ _, _ => none
  | .set _, .default => some "Set()".toList
  | .set _, .literal .emptySequence => some "Set()".toList
  | .set _, _ => none
  | .boolean, .default => some "false".toList
  | .string, .default => some "\"\"".toList
  | .bytes, .default => some "Data([])".toList
  | .int8, .default => some "Int8(0)".toList
  | .int16, .default => some "Int16(0)".toList
  | .int32, .default => some "0".toList
  | .int64, .default => some "Int64(0)".toList
  | .uint8, .default => some "UInt8(0)".toList
  | .uint16, .default => some "UInt16(0)".toList
  | .uint32, .default => some "UInt32(0)".toList
  | .uint64, .default => some "UInt64(0)".toList
  | .float32, .default => some "Float(0)".toList
  | .float64, .default => some "Double(0)".toList
  | .boolean, .literal l | .string, .literal l | .bytes, .literal l
  | .int8, .literal l | .int16, .literal l | .int32, .literal l | .int64, .literal l
  | .uint8, .literal l | .uint16, .literal l | .uint32, .literal l | .uint64, .literal l
  | .float32, .literal l | .float64, .literal l => literal l
  | _, _ => none

end Swift

namespace Python

/-- `render_default` for the default of a type: python/pipeline/default.rs:23-57. -/
def zero : MTy → Option Text
  | .uint8 | .uint16 | .uint32 | .uint64 | .int8 | .int16 | .int32 | .int64 => some "0".toList
  | .float32 | .float64 => some "0.0".toList
  | .boolean => some "False".toList
  | .bytes => some "b\"\"".toList
  | .string => some "\"\"".toList
  | .optional _ => some "None".toList
  | .map _ _ => some "{}".toList
  | .sequence _ => some "[]".toList
  | .set _ => some "{*()}".toList
  | .custom _ _ t => zero t
  | _ => none

mutual
  /-- `render_literal`: python/pipeline/default.rs:62-98. `ty` is the type of the argument or field,
  which `map_default_value` (pipeline/general/default.rs:7-17) puts into every default below it. -/
  def literal (ty : MTy) : MLit → Option Text
    | .boolean true => some "True".toList
    | .boolean false => some "False".toList
    | .string s => some (quote s)
    | .int z .decimal _ => some (fmtInt z)
    | .int z .octal _ => some ("int(".toList ++ fmtOct (bits64 z) ++ [')'])
    | .int z .hexadecimal _ => some (fmtHex (bits64 z))
    | .uint n .decimal _ => some (Nat.toDigits 10 n)
    | .uint n .octal _ => some (fmtOct n)
    | .uint n .hexadecimal _ => some (fmtHex n)
    | .float d _ => some d.toList
    | .emptySequence => some "[]".toList
    | .emptyMap => some "{}".toList
    | .emptySet => some "{*()}".toList
    | .optNone => some "None".toList
    | .optSome d => default ty d
  /-- `render_default`: python/pipeline/default.rs:23-60. -/
  def default (ty : MTy) : MDef → Option Text
    | .default => zero ty
    | .literal l => literal ty l
end

mutual
  /-- `can_use_literal`: python/pipeline/default.rs:7-21. -/
  def canUseLiteral : MLit → Bool
    | .boolean _ | .string _ | .uint .. | .int .. | .float .. => true
    | .optSome d => canUseInner d
    | _ => false
  /-- The inner default of `Some`. -/
  def canUseInner : MDef → Bool
    | .literal l => canUseLiteral l
    | .default => false
end

/-- The sentinel `_DEFAULT`. -/
def sentinel : Text := "_DEFAULT".toList

/-- `arg_literal`: python/pipeline/default.rs:100-127. -/
def argLiteral (ty : MTy) : MDef → Option Text
  | .default =>
    match ty with
    | .uint8 | .uint16 | .uint32 | .uint64 | .int8 | .int16 | .int32 | .int64 | .float32 | .float64
    | .boolean | .bytes | .string | .optional _ => default ty .default
    | _ => some sentinel
  | .literal l => if canUseLiteral l then default ty (.literal l) else some sentinel

/-- What a caller that leaves the argument out gets: the value of an expression evaluated once, with
the definition, or of one evaluated at each call. -/
inductive Omitted where
  | once (expr : Text)
  | eachCall (expr : Text)
  deriving DecidableEq, Repr

/-- CallableArgs.py:3-4 with CallableBody.py:2-5, RecordTemplate.py:7-19 and EnumTemplate.py:101-113;
`is_arg_literal`: python/pipeline/nodes.rs:257-261. -/
def omitted (ty : MTy) (d : MDef) : Option Omitted :=
  match default ty d, argLiteral ty d with
  | some text, some arg => some (if text = arg then .once arg else .eachCall text)
  | _, _ => none

end Python

namespace Ruby

mutual
  /-- `literal_rb_inner`: ruby/gen_ruby/mod.rs:261-297. -/
  def literal : MLit → Option Text
    | .boolean true => some "true".toList
    | .boolean false => some "false".toList
    | .string s => some (quote s)
    | .optNone => some "nil".toList
    | .optSome d => inner d
    | .emptySequence => some "[]".toList
    | .emptyMap => some "{}".toList
    | .emptySet => some "Set.new".toList
    | .int z .decimal _ => some (fmtInt z)
    | .int z .octal _ => some (fmtOct (bits64 z))
    | .int z .hexadecimal _ => some (fmtHex (bits64 z))
    | .uint n .decimal _ => some (Nat.toDigits 10 n)
    | .uint n .octal _ => some (fmtOct n)
    | .uint n .hexadecimal _ => some (fmtHex n)
    | .float d _ => some d.toList
  /-- `default_rb_inner`: ruby/gen_ruby/mod.rs:254-259. The default of a type is not supported. -/
  def inner : MDef → Option Text
    | .default => none
    | .literal l => literal l
end

/-- `type_zero_value_rb`: ruby/gen_ruby/mod.rs:300-330. -/
def zero : MTy → Option Text
  | .int8 | .uint8 | .int16 | .uint16 | .int32 | .uint32 | .int64 | .uint64 => some "0".toList
  | .float32 | .float64 => some "0.0".toList
  | .boolean => some "false".toList
  | .string => some "\"\"".toList
  | .optional _ => some "nil".toList
  | .sequence _ => some "[]".toList
  | .bytes => some "\"\".b".toList
  | .map _ _ => some "{}".toList
  | .set _ => some "Set.new".toList
  | .custom _ _ t => zero t
  | _ => none

/-- `field_default_rb` and `arg_default_rb`: ruby/gen_ruby/mod.rs:333-359. -/
def default (ty : MTy) : MDef → Option Text
  | .default => zero ty
  | .literal l => literal l

end Ruby

end Verif.Gen.Default
