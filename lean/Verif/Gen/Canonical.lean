import Verif.Meta.Types
/-
The names from which the bindings make the names of converters: `canonical_name` of the pipeline
(used by Python) and of the Kotlin and Swift generators. Text is a list of characters.
-/
namespace Verif.Gen.Canonical
open Verif.Meta

abbrev Text := List Char

/-- `canonical_name`: pipeline/general/types.rs:19-65. -/
def pipeline : MTy → Text
  | .uint8 => "UInt8".toList
  | .int8 => "Int8".toList
  | .uint16 => "UInt16".toList
  | .int16 => "Int16".toList
  | .uint32 => "UInt32".toList
  | .int32 => "Int32".toList
  | .uint64 => "UInt64".toList
  | .int64 => "Int64".toList
  | .float32 => "Float32".toList
  | .float64 => "Float64".toList
  | .boolean => "Boolean".toList
  | .string => "String".toList
  | .bytes => "Bytes".toList
  | .timestamp => "Timestamp".toList
  | .duration => "Duration".toList
  | .object _ n _ | .callbackInterface _ n | .record _ n | .enum _ n | .custom _ n _ =>
    "Type".toList ++ n.toList
  | .optional t => "Optional".toList ++ pipeline t
  | .sequence t => "Sequence".toList ++ pipeline t
  | .map k v => "Map".toList ++ (pipeline k ++ pipeline v)
  | .box t => "Box".toList ++ pipeline t
  | .set t => "Set".toList ++ pipeline t

/-- `CodeType::canonical_name` in Kotlin: kotlin/gen_kotlin/primitives.rs:67-93, miscellany.rs:18-28,
compounds.rs:34-39, 74-79, 120-126, 161-166, object.rs:25-27, record.rs:24-26, enum_.rs:28-30,
callback_interface.rs:24-26, custom.rs:25-27, found through `as_codetype`, mod.rs:611-659. -/
def kotlin : MTy → Text
  | .uint8 => "UByte".toList
  | .int8 => "Byte".toList
  | .uint16 => "UShort".toList
  | .int16 => "Short".toList
  | .uint32 => "UInt".toList
  | .int32 => "Int".toList
  | .uint64 => "ULong".toList
  | .int64 => "Long".toList
  | .float32 => "Float".toList
  | .float64 => "Double".toList
  | .boolean => "Boolean".toList
  | .string => "String".toList
  | .bytes => "ByteArray".toList
  | .timestamp => "Timestamp".toList
  | .duration => "Duration".toList
  | .object _ n _ | .callbackInterface _ n | .record _ n | .enum _ n | .custom _ n _ =>
    "Type".toList ++ n.toList
  | .optional t => "Optional".toList ++ kotlin t
  | .sequence t => "Sequence".toList ++ kotlin t
  | .map k v => "Map".toList ++ (kotlin k ++ kotlin v)
  | .box t => kotlin t
  | .set t => "Set".toList ++ kotlin t

/-- `CodeType::canonical_name` in Swift: swift/gen_swift/mod.rs:41-43, primitives.rs:66-98,
miscellany.rs:15-17, 28-30, compounds.rs:28-33, 65-70, 103-109, 138-143, object.rs:25-27,
record.rs:23-25, enum_.rs:28-30, custom.rs:24-26, callback_interface.rs:23-25, found through
`create_code_type`, mod.rs:727-769. `className` is `class_name`, mod.rs:776-778, which changes the
case of a name. -/
def swift (className : String → String) : MTy → Text
  | .uint8 => "UInt8".toList
  | .int8 => "Int8".toList
  | .uint16 => "UInt16".toList
  | .int16 => "Int16".toList
  | .uint32 => "UInt32".toList
  | .int32 => "Int32".toList
  | .uint64 => "UInt64".toList
  | .int64 => "Int64".toList
  | .float32 => "Float".toList
  | .float64 => "Double".toList
  | .boolean => "Bool".toList
  | .string => "String".toList
  | .bytes => "Data".toList
  | .timestamp => "Timestamp".toList
  | .duration => "Duration".toList
  | .object _ n _ | .record _ n | .enum _ n | .custom _ n _ => "Type".toList ++ n.toList
  | .callbackInterface _ n => "CallbackInterface".toList ++ (className n).toList
  | .optional t => "Option".toList ++ swift className t
  | .sequence t => "Sequence".toList ++ swift className t
  | .map k v => "Dictionary".toList ++ (swift className k ++ swift className v)
  | .box t => swift className t
  | .set t => "Set".toList ++ swift className t

/-- `ffi_converter_name`: kotlin/gen_kotlin/mod.rs:57-59, swift/gen_swift/mod.rs:56-58. -/
def converter (canonical : Text) : Text := "FfiConverter".toList ++ canonical

/-- `ffi_converter_name` in Python: python/pipeline/types.rs:144-151. `package` is given for types
that are declared in another module. -/
def pythonConverter (package : Option String) (canonical : Text) : Text :=
  match package with
  | some p => p.toList ++ "._UniffiFfiConverter".toList ++ canonical
  | none => "_UniffiFfiConverter".toList ++ canonical

end Verif.Gen.Canonical
