import Verif.Wire.Types
import Verif.Gen.Sort
/-
Types and type definitions as the Kotlin JNI generator sees them.
-/
namespace Verif.Jni
open Verif.Wire (IntTy)

/-- The namespace (crate) of a type and its name there. -/
structure Name where
  ns : String
  name : String
  deriving DecidableEq, Repr

/-- `uniffi_bindgen/src/pipeline/initial/nodes.rs:298-365` (`Type`), as used by `uniffi-bindgen-kotlin-jni`. A custom type
carries the type it is built on, as in the code. Simplified: a type has one name; interfaces
do not say how they are implemented. -/
inductive Ty where
  | int (t : IntTy)
  | f32
  | f64
  | bool
  | string
  | bytes
  | duration
  | timestamp
  | iface (n : Name)
  | callback (n : Name)
  | option (t : Ty)
  | seq (t : Ty)
  | map (k v : Ty)
  | set (t : Ty)
  | box (t : Ty)
  | record (n : Name)
  | enum (n : Name)
  | custom (n : Name) (builtin : Ty)
  deriving DecidableEq, Repr

/-- `uniffi_bindgen/src/pipeline/general/types.rs:19-63` (`canonical_name`): it does not say which
namespace a type belongs to. -/
def canonicalName : Ty → String
  | .int .u8 => "UInt8"
  | .int .i8 => "Int8"
  | .int .u16 => "UInt16"
  | .int .i16 => "Int16"
  | .int .u32 => "UInt32"
  | .int .i32 => "Int32"
  | .int .u64 => "UInt64"
  | .int .i64 => "Int64"
  | .f32 => "Float32"
  | .f64 => "Float64"
  | .bool => "Boolean"
  | .string => "String"
  | .bytes => "Bytes"
  | .timestamp => "Timestamp"
  | .duration => "Duration"
  | .iface n | .callback n | .record n | .enum n | .custom n _ => "Type" ++ n.name
  | .option t => "Optional" ++ canonicalName t
  | .seq t => "Sequence" ++ canonicalName t
  | .map k v => "Map" ++ canonicalName k ++ canonicalName v
  | .box t => "Box" ++ canonicalName t
  | .set t => "Set" ++ canonicalName t

/-- `uniffi_bindgen/src/pipeline/general/nodes.rs:83-106` (`TypeDefinition`): the parts the JNI
generator looks at. Field and variant names are left out. `flat` says that the enum is an error that
is passed as a message (`EnumShape::Error { flat: true }`). -/
inductive TypeDef where
  | record (n : Name) (fields : List Ty)
  | enum (n : Name) (flat : Bool) (variants : List (List Ty))
  | optional (inner : Ty)
  | custom (n : Name) (builtin : Ty)
  /-- a definition of any other kind, with the types it mentions: simple types, boxes, sequences, maps,
  sets, interfaces with the types in their methods, callback interfaces, and types of another crate
  (which mention nothing) -/
  | other (t : Ty) (uses : List Ty)
  deriving DecidableEq, Repr

/-- `nodes.rs:646-661` (`TypeDefinition::self_type`). -/
def TypeDef.self : TypeDef → Ty
  | .record n _ => .record n
  | .enum n _ _ => .enum n
  | .optional t => .option t
  | .custom n b => .custom n b
  | .other t _ => t

/-- `uniffi_bindgen/src/pipeline/general/sort.rs:136-153` (`item_name`). -/
def TypeDef.itemName (d : TypeDef) : String := canonicalName d.self

/-- The types a definition mentions. -/
def TypeDef.uses : TypeDef → List Ty
  | .record _ fields => fields
  | .enum _ _ variants => variants.flatten
  | .optional t => [t]
  | .custom _ b => [b]
  | .other _ us => us

/-- `sort.rs:155-220` (`dependency_names`). -/
def TypeDef.depNames (d : TypeDef) : List String := d.uses.map canonicalName

/-- `uniffi-bindgen-kotlin-jni/src/pipeline/context.rs:94-98`: the definitions of all namespaces
sorted together. `none` never happens (the fuel of the sort is enough). -/
def sortDefs (namespaces : List (List TypeDef)) : Option (List TypeDef) :=
  Verif.Gen.dependencySort TypeDef.itemName TypeDef.depNames namespaces.flatten

end Verif.Jni
