import Verif.Jni.FfiTypes
/-
Which conversion functions the code generated for Kotlin with JNI defines, and which ones it calls. All code of one
side is in one module (Rust) or package (Kotlin), so names are compared as they are written.
-/
namespace Verif.Jni.Calls
open Verif.Jni
open Verif.Wire (IntTy)

/-- The two sides of generated code. -/
inductive Side where
  | rs
  | kt
  deriving DecidableEq, Repr

/-- The four conversions. -/
inductive Op where
  | lower
  | lift
  | write
  | read
  deriving DecidableEq, Repr

/-- How the names of conversions begin. -/
def Op.word : Op → String
  | .lower => "lower"
  | .lift => "lift"
  | .write => "write"
  | .read => "read"

/-- The types with a function of the runtime for each conversion, and their names there:
`uniffi-bindgen-kotlin-jni/src/pipeline/types.rs:162-173`, 211-222, 258-269, 278-289 for Rust; 302-313, 351-362, 398-409,
418-429 for Kotlin. -/
def scalar : Side → Ty → Option String
  | .rs, .int .i8 => some "i8"
  | .rs, .int .i16 => some "i16"
  | .rs, .int .i32 => some "i32"
  | .rs, .int .i64 => some "i64"
  | .rs, .int .u8 => some "u8"
  | .rs, .int .u16 => some "u16"
  | .rs, .int .u32 => some "u32"
  | .rs, .int .u64 => some "u64"
  | .rs, .f32 => some "f32"
  | .rs, .f64 => some "f64"
  | .rs, .bool => some "bool"
  | .rs, .string => some "string"
  | .kt, .int .i8 => some "Byte"
  | .kt, .int .i16 => some "Short"
  | .kt, .int .i32 => some "Int"
  | .kt, .int .i64 => some "Long"
  | .kt, .int .u8 => some "UByte"
  | .kt, .int .u16 => some "UShort"
  | .kt, .int .u32 => some "UInt"
  | .kt, .int .u64 => some "ULong"
  | .kt, .f32 => some "Float"
  | .kt, .f64 => some "Double"
  | .kt, .bool => some "Boolean"
  | .kt, .string => some "String"
  | _, _ => none

/-- The options with functions of the runtime: types.rs:175-187 and the same list in the other three functions. -/
def optionScalar (s : Side) : Ty → Option String
  | .int .i64 | .int .u64 => none
  | t => scalar s t

/-- The lists with functions of the runtime: types.rs:188-200 and the same list in the other three functions. -/
def seqScalar (s : Side) : Ty → Option String
  | .bool | .string => none
  | t => scalar s t

/-- A function of the runtime: `uniffi_jni::lower_…`, `uniffi::ffibuffer::write_…` in Rust, `lower…` in Kotlin, for a
value (`""`), an option or a list. -/
def runtimeName : Side → Op → (kind : String) → String → String
  | .rs, .lower, k, s => "uniffi_jni::lower_" ++ (if k = "" then "" else k ++ "_") ++ s
  | .rs, .lift, k, s => "uniffi_jni::lift_" ++ (if k = "" then "" else k ++ "_") ++ s
  | .rs, .write, _, s => "uniffi::ffibuffer::write_" ++ s
  | .rs, .read, _, s => "uniffi::ffibuffer::read_" ++ s
  | .kt, op, k, s => op.word ++ (if k = "option" then "Option" else if k = "vec" then "Vec" else "") ++ s

/-- What comes before the number of a type: `lower_type_{id}`, `lowerType{id}`. -/
def stem : Side → Op → String
  | .rs, op => op.word ++ "_type_"
  | .kt, op => op.word ++ "Type"

/-- The name of a generated function. -/
def numbered (s : Side) (op : Op) (id : Nat) : String := stem s op ++ toString id

/-- The function of the runtime that is used for a type, if any: types.rs:153-432. `write` and `read` know neither
bytes nor options nor lists. -/
def runtimeFor (s : Side) (op : Op) (t : Ty) : Option String :=
  match op with
  | .write | .read => (scalar s t).map (runtimeName s op "")
  | .lower | .lift =>
    match t with
    | .bytes => some (match s with | .rs => runtimeName .rs op "vec" "u8" | .kt => runtimeName .kt op "" "Bytes")
    | .option i => (optionScalar s i).map (runtimeName s op "option")
    | .seq i => (seqScalar s i).map (runtimeName s op "vec")
    | t => (scalar s t).map (runtimeName s op "")

/-- `lower_fn_rs`, `lift_fn_rs`, `write_fn_rs`, `read_fn_rs` and the same for Kotlin: types.rs:153-432. -/
def fnName (s : Side) (op : Op) (id : Nat) (t : Ty) : String :=
  match runtimeFor s op t with
  | some n => n
  | none => numbered s op id

/-- The functions of the runtime for the conversions of values. Rust: uniffi-bindgen-kotlin-jni/runtime/src/lift_lower.rs
and uniffi_core/src/ffi/ffibuffer.rs:101-174; Kotlin: bindings/templates/shared/LiftLower.kt and FfiBuffer.kt:3-44. -/
def runtime : Side → List String
  | .rs =>
    ["uniffi_jni::lift_u8", "uniffi_jni::lower_u8", "uniffi_jni::lift_i8", "uniffi_jni::lower_i8",
     "uniffi_jni::lift_u16", "uniffi_jni::lower_u16", "uniffi_jni::lift_i16", "uniffi_jni::lower_i16",
     "uniffi_jni::lift_u32", "uniffi_jni::lower_u32", "uniffi_jni::lift_i32", "uniffi_jni::lower_i32",
     "uniffi_jni::lift_u64", "uniffi_jni::lower_u64", "uniffi_jni::lift_i64", "uniffi_jni::lower_i64",
     "uniffi_jni::lift_f32", "uniffi_jni::lower_f32", "uniffi_jni::lift_f64", "uniffi_jni::lower_f64",
     "uniffi_jni::lift_bool", "uniffi_jni::lower_bool", "uniffi_jni::lift_string", "uniffi_jni::lower_string",
     "uniffi_jni::lift_buffer", "uniffi_jni::lower_buffer",
     "uniffi_jni::lift_option_u8", "uniffi_jni::lower_option_u8",
     "uniffi_jni::lift_option_i8", "uniffi_jni::lower_option_i8",
     "uniffi_jni::lift_option_u16", "uniffi_jni::lower_option_u16",
     "uniffi_jni::lift_option_i16", "uniffi_jni::lower_option_i16",
     "uniffi_jni::lift_option_u32", "uniffi_jni::lower_option_u32",
     "uniffi_jni::lift_option_i32", "uniffi_jni::lower_option_i32",
     "uniffi_jni::lift_option_bool", "uniffi_jni::lower_option_bool",
     "uniffi_jni::lift_option_f32", "uniffi_jni::lower_option_f32",
     "uniffi_jni::lift_option_f64", "uniffi_jni::lower_option_f64",
     "uniffi_jni::lift_option_string", "uniffi_jni::lower_option_string",
     "uniffi_jni::lift_vec_u8", "uniffi_jni::lower_vec_u8", "uniffi_jni::lift_vec_i8", "uniffi_jni::lower_vec_i8",
     "uniffi_jni::lift_vec_u16", "uniffi_jni::lower_vec_u16",
     "uniffi_jni::lift_vec_i16", "uniffi_jni::lower_vec_i16",
     "uniffi_jni::lift_vec_u32", "uniffi_jni::lower_vec_u32",
     "uniffi_jni::lift_vec_i32", "uniffi_jni::lower_vec_i32",
     "uniffi_jni::lift_vec_u64", "uniffi_jni::lower_vec_u64",
     "uniffi_jni::lift_vec_i64", "uniffi_jni::lower_vec_i64",
     "uniffi_jni::lift_vec_f32", "uniffi_jni::lower_vec_f32",
     "uniffi_jni::lift_vec_f64", "uniffi_jni::lower_vec_f64",
     "uniffi_jni::lift_bytes_ref", "uniffi_jni::lift_bytes_mut_ref",
     "uniffi::ffibuffer::read_u8", "uniffi::ffibuffer::write_u8",
     "uniffi::ffibuffer::read_i8", "uniffi::ffibuffer::write_i8",
     "uniffi::ffibuffer::read_u16", "uniffi::ffibuffer::write_u16",
     "uniffi::ffibuffer::read_i16", "uniffi::ffibuffer::write_i16",
     "uniffi::ffibuffer::read_u32", "uniffi::ffibuffer::write_u32",
     "uniffi::ffibuffer::read_i32", "uniffi::ffibuffer::write_i32",
     "uniffi::ffibuffer::read_u64", "uniffi::ffibuffer::write_u64",
     "uniffi::ffibuffer::read_i64", "uniffi::ffibuffer::write_i64",
     "uniffi::ffibuffer::read_f32", "uniffi::ffibuffer::write_f32",
     "uniffi::ffibuffer::read_f64", "uniffi::ffibuffer::write_f64",
     "uniffi::ffibuffer::read_bool", "uniffi::ffibuffer::write_bool",
     "uniffi::ffibuffer::read_string", "uniffi::ffibuffer::write_string",
     "uniffi::ffibuffer::read_buffer", "uniffi::ffibuffer::write_buffer"]
  | .kt =>
    ["liftUByte", "lowerUByte", "liftByte", "lowerByte", "liftUShort", "lowerUShort", "liftShort", "lowerShort",
     "liftUInt", "lowerUInt", "liftInt", "lowerInt", "liftULong", "lowerULong", "liftLong", "lowerLong",
     "liftFloat", "lowerFloat", "liftDouble", "lowerDouble", "liftBoolean", "lowerBoolean", "liftString", "lowerString",
     "liftBytes", "lowerBytes", "lowerBytesRef",
     "liftVecByte", "lowerVecByte", "liftVecUByte", "lowerVecUByte", "liftVecShort", "lowerVecShort",
     "liftVecUShort", "lowerVecUShort", "liftVecInt", "lowerVecInt", "liftVecUInt", "lowerVecUInt",
     "liftVecLong", "lowerVecLong", "liftVecULong", "lowerVecULong", "liftVecFloat", "lowerVecFloat",
     "liftVecDouble", "lowerVecDouble",
     "liftOptionUByte", "lowerOptionUByte", "liftOptionByte", "lowerOptionByte",
     "liftOptionUShort", "lowerOptionUShort", "liftOptionShort", "lowerOptionShort",
     "liftOptionUInt", "lowerOptionUInt", "liftOptionInt", "lowerOptionInt",
     "liftOptionBoolean", "lowerOptionBoolean", "liftOptionString", "lowerOptionString",
     "liftOptionFloat", "lowerOptionFloat", "liftOptionDouble", "lowerOptionDouble",
     "readByte", "writeByte", "readUByte", "writeUByte", "readShort", "writeShort", "readUShort", "writeUShort",
     "readInt", "writeInt", "readUInt", "writeUInt", "readLong", "writeLong", "readULong", "writeULong",
     "readFloat", "writeFloat", "readDouble", "writeDouble", "readBoolean", "writeBoolean",
     "readString", "writeString", "readBuffer", "writeBuffer"]

/-- The definitions that code is generated for: `map_type_definitions`, packages.rs:29-79. Of the simple types only
durations and timestamps are kept; types of other crates are dropped, the other crate has them. `Interface`
definitions (the Kotlin interfaces, which have no conversions) are left out. -/
inductive Def where
  | record (n : Name) (fields : List Ty)
  | enum (n : Name) (flat : Bool) (variants : List (List Ty))
  | cls (n : Name)
  | callback (n : Name)
  | custom (n : Name) (builtin : Ty)
  | optional (t : Ty)
  | seq (t : Ty)
  | map (k v : Ty)
  | set (t : Ty)
  | box (t : Ty)
  | duration
  | timestamp
  deriving DecidableEq, Repr

/-- The type that is defined: `self_type`. -/
def Def.self : Def → Ty
  | .record n _ => .record n
  | .enum n _ _ => .enum n
  | .cls n => .iface n
  | .callback n => .callback n
  | .custom n b => .custom n b
  | .optional t => .option t
  | .seq t => .seq t
  | .map k v => .map k v
  | .set t => .set t
  | .box t => .box t
  | .duration => .duration
  | .timestamp => .timestamp

/-- An argument: callables.rs:165-190. The receiver of a method counts as one. -/
structure Arg where
  ty : Ty
  /-- `pass_by.is_borrowed()` -/
  byRef : Bool := false
  /-- `pass_by.is_mut_ref()` -/
  byMutRef : Bool := false
  receiver : Bool := false

/-- What a function, method or constructor takes and gives: callables.rs:86-164. -/
structure Callable where
  args : List Arg
  ret : Option Ty := none
  throws : Option Ty := none

/-- All that bindings are generated for (`Root`). -/
structure Root where
  /-- every type of the interface in the order in which it is visited, general/context.rs:214-263 -/
  types : List Ty
  packages : List (List Def)
  /-- functions, methods and constructors implemented in Rust, packages.rs:85-122 -/
  rustFns : List Callable
  /-- methods implemented in Kotlin: of callback interfaces and traits with foreign implementations -/
  kotlinFns : List Callable
  /-- `has_callback_interface`, uniffi_meta/src/types.rs:59-61. In the code the type of an interface says this. -/
  foreign : Name → Bool
  /-- the FFI types of each type -/
  ffi : FfiMap

/-- `get_type_id`: general/context.rs:214-271. A type gets the next number when it is first seen. -/
def Root.id (r : Root) (t : Ty) : Nat := r.types.eraseDups.idxOf t

/-- `lowers_to_primitive`: types.rs:434-439. -/
def Root.one (r : Root) (t : Ty) : Bool := (r.ffi.get t).any fun l => l.length == 1

/-- `is_interface`: types.rs:556-558. -/
def isIface : Ty → Bool
  | .iface _ => true
  | _ => false

/-- `is_primitive_array`: compounds.rs:25-36. -/
def isPrimitiveArray : Ty → Bool
  | .int _ | .f32 | .f64 => true
  | _ => false

/-- The functions that a template defines with the names of the type. Rust: scaffolding/templates/*.rs; Kotlin:
bindings/templates/shared/*Ffi.kt. Options: optional.rs:3-72, 74-110 and OptionalFfi.kt:3-70, 73-87; lists: sequence.rs:41-75 and
SequenceFfi.kt:31-53; enums: enum.rs:3-4, 61, 103, 137, 175, 192 and EnumFfi.kt; callback interfaces:
callback_interface.rs:205-220 and CallbackInterfaceFfi.kt:146-153. -/
def Def.ops (r : Root) (s : Side) : Def → List Op
  | .optional t =>
    (if r.one (.option t) = false then [.lower, .lift] else if isIface t then [.lower, .lift] else []) ++ [.write, .read]
  | .seq t => (if isPrimitiveArray t then [] else [.lower, .lift]) ++ [.write, .read]
  | .enum _ true _ => match s with
    | .rs => [.lower, .write]
    | .kt => [.lift, .read]
  | .callback _ => match s with
    | .rs => [.lift, .read]
    | .kt => [.lower, .write]
  | _ => [.lower, .lift, .write, .read]

/-- The functions for objects passed by reference: class.rs:26-34, 60-71, 110-120; ClassFfi.kt:17-20, 43-46. -/
def refName (s : Side) (foreign : Bool) (id : Nat) : String :=
  match s with
  | .rs => (if foreign then "lift_object_receiver_ref_" else "lift_object_ref_") ++ toString id
  | .kt => (if foreign then "lowerObjectReceiverRef" else "lowerObjectRef") ++ toString id

/-- All conversion functions that are defined for a definition. -/
def Def.makes (r : Root) (s : Side) (d : Def) : List String :=
  (d.ops r s).map (fun op => fnName s op (r.id d.self) d.self) ++
    match d with
    | .cls n => [refName s (r.foreign n) (r.id d.self)]
    | _ => []

/-- `ffi_type_definitions`: root.rs:42-71. The first definition for each number. -/
def Root.keep (r : Root) : List Nat → List Def → List Def
  | _, [] => []
  | seen, d :: ds =>
    if r.id d.self ∈ seen then r.keep seen ds else d :: r.keep (r.id d.self :: seen) ds

/-- The definitions that both files are made from: scaffolding.rs:24-57, Package.kt:20-50. -/
def Root.defs (r : Root) : List Def := r.keep [] r.packages.flatten

/-- The conversion functions of a side. -/
def Root.made (r : Root) (s : Side) : List String := r.defs.flatMap (Def.makes r s)

/-- The functions that the functions for a definition call to convert parts of a value. Records: record.rs:9, 35, 52, 64;
RecordFfi.kt:16-58. Enums: enum.rs:32-146; EnumFfi.kt:47-127; errors that are sent as a message only send a string.
Options: optional.rs:13-101. Lists: sequence.rs:13, 30. Maps: map.rs:13-33. Sets: set.rs:13, 30. Boxes: box.rs:62, 80;
BoxFfi.kt:5. Custom types: custom.rs:9-45. For boxes Rust calls `lift` of Kotlin by name. -/
def Def.parts (r : Root) : Def → List (Op × Ty)
  | .record _ fs => fs.flatMap fun t => [(.lower, t), (.lift, t), (.write, t), (.read, t)]
  | .enum _ false vs => vs.flatten.flatMap fun t => [(.lower, t), (.lift, t), (.write, t), (.read, t)]
  | .enum _ true _ => []
  | .custom _ b => [(.lower, b), (.lift, b), (.write, b), (.read, b)]
  | .optional t =>
    (if r.one (.option t) = false then [(.lower, t), (.lift, t)] else if isIface t then [(.lower, t), (.lift, t)] else [])
      ++ [(.write, t), (.read, t)]
  | .seq t => [(.write, t), (.read, t)]
  | .map k v => [(.write, k), (.write, v), (.read, k), (.read, v)]
  | .set t => [(.write, t), (.read, t)]
  | .box t => [(.lower, t), (.lift, t)]
  | .cls _ | .callback _ | .duration | .timestamp => []

/-- `lift_fn_rs` and `lower_fn_kt` of an argument: callables.rs:192-256, 457-479. -/
def Root.argName (r : Root) (s : Side) (a : Arg) : String :=
  let plain := fnName s (match s with | .rs => .lift | .kt => .lower) (r.id a.ty) a.ty
  match a.ty, a.byRef with
  | .iface n, true =>
    if r.foreign n = false then refName s false (r.id a.ty)
    else if a.receiver then refName s true (r.id a.ty)
    else plain
  | .bytes, true => match s with
    | .rs => if a.byMutRef then "uniffi_jni::lift_bytes_mut_ref" else "uniffi_jni::lift_bytes_ref"
    | .kt => "lowerBytesRef"
  | _, _ => plain

/-- The functions for a call from Kotlin to Rust. jni_method.rs:20, 73, 83, 94-107, 129; async.rs:110-133; CallableBody.kt:2, 21;
Async.kt:63. Simplified: a primary constructor does not lift the handle. -/
def Root.rustCalls (r : Root) (s : Side) (c : Callable) : List String :=
  c.args.map (r.argName s) ++
    (c.ret.toList ++ c.throws.toList).map fun t => fnName s (match s with | .rs => .lower | .kt => .lift) (r.id t) t

/-- The functions for a call from Rust to Kotlin: callback_interface.rs:74, 106, 114, 153; callback_interface_shared.rs:15, 51;
async.rs:214, 251; CallbackInterfaceFfi.kt:24-124. -/
def Root.kotlinCalls (r : Root) (s : Side) (c : Callable) : List String :=
  c.args.map (fun a => fnName s (match s with | .rs => .lower | .kt => .lift) (r.id a.ty) a.ty) ++
    (c.ret.toList ++ c.throws.toList).map fun t => fnName s (match s with | .rs => .lift | .kt => .lower) (r.id t) t

/-- All conversion functions that the code of a side calls. -/
def Root.called (r : Root) (s : Side) : List String :=
  r.defs.flatMap (fun d => (d.parts r).map fun p => fnName s p.1 (r.id p.2) p.2) ++
    r.rustFns.flatMap (r.rustCalls s) ++ r.kotlinFns.flatMap (r.kotlinCalls s)

end Verif.Jni.Calls
