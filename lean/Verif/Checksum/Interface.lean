import Verif.Checksum.Model
import Verif.Meta.Types
/-
The types with `#[derive(Checksum)]`.
-/
namespace Verif.Checksum
open Verif.Meta (MTy Impl TraitKind)

/-- The checksummed types of uniffi_meta and uniffi_bindgen/src/interface. `opaque_` stands for the
types of ignored fields (`FfiFunction`, `Option<u16>`). -/
inductive Name where
  | objectImpl | traitKind | type | passBy | literal | radix | defaultValue | enumShape
  | traitImpl | argument | function | constructor | method | uniffiTrait | field | record | variant
  | enum | object | callbackInterface | customType | opaque_
  deriving DecidableEq, Repr

/-- A field that is hashed. -/
def use (t : Ty Name) : Fld Name := { ignore := false, ty := t }

/-- A field with `#[checksum_ignore]`. -/
def skip (t : Ty Name) : Fld Name := { ignore := true, ty := t }

/-- A unit variant. -/
def unit : Var Name := { discr := none, fields := .unit }

/-- A variant with named fields. -/
def named (fs : List (Ty Name)) : Var Name := { discr := none, fields := .named (fs.map use) }

/-- A tuple variant. -/
def tuple (fs : List (Ty Name)) : Var Name := { discr := none, fields := .unnamed (fs.map use) }

/-- The declarations. -/
def interface : Name → Decl Name
  -- uniffi_meta/src/types.rs:23-29
  | .objectImpl => .enum [unit, tuple [.named .traitKind]]
  -- types.rs:32-40
  | .traitKind => .enum [unit, unit, unit]
  -- types.rs:83-147
  | .type => .enum
      [unit, unit, unit, unit, unit, unit, unit, unit, unit, unit, unit, unit, unit, unit, unit,
       named [.str, .str, .named .objectImpl],
       named [.str, .str],
       named [.str, .str],
       named [.str, .str],
       named [.box (.named .type)],
       named [.box (.named .type)],
       named [.box (.named .type)],
       named [.box (.named .type), .box (.named .type)],
       named [.box (.named .type)],
       named [.str, .str, .box (.named .type)]]
  -- types.rs:266-271
  | .passBy => .enum [unit, unit, unit]
  -- uniffi_meta/src/lib.rs:285-305
  | .literal => .enum
      [tuple [.bool], tuple [.str],
       tuple [.u64, .named .radix, .named .type],
       tuple [.i64, .named .radix, .named .type],
       tuple [.str, .named .type],
       tuple [.str, .named .type],
       unit, unit, unit, unit,
       named [.box (.named .defaultValue)]]
  -- lib.rs:318-323
  | .radix => .enum
      [{ discr := some 10, fields := .unit }, { discr := some 8, fields := .unit },
       { discr := some 16, fields := .unit }]
  -- lib.rs:325-331
  | .defaultValue => .enum [unit, tuple [.named .literal]]
  -- lib.rs:354-358
  | .enumShape => .enum [unit, named [.bool]]
  -- lib.rs:527-537, written by hand
  | .traitImpl => .struct [use (.named .type), use (.named .type)]
  -- uniffi_bindgen/src/interface/function.rs:184-191
  | .argument => .struct
      [use .str, use (.named .type), use (.named .passBy), use .bool,
       use (.option (.named .defaultValue))]
  -- function.rs:47-69: name, module_path, is_async, arguments, return_type, ffi_func, docstring,
  -- throws, checksum_fn_name, checksum
  | .function => .struct
      [use .str, use .str, use .bool, use (.seq (.named .argument)), use (.option (.named .type)),
       skip (.named .opaque_), skip (.option .str), use (.option (.named .type)), use .str,
       skip (.named .opaque_)]
  -- object.rs:361-385: name, object_name, object_module_path, is_async, arguments, ffi_func,
  -- docstring, throws, checksum_fn_name, checksum, self_type
  | .constructor => .struct
      [use .str, use .str, use .str, use .bool, use (.seq (.named .argument)),
       skip (.named .opaque_), skip (.option .str), use (.option (.named .type)), use .str,
       skip (.named .opaque_), use (.named .type)]
  -- object.rs:491-517: name, is_async, self_type, arguments, return_type, ffi_func, docstring,
  -- throws, takes_self_by_arc, checksum_fn_name, checksum
  | .method => .struct
      [use .str, use .bool, skip (.named .type), use (.seq (.named .argument)),
       use (.option (.named .type)), skip (.named .opaque_), skip (.option .str),
       use (.option (.named .type)), use .bool, use .str, skip (.named .opaque_)]
  -- object.rs:645-652
  | .uniffiTrait => .enum
      [named [.named .method], named [.named .method], named [.named .method, .named .method],
       named [.named .method], named [.named .method]]
  -- record.rs:189-196
  | .field => .struct
      [use .str, use (.named .type), use (.option (.named .defaultValue)), skip (.option .str)]
  -- record.rs:61-72
  | .record => .struct
      [use .str, use .str, use .bool, use (.seq (.named .field)), use (.seq (.named .constructor)),
       use (.seq (.named .method)), use (.seq (.named .uniffiTrait)), skip (.option .str)]
  -- enum_.rs:370-377
  | .variant => .struct
      [use .str, use (.option (.named .literal)), use (.seq (.named .field)), skip (.option .str)]
  -- enum_.rs:177-192
  | .enum => .struct
      [use .str, use .str, use .bool, use (.option (.named .type)), use (.seq (.named .variant)),
       use (.named .enumShape), use .bool, use (.seq (.named .constructor)),
       use (.seq (.named .method)), use (.seq (.named .uniffiTrait)), skip (.option .str)]
  -- object.rs:82-115
  | .object => .struct
      [use .str, use (.named .objectImpl), use .str, use .bool, use (.seq (.named .constructor)),
       use (.seq (.named .method)), use (.seq (.named .uniffiTrait)),
       use (.seq (.named .traitImpl)), skip (.named .opaque_), skip (.named .opaque_),
       skip (.option (.named .opaque_)), skip (.option .str)]
  -- callbacks.rs:45-60
  | .callbackInterface => .struct
      [use .str, use .str, use (.seq (.named .method)), skip (.named .opaque_), skip (.option .str)]
  -- custom_type.rs:12-19
  | .customType => .struct [use .str, use .str, use (.named .type), skip (.option .str)]
  | .opaque_ => .struct []

/-- `TraitKind` as a value. -/
def ofKind : TraitKind → V
  | .rustOnly => .variant 0 []
  | .both => .variant 1 []
  | .foreignOnly => .variant 2 []

/-- `ObjectImpl` as a value. -/
def ofImpl : Impl → V
  | .struct => .variant 0 []
  | .trait k => .variant 1 [ofKind k]

/-- `Type` as a value. -/
def ofType : MTy → V
  | .uint8 => .variant 0 [] | .int8 => .variant 1 [] | .uint16 => .variant 2 []
  | .int16 => .variant 3 [] | .uint32 => .variant 4 [] | .int32 => .variant 5 []
  | .uint64 => .variant 6 [] | .int64 => .variant 7 [] | .float32 => .variant 8 []
  | .float64 => .variant 9 [] | .boolean => .variant 10 [] | .string => .variant 11 []
  | .bytes => .variant 12 [] | .timestamp => .variant 13 [] | .duration => .variant 14 []
  | .object m n i => .variant 15 [.str m, .str n, ofImpl i]
  | .record m n => .variant 16 [.str m, .str n]
  | .enum m n => .variant 17 [.str m, .str n]
  | .callbackInterface m n => .variant 18 [.str m, .str n]
  | .box t => .variant 19 [.box (ofType t)]
  | .optional t => .variant 20 [.box (ofType t)]
  | .sequence t => .variant 21 [.box (ofType t)]
  | .map k v => .variant 22 [.box (ofType k), .box (ofType v)]
  | .set t => .variant 23 [.box (ofType t)]
  | .custom m n t => .variant 24 [.str m, .str n, .box (ofType t)]

end Verif.Checksum
