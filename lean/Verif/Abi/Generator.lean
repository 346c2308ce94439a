import Verif.Abi.Types
/-
The C signatures the bindings generators declare. The definitions the real `FfiType` refers to by
name (callbacks and structs) are put in place of the name.
-/
namespace Verif.Abi
open Verif.Meta

/-- `FfiType`: uniffi_bindgen/src/interface/ffi.rs:24-62 and pipeline/general/nodes.rs. What a handle
belongs to is left out. -/
inductive FTy where
  | uint8 | int8 | uint16 | int16 | uint32 | int32 | uint64 | int64 | float32 | float64
  | rustBuffer (ext : Option String)
  | foreignBytes
  | callback (args : List FTy) (status : Bool) (ret : Option FTy)
  | struct (fields : List FTy)
  | handle | rustCallStatus
  | reference (inner : FTy) | mutReference (inner : FTy) | voidPointer

/-- `FfiFunction`: interface/ffi.rs:213-222. -/
structure Decl where
  args : List FTy
  status : Bool
  ret : Option FTy

/-- The namespace bindings are generated for, and the namespace a module path belongs to. -/
structure Ctx where
  current : String
  of : String → String

/-- `ffi_type`: pipeline/general/ffi_types.rs:7-68. -/
def pipelineFfi (c : Ctx) : MTy → FTy
  | .uint8 => .uint8
  | .int8 => .int8
  | .uint16 => .uint16
  | .int16 => .int16
  | .uint32 => .uint32
  | .int32 => .int32
  | .uint64 => .uint64
  | .int64 => .int64
  | .float32 => .float32
  | .float64 => .float64
  | .boolean => .int8
  | .string => .rustBuffer none
  | .bytes => .rustBuffer none
  | .object _ _ _ => .handle
  | .callbackInterface _ _ => .handle
  | .enum m _ | .record m _ => .rustBuffer (if c.of m ≠ c.current then some (c.of m) else none)
  | .optional _ | .sequence _ | .map _ _ | .set _ | .timestamp | .duration => .rustBuffer none
  | .custom m _ t =>
    match pipelineFfi c t with
    | .rustBuffer none => if c.of m ≠ c.current then .rustBuffer (some (c.of m)) else .rustBuffer none
    | f => f
  | .box t => pipelineFfi c t

/-- `From<&Type> for FfiType`: interface/ffi.rs:101-161. Of the external metadata only the name is
kept. -/
def legacyFfi : MTy → FTy
  | .uint8 => .uint8
  | .int8 => .int8
  | .uint16 => .uint16
  | .int16 => .int16
  | .uint32 => .uint32
  | .int32 => .int32
  | .uint64 => .uint64
  | .int64 => .int64
  | .float32 => .float32
  | .float64 => .float64
  | .boolean => .int8
  | .string => .rustBuffer none
  | .bytes => .rustBuffer none
  | .object _ _ _ => .handle
  | .callbackInterface _ _ => .uint64
  | .enum _ n | .record _ n => .rustBuffer (some n)
  | .optional _ | .sequence _ | .map _ _ | .set _ | .timestamp | .duration => .rustBuffer none
  | .custom _ n t =>
    match legacyFfi t with
    | .rustBuffer none => .rustBuffer (some n)
    | f => f
  | .box t => legacyFfi t

/-- `is_borrowed_bytes`: interface/function.rs:211-213 and the same method of the pipeline's
`Argument`. -/
def isBorrowedBytes (a : MArg) : Bool := a.passBy ≠ .value && a.ty = .bytes

/-- `argument_to_ffi_argument`: pipeline/general/ffi_functions.rs:120-130. -/
def pipelineArg (c : Ctx) (a : MArg) : FTy :=
  if isBorrowedBytes a then .foreignBytes else pipelineFfi c a.ty

/-- `From<&Argument> for FfiArgument`: interface/function.rs:237-249. -/
def legacyArg (a : MArg) : FTy :=
  if isBorrowedBytes a then .foreignBytes else legacyFfi a.ty

/-- The argument for `self`: ffi_functions.rs:98-104 and interface/object.rs:549-555. -/
def selfArg (recv : MTy) : MArg :=
  { name := "uniffi_self", ty := recv, passBy := .ref, optional := false, default := none }

/-- `ffi_def`: ffi_functions.rs:132-169. -/
def pipelineDef (c : Ctx) (args : List MArg) (ret : Option MTy) (isAsync : Bool) : Decl :=
  if isAsync then { args := args.map (pipelineArg c), status := false, ret := some .handle }
  else { args := args.map (pipelineArg c), status := true, ret := ret.map (pipelineFfi c) }

/-- `FfiFunction::init`: interface/ffi.rs:272-284, starting from the default of 287-298. -/
def legacyDef (args : List MArg) (ret : Option FTy) (isAsync : Bool) : Decl :=
  if isAsync then { args := args.map legacyArg, status := false, ret := some .handle }
  else { args := args.map legacyArg, status := true, ret := ret }

/-- The function the pipeline declares for an item: `ffi_definitions`, ffi_functions.rs:9-113.
`recv` is the type the methods and constructors belong to. -/
def pipelineDecl (c : Ctx) (recv : MTy) : Metadata → Option Decl
  | .func f => some (pipelineDef c f.inputs f.returnType f.isAsync)
  | .method m => some (pipelineDef c (selfArg recv :: m.fn.inputs) m.fn.returnType m.fn.isAsync)
  | .traitMethod _ _ f => some (pipelineDef c (selfArg recv :: f.inputs) f.returnType f.isAsync)
  | .constructor k => some (pipelineDef c k.inputs (some recv) k.isAsync)
  | _ => none

/-- The function the other generators declare: `derive_ffi_func` of functions
(interface/function.rs:122-129), constructors (object.rs:444-448) and methods (object.rs:596-603). -/
def legacyDecl (recv : MTy) : Metadata → Option Decl
  | .func f => some (legacyDef f.inputs (f.returnType.map legacyFfi) f.isAsync)
  | .method m =>
    some (legacyDef (selfArg recv :: m.fn.inputs) (m.fn.returnType.map legacyFfi) m.fn.isAsync)
  | .traitMethod _ _ f =>
    some (legacyDef (selfArg recv :: f.inputs) (f.returnType.map legacyFfi) f.isAsync)
  | .constructor k => some (legacyDef k.inputs (some .handle) k.isAsync)
  | _ => none

/-! ### How the declarations are written down -/

namespace Python
/-- bindings/python/templates/RustBufferTemplate.py:4-9. -/
def rustBuffer : CTy := .struct [.int 64 false, .int 64 false, .ptr none]
/-- RustBufferTemplate.py:74-78. -/
def foreignBytes : CTy := .struct [.int 32 true, .ptr none]
/-- bindings/python/templates/Helpers.py:7-14. -/
def rustCallStatus : CTy := .struct [.int 8 true, rustBuffer]
mutual
  /-- `ffi_type_name`: bindings/python/pipeline/ffi_types.rs:7-35, with the ctypes the names stand
  for. Callbacks and structs are declared as in NamespaceLibraryTemplate.py:46-65. -/
  def ctype : FTy → CTy
    | .int8 => .int 8 true
    | .uint8 => .int 8 false
    | .int16 => .int 16 true
    | .uint16 => .int 16 false
    | .int32 => .int 32 true
    | .uint32 => .int 32 false
    | .int64 => .int 64 true
    | .uint64 => .int 64 false
    | .float32 => .float
    | .float64 => .double
    | .handle => .int 64 false
    | .rustBuffer _ => rustBuffer
    | .rustCallStatus => rustCallStatus
    | .foreignBytes => foreignBytes
    | .callback args status ret =>
      .fn (ctypes args ++ if status then [.ptr (some rustCallStatus)] else []) (optCtype ret)
    | .struct fields => .struct (ctypes fields)
    | .reference t => .ptr (some (ctype t))
    | .mutReference t => .ptr (some (ctype t))
    | .voidPointer => .ptr none
  /-- A list of types. -/
  def ctypes : List FTy → List CTy
    | [] => []
    | t :: ts => ctype t :: ctypes ts
  /-- A return type. -/
  def optCtype : Option FTy → Option CTy
    | none => none
    | some t => some (ctype t)
end
/-- NamespaceLibraryTemplate.py:66-75. -/
def sig (d : Decl) : CSig :=
  { params := ctypes d.args ++ if d.status then [.ptr (some rustCallStatus)] else []
    ret := optCtype d.ret }
end Python

namespace Swift
/-- bindings/swift/templates/BridgingHeaderTemplate.h:25-30. -/
def rustBuffer : CTy := .struct [.int 64 false, .int 64 false, .ptr none]
/-- BridgingHeaderTemplate.h:32-36. -/
def foreignBytes : CTy := .struct [.int 32 true, .ptr none]
/-- BridgingHeaderTemplate.h:39-42. -/
def rustCallStatus : CTy := .struct [.int 8 true, rustBuffer]
mutual
  /-- `header_ffi_type_name_inner`: bindings/swift/gen_swift/mod.rs:1046-1074. Callbacks and structs
  are declared as in BridgingHeaderTemplate.h:52-69. -/
  def ctype : FTy → CTy
    | .int8 => .int 8 true
    | .uint8 => .int 8 false
    | .int16 => .int 16 true
    | .uint16 => .int 16 false
    | .int32 => .int 32 true
    | .uint32 => .int 32 false
    | .int64 => .int 64 true
    | .uint64 => .int 64 false
    | .float32 => .float
    | .float64 => .double
    | .handle => .int 64 false
    | .rustBuffer _ => rustBuffer
    | .rustCallStatus => rustCallStatus
    | .foreignBytes => foreignBytes
    | .callback args status ret =>
      .fn (ctypes args ++ if status then [.ptr (some rustCallStatus)] else []) (optCtype ret)
    | .struct fields => .struct (ctypes fields)
    | .reference t => .ptr (some (ctype t))
    | .mutReference t => .ptr (some (ctype t))
    | .voidPointer => .ptr none
  /-- A list of types. -/
  def ctypes : List FTy → List CTy
    | [] => []
    | t :: ts => ctype t :: ctypes ts
  /-- A return type. -/
  def optCtype : Option FTy → Option CTy
    | none => none
    | some t => some (ctype t)
end
/-- BridgingHeaderTemplate.h:70-80. -/
def sig (d : Decl) : CSig :=
  { params := ctypes d.args ++ if d.status then [.ptr (some rustCallStatus)] else []
    ret := optCtype d.ret }
end Swift

namespace Kotlin
/-- bindings/kotlin/templates/RustBufferTemplate.kt:8-14. -/
def rustBuffer : CTy := .struct [.int 64 true, .int 64 true, .ptr none]
/-- RustBufferTemplate.kt:61-64. -/
def foreignBytes : CTy := .struct [.int 32 true, .ptr none]
/-- bindings/kotlin/templates/Helpers.kt:8-11. -/
def rustCallStatus : CTy := .struct [.int 8 true, rustBuffer]
mutual
  /-- `ffi_type_label`, `ffi_type_label_by_value` and `ffi_type_label_by_reference`:
  bindings/kotlin/gen_kotlin/mod.rs:500-506, 554-601, with the JNA meaning of the labels; the JVM
  types are signed. The panic for references to anything but numbers, buffers and structs is left
  out. Callbacks and structs are declared as in NamespaceLibraryTemplate.kt:10-47. -/
  def ctype : FTy → CTy
    | .int8 | .uint8 => .int 8 true
    | .int16 | .uint16 => .int 16 true
    | .int32 | .uint32 => .int 32 true
    | .int64 | .uint64 => .int 64 true
    | .float32 => .float
    | .float64 => .double
    | .handle => .int 64 true
    | .rustBuffer _ => rustBuffer
    | .rustCallStatus => rustCallStatus
    | .foreignBytes => foreignBytes
    | .callback args status ret =>
      .fn (ctypes args ++ if status then [.ptr (some rustCallStatus)] else []) (optCtype ret)
    | .struct fields => .struct (ctypes fields)
    | .reference t => .ptr (some (ctype t))
    | .mutReference t => .ptr (some (ctype t))
    | .voidPointer => .ptr none
  /-- A list of types. -/
  def ctypes : List FTy → List CTy
    | [] => []
    | t :: ts => ctype t :: ctypes ts
  /-- A return type. -/
  def optCtype : Option FTy → Option CTy
    | none => none
    | some t => some (ctype t)
end
/-- `ffi_type_label_for_direct_return`: gen_kotlin/mod.rs:512-521. -/
def directReturn : FTy → CTy
  | .uint8 | .uint16 => .int 32 true
  | t => ctype t
/-- NamespaceLibraryTemplate.kt:52-58. -/
def sig (d : Decl) : CSig :=
  { params := ctypes d.args ++ if d.status then [.ptr (some rustCallStatus)] else []
    ret := d.ret.map directReturn }
end Kotlin

namespace Ruby
/-- bindings/ruby/templates/RustBufferTemplate.rb:1-4. -/
def rustBuffer : CTy := .struct [.int 64 false, .int 64 false, .ptr none]
/-- bindings/ruby/templates/ErrorTemplate.rb:1-3. -/
def rustCallStatus : CTy := .struct [.int 8 true, rustBuffer]
mutual
  /-- `type_ffi`: bindings/ruby/gen_ruby/mod.rs:170-194. In an argument list a struct class without
  `.by_value` stands for a pointer, which is what `ForeignBytes` becomes; `RustCallStatus` is only
  used inside structs, where a struct class stands for the struct itself. Callbacks and structs are
  declared as in NamespaceLibraryTemplate.rb:12-29. -/
  def ctype : FTy → CTy
    | .int8 => .int 8 true
    | .uint8 => .int 8 false
    | .int16 => .int 16 true
    | .uint16 => .int 16 false
    | .int32 => .int 32 true
    | .uint32 => .int 32 false
    | .int64 => .int 64 true
    | .uint64 => .int 64 false
    | .float32 => .float
    | .float64 => .double
    | .handle => .int 64 false
    | .rustBuffer _ => rustBuffer
    | .rustCallStatus => rustCallStatus
    | .foreignBytes => .ptr none
    | .callback args status ret =>
      .fn (ctypes args ++ if status then [.ptr (some rustCallStatus)] else []) (optCtype ret)
    | .struct fields => .struct (ctypes fields)
    | .reference (.struct fields) => .ptr (some (.struct (ctypes fields)))
    | .mutReference (.struct fields) => .ptr (some (.struct (ctypes fields)))
    | .reference _ => .ptr none
    | .mutReference _ => .ptr none
    | .voidPointer => .ptr none
  /-- A list of types. -/
  def ctypes : List FTy → List CTy
    | [] => []
    | t :: ts => ctype t :: ctypes ts
  /-- A return type. -/
  def optCtype : Option FTy → Option CTy
    | none => none
    | some t => some (ctype t)
end
/-- bindings/ruby/templates/NamespaceLibraryTemplate.rb:31-34 and macros.rb:87-90. -/
def sig (d : Decl) : CSig :=
  { params := ctypes d.args ++ if d.status then [.ptr (some rustCallStatus)] else []
    ret := d.ret.map ctype }
end Ruby

/-! ### Futures -/

/-- The suffix of the completion function: `async_data`, pipeline/general/ffi_async_data.rs:49-66,
and `return_type_name`, interface/ffi.rs:74-93. `none` is the panic. -/
def futureSuffix : Option FTy → Option String
  | some .uint8 => some "u8"
  | some .int8 => some "i8"
  | some .uint16 => some "u16"
  | some .int16 => some "i16"
  | some .uint32 => some "u32"
  | some .int32 => some "i32"
  | some .uint64 => some "u64"
  | some .int64 => some "i64"
  | some .float32 => some "f32"
  | some .float64 => some "f64"
  | some .handle => some "u64"
  | some (.rustBuffer _) => some "rust_buffer"
  | none => some "void"
  | _ => none

/-- The completion function the pipeline uses for an item: ffi_async_data.rs:8-47. -/
def pipelineFuture (c : Ctx) (recv : MTy) : Metadata → Option String
  | .func f => futureSuffix (f.returnType.map (pipelineFfi c))
  | .method m => futureSuffix (m.fn.returnType.map (pipelineFfi c))
  | .traitMethod _ _ f => futureSuffix (f.returnType.map (pipelineFfi c))
  | .constructor _ => futureSuffix (some (pipelineFfi c recv))
  | _ => none

/-- The completion function the other generators use: interface/function.rs:300-325 and
interface/mod.rs:599-611, over `FfiType::return_type_name`. -/
def legacyFuture (recv : MTy) : Metadata → Option String
  | .func f => futureSuffix (f.returnType.map legacyFfi)
  | .method m => futureSuffix (m.fn.returnType.map legacyFfi)
  | .traitMethod _ _ f => futureSuffix (f.returnType.map legacyFfi)
  | .constructor _ => futureSuffix (some (legacyFfi recv))
  | _ => none

/-! ### Tables of callbacks -/

/-- What the completion callback of an async method gets: callback_interfaces.rs:322-357 and
interface/callbacks.rs:196-232. -/
def futureComplete (handle : FTy) (ret : Option FTy) : FTy :=
  .callback [handle, .struct (ret.toList ++ [.rustCallStatus])] false none

/-- `ForeignFutureDroppedCallbackStruct`: callback_interfaces.rs:105-130 and
interface/mod.rs:708-739. -/
def droppedStruct (handle : FTy) : FTy := .struct [handle, .callback [handle] false none]

/-- `vtable_method_ffi_defs`: pipeline/general/callback_interfaces.rs:255-364. -/
def pipelineVtableField (c : Ctx) (f : MFn) : Decl :=
  let args := .handle :: f.inputs.map (fun a => pipelineFfi c a.ty)
  if f.isAsync then
    { args := args ++ [futureComplete .handle (f.returnType.map (pipelineFfi c)), .handle,
        .mutReference (droppedStruct .handle)]
      status := false, ret := none }
  else
    { args := args ++ [match f.returnType.map (pipelineFfi c) with
        | some t => .mutReference t
        | none => .voidPointer]
      status := true, ret := none }

/-- `method_ffi_callback`: interface/callbacks.rs:153-193. -/
def legacyVtableField (f : MFn) : Decl :=
  let args := .uint64 :: f.inputs.map legacyArg
  if f.isAsync then
    { args := args ++ [futureComplete .uint64 (f.returnType.map legacyFfi), .uint64,
        .mutReference (droppedStruct .uint64)]
      status := false, ret := none }
  else
    { args := args ++ [match f.returnType.map legacyFfi with
        | some t => .mutReference t
        | none => .voidPointer]
      status := true, ret := none }

/-- A field of a table: the function pointer declared for it. -/
def Decl.field (d : Decl) : FTy := .callback d.args d.status d.ret

/-- `vtable_struct`: callback_interfaces.rs:211-253, with the types of 164-187. -/
def pipelineVtable (c : Ctx) (methods : List MFn) : List (String × FTy) :=
  ("uniffi_free", .callback [.handle] false none) ::
    ("uniffi_clone", .callback [.handle] false (some .handle)) ::
    methods.map fun f => (f.name, (pipelineVtableField c f).field)

/-- `vtable_struct`: interface/callbacks.rs:238-260; `CallbackInterfaceFree` and
`CallbackInterfaceClone` are defined in interface/mod.rs:715-728. -/
def legacyVtable (methods : List MFn) : List (String × FTy) :=
  ("uniffi_free", .callback [.uint64] false none) ::
    ("uniffi_clone", .callback [.uint64] false (some .uint64)) ::
    methods.map fun f => (f.name, (legacyVtableField f).field)

end Verif.Abi
