import Verif.Abi.Types
/-
The C types and signatures of the functions the scaffolding exports and of the tables of callbacks
it calls through.
-/
namespace Verif.Abi
open Verif.Meta

namespace Rust

/-- `RustBuffer`: uniffi_core/src/ffi/rustbuffer.rs:51-61. -/
def rustBuffer : CTy := .struct [.int 64 false, .int 64 false, .ptr none]

/-- `ForeignBytes` and `ForeignBytesMut`: uniffi_core/src/ffi/foreignbytes.rs:25-31, 114-120. -/
def foreignBytes : CTy := .struct [.int 32 true, .ptr none]

/-- `RustCallStatus`: uniffi_core/src/ffi/rustcalls.rs:42-59. -/
def rustCallStatus : CTy := .struct [.int 8 true, rustBuffer]

/-- `Handle`, transparent over `u64`: uniffi_core/src/ffi/handle.rs:21-23. -/
def handle : CTy := .int 64 false

/-- `ForeignFutureResult<T>`: uniffi_core/src/ffi/foreignfuture.rs:29-35. A `()` takes no room. -/
def foreignFutureResult (t : Option CTy) : CTy := .struct (t.toList ++ [rustCallStatus])

/-- `ForeignFutureDroppedCallbackStruct`: foreignfuture.rs:40-45. -/
def droppedCallbackStruct : CTy := .struct [.int 64 false, .fn [.int 64 false] none]

/-- `ForeignFutureCallback<T>`: foreignfuture.rs:22-26. -/
def foreignFutureCallback (t : Option CTy) : CTy :=
  .fn [.int 64 false, foreignFutureResult t] none

end Rust

/-- The `FfiType` a Rust type is lifted from and lowered to:
uniffi_core/src/ffi_converter_impls.rs:46 (numbers), 86 (bool), 124 (String), 184 (SystemTime),
229 (Duration), 255, 273 (Option), 300, 312 (Box), 339, 361 (Vec), 388, 410 (HashMap), 482, 502
(HashSet); uniffi_macros/src/object.rs:182 (objects), export/trait_interface.rs:242 (trait objects),
export/callback_interface.rs:171, record.rs and enum_.rs (`derive_ffi_traits` over `RustBuffer`),
custom.rs:249 (custom types), uniffi_core/src/ffi/foreignbytes.rs:86, 195 (byte slices). -/
def rustFfi : RTy → CTy
  | .u8 => .int 8 false
  | .i8 => .int 8 true
  | .u16 => .int 16 false
  | .i16 => .int 16 true
  | .u32 => .int 32 false
  | .i32 => .int 32 true
  | .u64 => .int 64 false
  | .i64 => .int 64 true
  | .f32 => .float
  | .f64 => .double
  | .bool => .int 8 true
  | .string | .systemTime | .duration => Rust.rustBuffer
  | .byteSlice => Rust.foreignBytes
  | .object _ _ => Rust.handle
  | .traitObject _ _ _ => Rust.handle
  | .callbackInterface _ _ => .int 64 false
  | .record _ _ | .enum _ _ => Rust.rustBuffer
  | .custom _ _ t => rustFfi t
  | .option _ => Rust.rustBuffer
  | .box t => rustFfi t
  | .vec _ => Rust.rustBuffer
  | .hashMap _ _ => Rust.rustBuffer
  | .hashSet _ => Rust.rustBuffer

/-- `LowerReturn::ReturnType` and `LiftReturn::ReturnType`: ffi_converter_impls.rs:543-552 (`()`),
567-614 (`Result<R, E>` returns what `R` returns). -/
def rustReturn : RetSrc → Option CTy
  | .plain t => t.map rustFfi
  | .result t _ => t.map rustFfi

/-- Whether the macro adds a parameter for `self`: uniffi_macros/src/export/scaffolding.rs:107-207. -/
def hasReceiver : FnKind → Bool
  | .method _ | .traitMethod _ _ => true
  | .function | .constructor _ => false

/-- The exported function: `gen_ffi_function`, scaffolding.rs:214-320, with the parameter types of
`ScaffoldingBits` (107-207) and `scaffolding_param_types`, fnsig.rs:290-292. `recv` is the type of
`self`, used by methods only. -/
def scaffoldSig (recv : RTy) (f : FnSrc) : CSig :=
  { params := (if hasReceiver f.kind then [rustFfi recv] else []) ++
      f.args.map (fun a => rustFfi a.ty) ++
      (if f.isAsync then [] else [.ptr (some Rust.rustCallStatus)])
    ret := if f.isAsync then some Rust.handle else rustReturn f.ret }

/-- A field of the table of callbacks: callback_interface.rs:59-84. -/
def rustVtableField (f : FnSrc) : CTy :=
  .fn (.int 64 false :: f.args.map (fun a => rustFfi a.ty) ++
    (if f.isAsync then
      [Rust.foreignFutureCallback (rustReturn f.ret), .int 64 false,
        .ptr (some Rust.droppedCallbackStruct)]
    else [.ptr (rustReturn f.ret), .ptr (some Rust.rustCallStatus)])) none

/-- The table of callbacks: callback_interface.rs:99-103. The struct is not declared `repr(C)`; the
model takes the fields to be laid out in the order they are declared. -/
def rustVtable (methods : List FnSrc) : List CTy :=
  .fn [.int 64 false] none :: .fn [.int 64 false] (some (.int 64 false)) ::
    methods.map rustVtableField

/-- The completion functions: `rust_future_scaffolding_fns`,
uniffi_macros/src/setup_scaffolding.rs:153-209. -/
def futureFunctions : List (Option CTy × String) :=
  [(some (.int 8 false), "u8"), (some (.int 8 true), "i8"), (some (.int 16 false), "u16"),
   (some (.int 16 true), "i16"), (some (.int 32 false), "u32"), (some (.int 32 true), "i32"),
   (some (.int 64 false), "u64"), (some (.int 64 true), "i64"), (some .float, "f32"),
   (some .double, "f64"), (some Rust.rustBuffer, "rust_buffer"), (none, "void")]

/-- What `rust_future_complete_<suffix>` takes the finished value of the future to be. -/
def completesAs (suffix : String) : Option (Option CTy) :=
  (futureFunctions.find? (·.2 = suffix)).map (·.1)

end Verif.Abi
