import Verif.Jni.FfiTypes
/-
How Rust finds and calls the Kotlin function for a method of a callback interface or of a trait
interface: the signature it looks for, the function of the JNI it calls, and the arguments it gives.
uniffi-bindgen-kotlin-jni/src/pipeline/callbacks.rs, callables.rs, ffi_types.rs;
scaffolding/templates/callback_interface.rs; bindings/templates/shared/CallbackInterfaceFfi.kt.
-/
namespace Verif.JniCallback
open Verif.Jni

/-- What `argument_ffi` tells apart (`callables.rs:189-244`). The receiver of a callback method is
never among the arguments. -/
inductive ArgKind where
  /-- `&[u8]` or `&mut [u8]`. -/
  | bytesRef
  /-- A reference to an interface that only Rust implements. -/
  | objectRef
  /-- Everything else, with the FFI types of its type. -/
  | standard (ffi : List Ffi)
  deriving DecidableEq, Repr

/-- `Argument::ffi_args` (`callables.rs:189-244`, `436-440`): what the Kotlin function takes. -/
def ArgKind.taken : ArgKind → List Ffi
  | .bytesRef => [.byteBuffer]
  | .objectRef => [.int64]
  | .standard l => l

/-- `a.ty.ffi_types`: what the Rust code lowers to and passes (`callback_interface.rs:74`, `87-91`,
`TypeNode::ffi_values_rs` at `types.rs:445-455`). -/
def ArgKind.passed : ArgKind → List Ffi
  | .bytesRef => [.byteArray]
  | .objectRef => [.int64]
  | .standard l => l

/-- `CallbackMethod` (`nodes.rs`), without names: the FFI types of the return type and of the error
type. -/
structure Meth where
  isAsync : Bool
  args : List ArgKind
  ret : Option (List Ffi)
  throws : Option (List Ffi)
  deriving DecidableEq, Repr

/-- `ReturnFfi` (`nodes.rs`). -/
inductive ReturnFfi where
  | primitive (f : Ffi)
  | deconstruct (fs : List Ffi)
  | void
  deriving DecidableEq, Repr

/-- `callables.rs:95-105`. -/
def Meth.returnFfi (m : Meth) : ReturnFfi :=
  match m.ret with
  | some [f] => .primitive f
  | some fs => .deconstruct fs
  | none => .void

/-- `callbacks.rs:147-156` (`has_return_pointer`). -/
def Meth.hasReturnPointer (m : Meth) : Bool :=
  if m.isAsync then false
  else (match m.ret with
    | some fs => !(fs.length == 1)
    | none => false) || m.throws.isSome

/-- `ffi_types.rs:218-236` (`FfiType::jni_signature`). -/
def sigOf : Ffi → List Char
  | .int8 => ['B']
  | .int16 => ['S']
  | .int32 => ['I']
  | .int64 => ['J']
  | .float32 => ['F']
  | .float64 => ['D']
  | .boolean => ['Z']
  | .string => "Ljava/lang/String;".toList
  | .byteBuffer => "Ljava/nio/ByteBuffer;".toList
  | .byteArray => ['[', 'B']
  | .shortArray => ['[', 'S']
  | .intArray => ['[', 'I']
  | .longArray => ['[', 'J']
  | .floatArray => ['[', 'F']
  | .doubleArray => ['[', 'D']

/-- `callbacks.rs:118-142` (`CallbackMethod::jni_signature`). -/
def Meth.jniSignature (m : Meth) : List Char :=
  let args := ['J'] ++ (if m.hasReturnPointer then ['J'] else []) ++ (if m.isAsync then ['J'] else []) ++
    (m.args.flatMap ArgKind.taken).flatMap sigOf
  let ret := if !m.isAsync then
      match m.returnFfi with
      | .primitive f => sigOf f
      | _ => ['V']
    else ['V']
  ['('] ++ args ++ [')'] ++ ret

/-- The functions of `CachedStaticMethod` the templates use (`runtime/src/caching.rs`). -/
inductive CallName where
  | byte | short | int | long | float | double | object | void
  deriving DecidableEq, Repr

/-- `callbacks.rs:158-180` (`jni_method_call_name`). -/
def Meth.callName (m : Meth) : CallName :=
  match m.ret with
  | some [.int8] | some [.boolean] => .byte
  | some [.int16] => .short
  | some [.int32] => .int
  | some [.int64] => .long
  | some [.float32] => .float
  | some [.float64] => .double
  | some [.string] | some [.byteBuffer] | some [.byteArray] | some [.shortArray] | some [.intArray]
  | some [.longArray] | some [.floatArray] | some [.doubleArray] => .object
  | some _ => .void
  | none => .void

/-- The members of the union `jvalue`. -/
inductive JField where
  | z | b | s | i | j | f | d | l
  deriving DecidableEq, Repr

/-- `ffi_types.rs:239-257` (`jvalue_field`). -/
def fieldOf : Ffi → JField
  | .int8 => .b
  | .int16 => .s
  | .int32 => .i
  | .int64 => .j
  | .float32 => .f
  | .float64 => .d
  | .boolean => .z
  | _ => .l

/-- The `jvalue`s the Rust code makes: the handle, the return pointer or the sender, and the parts of
the arguments (`callback_interface.rs:77-93` and `156-170`). -/
def Meth.passes (m : Meth) : List JField :=
  if m.isAsync then [.j, .j] ++ (m.args.flatMap ArgKind.passed).map fieldOf
  else [.j] ++ (if m.hasReturnPointer then [.j] else []) ++ (m.args.flatMap ArgKind.passed).map fieldOf

/-- The Kotlin types of FFI values, `ffi_types.rs:152-173` (`FfiType::type_kt`). The `?` is left out:
it makes no difference for the JVM type of these types, as the others are never nullable. -/
inductive KtType where
  | byte | short | int | long | float | double | boolean | string
  | byteArray | shortArray | intArray | longArray | floatArray | doubleArray | byteBuffer | unit
  deriving DecidableEq, Repr

def ktOf : Ffi → KtType
  | .int8 => .byte
  | .int16 => .short
  | .int32 => .int
  | .int64 => .long
  | .float32 => .float
  | .float64 => .double
  | .boolean => .boolean
  | .string => .string
  | .byteArray => .byteArray
  | .shortArray => .shortArray
  | .intArray => .intArray
  | .longArray => .longArray
  | .floatArray => .floatArray
  | .doubleArray => .doubleArray
  | .byteBuffer => .byteBuffer

/-- The parameters of the Kotlin function, `CallbackInterfaceFfi.kt:7-15` and `72-78`. -/
def Meth.ktParams (m : Meth) : List KtType :=
  if m.isAsync then [.long, .long] ++ (m.args.flatMap ArgKind.taken).map ktOf
  else [.long] ++ (if m.hasReturnPointer then [.long] else []) ++ (m.args.flatMap ArgKind.taken).map ktOf

/-- What the Kotlin function returns, `CallbackInterfaceFfi.kt:16-19` and `78`. -/
def Meth.ktReturn (m : Meth) : KtType :=
  if m.isAsync then .unit
  else match m.returnFfi with
    | .primitive f => ktOf f
    | _ => .unit

end Verif.JniCallback
