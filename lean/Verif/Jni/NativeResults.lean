import Verif.Jni.Natives
/-
The types of the results of native functions, as declared in Kotlin and as exported by Rust.
-/
namespace Verif.Jni.Natives
open Verif.Jni Verif.Jni.Calls

/-- A type in a declaration: none, a fixed text, or the Kotlin type `type_kt` of a type of the interface. -/
inductive KtResult where
  | unit
  | text (s : String)
  | kotlin (t : Ty)

/-- `ReturnFfi`: `uniffi-bindgen-kotlin-jni/src/pipeline/callables.rs:95-105`. -/
inductive ReturnFfi where
  | primitive (f : Ffi)
  | deconstruct (t : Ty)
  | void

/-- How it is chosen: callables.rs:95-105, `lowers_to_primitive` of types.rs:434-439. -/
def returnFfi (r : Root) : Option Ty → ReturnFfi
  | none => .void
  | some t =>
    match r.ffi.get t with
    | some [f] => .primitive f
    | _ => .deconstruct t

/-- The declared result of a function, method or constructor: Scaffolding.kt:17-24. -/
def fnResultKt (r : Root) (async : Bool) (ret : Option Ty) : KtResult :=
  if async then .text "kotlin.Long"
  else match returnFfi r ret with
    | .primitive f => .text (Lookup.ffiKt f)
    | .deconstruct t => .kotlin t
    | .void => .unit

/-- The result in Rust: jni_method.rs:10-14, 124. -/
def fnResultRs (r : Root) (async : Bool) (ret : Option Ty) : Option String :=
  if async then some "i64"
  else match returnFfi r ret with
    | .primitive f => some (ffiRs f)
    | .deconstruct _ => some "uniffi_jni::jobject"
    | .void => none

/-- The declared results of numbered functions, for the type in the box if there is one: Scaffolding.kt:27-95. -/
def Stem.resultKt (inner : Ty) : Stem → KtResult
  | .clone | .fromValues => .text "kotlin.Long"
  | .intoInner => .kotlin inner
  | .poll => .text "Int"
  | .free | .setReturn | .setError | .cancel | .freeFuture | .success | .error | .unexpected => .unit

/-- Their results in Rust: class.rs:170, 189; box.rs:60, 77; async.rs:74, 166, 181, 204, 242, 269;
callback_interface_shared.rs:12, 46. -/
def Stem.resultRs : Stem → Option String
  | .clone => some "i64"
  | .fromValues => some "::std::primitive::i64"
  | .intoInner => some "uniffi_jni::jobject"
  | .poll => some "i32"
  | .free | .setReturn | .setError | .cancel | .freeFuture | .success | .error | .unexpected => none

/-- The functions for buffers with both results: Scaffolding.kt:2-8; ffi_buffer.rs:5, 21, 35, 51, 69, 87, 105. -/
def bufferResults : List (String × KtResult × Option String) :=
  [("ffiBufferCheckSupport", .unit, none), ("ffiBufferAlloc", .text "java.nio.ByteBuffer", some "uniffi_jni::jobject"),
   ("ffiBufferFree", .unit, none), ("ffiBufferReadString", .text "kotlin.String", some "uniffi_jni::jstring"),
   ("ffiBufferWriteString", .unit, none),
   ("ffiBufferReadBuffer", .text "java.nio.ByteBuffer", some "uniffi_jni::jobject"), ("ffiBufferWriteBuffer", .unit, none)]

end Verif.Jni.Natives
