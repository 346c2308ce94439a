import Verif.Jni.Lookup
import Verif.Gen.Names
/-
The native functions of generated Kotlin code: the declarations in the object `Scaffolding`, and the functions that Rust
exports for them.
-/
namespace Verif.Jni.Natives
open Verif.Jni Verif.Jni.Calls

abbrev Str := List Char

/-- The native functions with a number in the name. -/
inductive Stem where
  | clone | free | fromValues | intoInner | setReturn | setError | poll | cancel | freeFuture | success | error | unexpected
  deriving DecidableEq, Repr

/-- What the name begins with: `uniffi-bindgen-kotlin-jni/src/pipeline/interfaces.rs:84-90`, compounds.rs:74-80,
callables.rs:376-396, 406-416. -/
def Stem.text : Stem → String
  | .clone => "objectCloneHandle"
  | .free => "objectFree"
  | .fromValues => "boxFromFfiValues"
  | .intoInner => "boxIntoInner"
  | .setReturn => "setCallbackReturn"
  | .setError => "setCallbackError"
  | .poll => "rustFuturePoll"
  | .cancel => "rustFutureCancel"
  | .freeFuture => "rustFutureFree"
  | .success => "completeKotlinFuture"
  | .error => "completeKotlinFutureErr"
  | .unexpected => "completeKotlinFutureUnexpectedErr"

/-- A native function: one for buffers, one for a function, method or constructor, a numbered one, or the last declaration
in Scaffolding.kt:96. -/
inductive Native where
  | buffer (name : String)
  | fn (crate : Str) (kind : Gen.Names.Kind) (name : Str)
  | num (stem : Stem) (id : Nat)
  | leftover

/-- The name of a native function. -/
def Native.name : Native → Str
  | .buffer s => s.toList
  | .fn c k n => Gen.Names.jniMethod c k n
  | .num s i => (s.text ++ toString i).toList
  | .leftover => "uniffiKotlinFutureComplete".toList

/-- A function implemented in Rust and the FFI types of its arguments with the receiver: packages.rs:92-126. -/
structure Fn where
  crate : Str
  kind : Gen.Names.Kind
  name : Str
  params : List Ffi

/-- `CallableResult`. -/
structure Result where
  ret : Option Ty
  throws : Option Ty

/-- What the native functions are made for. The results are those that are visited, root.rs:108-120. -/
structure Api where
  root : Root
  fns : List Fn
  /-- of methods implemented in Kotlin that are not async -/
  kotlinSync : List Result
  /-- of async functions implemented in Rust -/
  rustAsync : List Result
  /-- of async methods implemented in Kotlin -/
  kotlinAsync : List Result

/-- The number of a type plus one, or zero. -/
def Api.place (a : Api) : Option Ty → Nat
  | some t => a.root.id t + 1
  | none => 0

/-- `CallableResult::id`: callables.rs:362-374. -/
def Api.resultId (a : Api) (r : Result) : Nat := a.place r.throws * 1000000000 + a.place r.ret

/-- `iter_callable_results_that_match` after the filter: root.rs:108-120. The first result for each number. -/
def Api.firsts (a : Api) : List Nat → List Result → List Result
  | _, [] => []
  | seen, r :: rs =>
    if a.resultId r ∈ seen then a.firsts seen rs else r :: a.firsts (a.resultId r :: seen) rs

/-- `ffi_types` of a type. The generator stops when there are none. -/
def Api.ffi (a : Api) (t : Ty) : List Ffi :=
  match a.root.ffi.get t with
  | some l => l
  | none => []

/-- The names of the classes: packages.rs:128-135. -/
def _root_.Verif.Jni.Calls.Def.cls? : Def → Option Ty
  | .cls n => some (.iface n)
  | _ => none

/-- The types in boxes: packages.rs:137-144. -/
def _root_.Verif.Jni.Calls.Def.box? : Def → Option Ty
  | .box t => some t
  | _ => none

/-- Scaffolding.kt:2-8. -/
def bufferKt : List (Native × List String) :=
  [(.buffer "ffiBufferCheckSupport", []), (.buffer "ffiBufferAlloc", ["kotlin.Int"]),
   (.buffer "ffiBufferFree", ["java.nio.ByteBuffer"]), (.buffer "ffiBufferReadString", ["java.nio.ByteBuffer", "kotlin.Int"]),
   (.buffer "ffiBufferWriteString", ["java.nio.ByteBuffer", "kotlin.Int", "kotlin.String"]),
   (.buffer "ffiBufferReadBuffer", ["java.nio.ByteBuffer", "kotlin.Int"]),
   (.buffer "ffiBufferWriteBuffer", ["java.nio.ByteBuffer", "kotlin.Int", "java.nio.ByteBuffer"])]

/-- Scaffolding.kt:10-25. -/
def fnKt (f : Fn) : Native × List String := (.fn f.crate f.kind f.name, f.params.map Lookup.ffiKt)

/-- Scaffolding.kt:27-30. -/
def Api.clsKt (a : Api) (t : Ty) : List (Native × List String) :=
  [(.num .clone (a.root.id t), ["kotlin.Long"]), (.num .free (a.root.id t), ["kotlin.Long"])]

/-- Scaffolding.kt:32-39. -/
def Api.boxKt (a : Api) (t : Ty) : List (Native × List String) :=
  [(.num .fromValues (a.root.id (.box t)), (a.ffi t).map Lookup.ffiKt), (.num .intoInner (a.root.id (.box t)), ["kotlin.Long"])]

/-- Scaffolding.kt:41-61. -/
def Api.syncKt (a : Api) (r : Result) : List (Native × List String) :=
  (match r.ret with
    | some t => if a.root.one t = false then [(.num .setReturn (a.resultId r), "kotlin.Long" :: (a.ffi t).map Lookup.ffiKt)] else []
    | none => []) ++
  (match r.throws with
    | some t => [(.num .setError (a.resultId r), "kotlin.Long" :: (a.ffi t).map Lookup.ffiKt)]
    | none => [])

/-- Scaffolding.kt:63-73. Simplified: the number in the name of the class `CompleteRustFuture` is left out. -/
def Api.rustAsyncKt (a : Api) (r : Result) : List (Native × List String) :=
  [(.num .poll (a.resultId r), ["kotlin.Long", "kotlin.coroutines.Continuation<kotlin.Boolean>"] ++
      if r.ret.isSome then ["CompleteRustFuture"] else []),
   (.num .cancel (a.resultId r), ["kotlin.Long"]), (.num .freeFuture (a.resultId r), ["kotlin.Long"])]

/-- Scaffolding.kt:75-95. -/
def Api.kotlinAsyncKt (a : Api) (r : Result) : List (Native × List String) :=
  [(.num .success (a.resultId r), "kotlin.Long" ::
      (match r.ret with | some t => (a.ffi t).map Lookup.ffiKt | none => []))] ++
  (match r.throws with
    | some t => [(.num .error (a.resultId r), "kotlin.Long" :: (a.ffi t).map Lookup.ffiKt)]
    | none => []) ++
  [(.num .unexpected (a.resultId r), ["kotlin.Long"])]

/-- The declarations with the types of their parameters: `bindings/templates/shared/Scaffolding.kt:1-97`. The types of
results are in Jni/NativeResults.lean. -/
def Api.kotlin (a : Api) : List (Native × List String) :=
  bufferKt ++ a.fns.map fnKt ++ (a.root.packages.flatten.filterMap Def.cls?).flatMap a.clsKt ++
  (a.root.packages.flatten.filterMap Def.box?).flatMap a.boxKt ++ (a.firsts [] a.kotlinSync).flatMap a.syncKt ++
  (a.firsts [] a.rustAsync).flatMap a.rustAsyncKt ++ (a.firsts [] a.kotlinAsync).flatMap a.kotlinAsyncKt ++
  [(.leftover, ["kotlin.Long", "kotlin.Int"])]

/-- `FfiType::type_rs`: ffi_types.rs:175-193. -/
def ffiRs : Ffi → String
  | .int8 => "i8"
  | .int16 => "i16"
  | .int32 => "i32"
  | .int64 => "i64"
  | .float32 => "f32"
  | .float64 => "f64"
  | .boolean => "bool"
  | .string => "uniffi_jni::jstring"
  | .byteArray => "uniffi_jni::jbyteArray"
  | .shortArray => "uniffi_jni::jshortArray"
  | .intArray => "uniffi_jni::jintArray"
  | .longArray => "uniffi_jni::jlongArray"
  | .floatArray => "uniffi_jni::jfloatArray"
  | .doubleArray => "uniffi_jni::jdoubleArray"
  | .byteBuffer => "uniffi_jni::jobject"

/-- ffi_buffer.rs:1-120. The parameters after the environment and the class, here and below. -/
def bufferRs : List (Native × List String) :=
  [(.buffer "ffiBufferCheckSupport", []), (.buffer "ffiBufferAlloc", ["::std::primitive::i32"]),
   (.buffer "ffiBufferFree", ["uniffi_jni::jobject"]),
   (.buffer "ffiBufferReadString", ["uniffi_jni::jobject", "::std::primitive::i32"]),
   (.buffer "ffiBufferWriteString", ["uniffi_jni::jobject", "::std::primitive::i32", "uniffi_jni::jstring"]),
   (.buffer "ffiBufferReadBuffer", ["uniffi_jni::jobject", "::std::primitive::i32"]),
   (.buffer "ffiBufferWriteBuffer", ["uniffi_jni::jobject", "::std::primitive::i32", "uniffi_jni::jobject"])]

/-- jni_method.rs:1-9, 116-123. -/
def fnRs (f : Fn) : Native × List String := (.fn f.crate f.kind f.name, f.params.map ffiRs)

/-- async.rs:64-72, 160-165, 175-180. -/
def Api.rustAsyncRs (a : Api) (r : Result) : List (Native × List String) :=
  [(.num .poll (a.resultId r), ["i64", "uniffi_jni::jobject"] ++ if r.ret.isSome then ["uniffi_jni::jobject"] else []),
   (.num .cancel (a.resultId r), ["i64"]), (.num .freeFuture (a.resultId r), ["i64"])]

/-- async.rs:192-204, 233-242, 263-269. -/
def Api.kotlinAsyncRs (a : Api) (r : Result) : List (Native × List String) :=
  [(.num .success (a.resultId r), "i64" :: (match r.ret with | some t => (a.ffi t).map ffiRs | none => []))] ++
  (match r.throws with
    | some t => [(.num .error (a.resultId r), "i64" :: (a.ffi t).map ffiRs)]
    | none => []) ++
  [(.num .unexpected (a.resultId r), ["i64"])]

/-- callback_interface_shared.rs:1-12, 36-46. -/
def Api.syncRs (a : Api) (r : Result) : List (Native × List String) :=
  (match r.ret with
    | some t => if a.root.one t = false then [(.num .setReturn (a.resultId r), "i64" :: (a.ffi t).map ffiRs)] else []
    | none => []) ++
  (match r.throws with
    | some t => [(.num .setError (a.resultId r), "i64" :: (a.ffi t).map ffiRs)]
    | none => [])

/-- class.rs:165-169, 184-188; box.rs:53-60, 72-77. -/
def Api.defRs (a : Api) : Def → List (Native × List String)
  | .cls n => [(.num .free (a.root.id (.iface n)), ["i64"]), (.num .clone (a.root.id (.iface n)), ["i64"])]
  | .box t => [(.num .fromValues (a.root.id (.box t)), (a.ffi t).map ffiRs),
      (.num .intoInner (a.root.id (.box t)), ["::std::primitive::i64"])]
  | _ => []

/-- The exported functions: `scaffolding/templates/scaffolding.rs:15-57`. -/
def Api.rust (a : Api) : List (Native × List String) :=
  (a.firsts [] a.rustAsync).flatMap a.rustAsyncRs ++ (a.firsts [] a.kotlinAsync).flatMap a.kotlinAsyncRs ++
  (a.firsts [] a.kotlinSync).flatMap a.syncRs ++ bufferRs ++ a.fns.map fnRs ++ a.root.defs.flatMap a.defRs

/-- The symbol that is exported: `Java_uniffi_Scaffolding_` and the name, in all templates above. -/
def Native.symbol (n : Native) : Str := "Java_uniffi_Scaffolding_".toList ++ n.name

end Verif.Jni.Natives
