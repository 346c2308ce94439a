import Verif.Jni.CallbackSig
import Verif.Jni.Calls
import Verif.Jni.Lookup
/-
The functions `callbackInterfaceDispatch…` of generated Kotlin code: their names, and how they end after an error.
-/
namespace Verif.JniCallback
open Verif.Jni Verif.Jni.Calls

/-- `default_kt`: `uniffi-bindgen-kotlin-jni/src/pipeline/ffi_types.rs:197-215`. -/
def defaultKt : Ffi → String
  | .int8 => "0.toByte()"
  | .int16 => "0.toShort()"
  | .int32 => "0"
  | .int64 => "0L"
  | .float32 => "0.0f"
  | .float64 => "0.0"
  | .boolean => "false"
  | .string | .byteArray | .shortArray | .intArray | .longArray | .floatArray | .doubleArray | .byteBuffer => "null"

/-- The text of the declared type of the result, if there is one: CallbackInterfaceFfi.kt:16-19, 78. The function of an async
method has none, and neither has the block in it. -/
def Meth.resultText (m : Meth) : Option String :=
  if m.isAsync then none
  else match m.returnFfi with
    | .primitive f => some (Lookup.ffiKt f)
    | _ => none

/-- What is returned after an error of the method was passed on, if it throws: `default_return_kt` of callbacks.rs:182-187 in
CallbackInterfaceFfi.kt:53, 119. -/
def Meth.afterError (m : Meth) : Option String :=
  match m.throws with
  | none => none
  | some _ =>
    match m.returnFfi with
    | .primitive f => some (defaultKt f)
    | _ => some "Unit"

/-- Whether the body of the function uses the pointer: CallbackInterfaceFfi.kt:46-53 (errors), 60-67 (results). -/
def Meth.usesPointer (m : Meth) : Bool :=
  if m.isAsync then false
  else m.throws.isSome || match m.returnFfi with | .deconstruct _ => true | _ => false

/-- The name of the function for a method, by its place in the interface: callbacks.rs:60-73. -/
def dispatchName (r : Root) (self : Ty) (index : Nat) : String :=
  "callbackInterfaceDispatch" ++ toString (r.id self * 1000000 + index)

end Verif.JniCallback
