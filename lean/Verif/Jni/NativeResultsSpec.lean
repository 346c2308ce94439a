import Verif.Jni.NativeResults
import Verif.Jni.NativesSpec
import Verif.Jni.LookupSpec
/-
How results of native functions are passed.
-/
namespace Verif.Jni.Natives
open Verif.Jni Verif.Jni.Calls

/-- A way to pass a result: not at all, as a number of some size, or as a reference to an object. -/
inductive Passed where
  | nothing | byte | short | int | long | float | double | boolean | reference
  deriving DecidableEq

/-- How a C type is passed. -/
def passedC : String → Passed
  | "jbyte" => .byte
  | "jshort" => .short
  | "jint" => .int
  | "jlong" => .long
  | "jfloat" => .float
  | "jdouble" => .double
  | "jboolean" => .boolean
  | _ => .reference

/-- How a type with this descriptor is passed. -/
def passedDescriptor : List Char → Passed
  | ['B'] => .byte
  | ['S'] => .short
  | ['I'] => .int
  | ['J'] => .long
  | ['F'] => .float
  | ['D'] => .double
  | ['Z'] => .boolean
  | _ => .reference

/-- What Kotlin expects. A type of the interface is what the Kotlin compiler makes of it. -/
def expected (N : Lookup.Names) : KtResult → Option Passed
  | .unit => some .nothing
  | .text s => (ofKotlin s).map passedC
  | .kotlin t => some (passedDescriptor (Lookup.descriptor N false t))

/-- What Rust passes. -/
def passed : Option String → Option Passed
  | none => some .nothing
  | some s => (ofRust s).map passedC

/-- Kotlin expects what Rust passes. -/
def Agree (N : Lookup.Names) (k : KtResult) (r : Option String) : Prop := expected N k = passed r ∧ expected N k ≠ none

/-- Custom types are passed as the types that they are made from. -/
def CustomsPassed (r : Root) : Prop := ∀ n b, r.ffi.get (.custom n b) = r.ffi.get b

/-- Numbers and booleans, also in boxes and as custom types. -/
def Number : Ty → Prop
  | .int _ | .f32 | .f64 | .bool => True
  | .box t | .custom _ t => Number t
  | _ => False

end Verif.Jni.Natives
