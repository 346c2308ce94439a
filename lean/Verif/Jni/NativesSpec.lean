import Verif.Jni.Natives
/-
How a virtual machine finds and calls native functions ("Resolving Native Method Names" and "JNI Types" of the JNI
specification).
-/
namespace Verif.Jni.Natives
open Verif.Jni Verif.Jni.Calls

/-- Four digits to the base 16. -/
def hex4 (n : Nat) : Str :=
  [n / 4096 % 16, n / 256 % 16, n / 16 % 16, n % 16].map Nat.digitChar

/-- How a character of a name stands in a symbol. Simplified: characters above 0xffff are not in use. -/
def mangleChar (c : Char) : Str :=
  if c.isAlphanum then [c]
  else if c = '/' then ['_']
  else if c = '_' then ['_', '1']
  else if c = ';' then ['_', '2']
  else if c = '[' then ['_', '3']
  else '_' :: '0' :: hex4 c.toNat

/-- How a name stands in a symbol. -/
def mangle (s : Str) : Str := s.flatMap mangleChar

/-- The symbol that is looked for when a native method of a class is called first. -/
def lookedFor (cls name : Str) : Str := "Java_".toList ++ mangle cls ++ '_' :: mangle name

/-- The C type of a parameter with this Kotlin type. -/
def ofKotlin : String → Option String
  | "Byte" => some "jbyte"
  | "Short" => some "jshort"
  | "Int" | "kotlin.Int" => some "jint"
  | "Long" | "kotlin.Long" => some "jlong"
  | "Float" => some "jfloat"
  | "Double" => some "jdouble"
  | "Boolean" => some "jboolean"
  | "String?" | "kotlin.String" => some "jstring"
  | "kotlin.ByteArray?" => some "jbyteArray"
  | "kotlin.ShortArray?" => some "jshortArray"
  | "kotlin.IntArray?" => some "jintArray"
  | "kotlin.LongArray?" => some "jlongArray"
  | "kotlin.FloatArray?" => some "jfloatArray"
  | "kotlin.DoubleArray?" => some "jdoubleArray"
  | "java.nio.ByteBuffer" | "java.nio.ByteBuffer?" => some "jobject"
  | "kotlin.coroutines.Continuation<kotlin.Boolean>" | "CompleteRustFuture" => some "jobject"
  | _ => none

/-- The C type that a Rust type is passed as. -/
def ofRust : String → Option String
  | "i8" => some "jbyte"
  | "i16" => some "jshort"
  | "i32" | "::std::primitive::i32" => some "jint"
  | "i64" | "::std::primitive::i64" => some "jlong"
  | "f32" => some "jfloat"
  | "f64" => some "jdouble"
  | "bool" => some "jboolean"
  | "uniffi_jni::jstring" => some "jstring"
  | "uniffi_jni::jbyteArray" => some "jbyteArray"
  | "uniffi_jni::jshortArray" => some "jshortArray"
  | "uniffi_jni::jintArray" => some "jintArray"
  | "uniffi_jni::jlongArray" => some "jlongArray"
  | "uniffi_jni::jfloatArray" => some "jfloatArray"
  | "uniffi_jni::jdoubleArray" => some "jdoubleArray"
  | "uniffi_jni::jobject" => some "jobject"
  | _ => none

/-- Parameters of the same types in the same order. -/
def Same (kt rs : List String) : Prop := kt.map ofKotlin = rs.map ofRust ∧ none ∉ kt.map ofKotlin

/-- Every box and class is defined in one crate only. -/
def Api.OneCrate (a : Api) : Prop :=
  (a.root.packages.flatten.filterMap Def.cls?).Nodup ∧ (a.root.packages.flatten.filterMap Def.box?).Nodup

/-- There are less than a billion different types. -/
def Api.Fits (a : Api) : Prop := a.root.types.eraseDups.length < 999999999

/-- The types of the result occur in the interface. -/
def Result.Known (a : Api) (r : Result) : Prop :=
  (∀ t, r.ret = some t → t ∈ a.root.types) ∧ ∀ t, r.throws = some t → t ∈ a.root.types

end Verif.Jni.Natives
