import Verif.Meta.Types
/-
What a converter depends on, apart from where the named types are declared.
-/
namespace Verif.Gen.Canonical
open Verif.Meta

/-- The builtin types. -/
inductive Builtin where
  | uint8 | int8 | uint16 | int16 | uint32 | int32 | uint64 | int64 | float32 | float64
  | boolean | string | bytes | timestamp | duration
  deriving DecidableEq, Repr

/-- A type as the foreign language sees it. -/
inductive Shape where
  | builtin (b : Builtin)
  /-- a user-defined type -/
  | named (name : String)
  | callback (name : String)
  | optional (t : Shape)
  | sequence (t : Shape)
  | set (t : Shape)
  | map (k v : Shape)
  | box (t : Shape)
  deriving DecidableEq, Repr

/-- No user-defined type occurs in the type. -/
def Shape.plain : Shape → Bool
  | .builtin _ => true
  | .named _ | .callback _ => false
  | .optional t | .sequence t | .set t | .box t => t.plain
  | .map k v => k.plain && v.plain

/-- No user-defined type occurs in the key of a map. -/
def Shape.plainKeys : Shape → Bool
  | .builtin _ | .named _ | .callback _ => true
  | .optional t | .sequence t | .set t | .box t => t.plainKeys
  | .map k v => k.plain && v.plainKeys

/-- The shape of a type. `box` says whether `Box<T>` is told from `T`, `callback` what becomes of a
callback interface. -/
def shape (box : Bool) (callback : String → Shape) : MTy → Shape
  | .uint8 => .builtin .uint8 | .int8 => .builtin .int8 | .uint16 => .builtin .uint16
  | .int16 => .builtin .int16 | .uint32 => .builtin .uint32 | .int32 => .builtin .int32
  | .uint64 => .builtin .uint64 | .int64 => .builtin .int64 | .float32 => .builtin .float32
  | .float64 => .builtin .float64 | .boolean => .builtin .boolean | .string => .builtin .string
  | .bytes => .builtin .bytes | .timestamp => .builtin .timestamp | .duration => .builtin .duration
  | .object _ n _ | .record _ n | .enum _ n | .custom _ n _ => .named n
  | .callbackInterface _ n => callback n
  | .optional t => .optional (shape box callback t)
  | .sequence t => .sequence (shape box callback t)
  | .set t => .set (shape box callback t)
  | .map k v => .map (shape box callback k) (shape box callback v)
  | .box t => if box then .box (shape box callback t) else shape box callback t

/-- Python tells `Box` from its content, and a callback interface is like any other type. -/
def pythonShape : MTy → Shape := shape true .named

/-- In Kotlin `Box` does not show. -/
def kotlinShape : MTy → Shape := shape false .named

/-- In Swift callback interfaces are told from other types, by their class name. -/
def swiftShape (className : String → String) : MTy → Shape :=
  shape false fun n => .callback (className n)

end Verif.Gen.Canonical
