import Verif.Jni.Calls
/-
What an interface is like for which all conversions should be there (C90). Said about types and definitions only.
-/
namespace Verif.Jni.Calls
open Verif.Jni

/-- All definitions of all packages. -/
def Root.all (r : Root) : List Def := r.packages.flatten

/-- The types inside a value of a defined type, if its parts are converted. -/
def Def.inside : Def → List Ty
  | .record _ fs => fs
  | .enum _ flat vs => if flat then [] else vs.flatten
  | .custom _ b => [b]
  | .optional t | .seq t | .set t | .box t => [t]
  | .map k v => [k, v]
  | .cls _ | .callback _ | .duration | .timestamp => []

/-- The types of a function. -/
def Callable.types (c : Callable) : List Ty := c.args.map Arg.ty ++ c.ret.toList ++ c.throws.toList

/-- The types that occur in the interface. -/
def Root.occurring (r : Root) : List Ty :=
  r.all.flatMap (fun d => d.self :: d.inside) ++ (r.rustFns ++ r.kotlinFns).flatMap Callable.types

/-- A type occurs in the interface. -/
def Root.Occurs (r : Root) (t : Ty) : Prop := t ∈ r.occurring

/-- The types without a definition of their own: numbers, booleans, strings and bytes. -/
def builtin : Ty → Bool
  | .int _ | .f32 | .f64 | .bool | .string | .bytes => true
  | _ => false

/-- What the pipeline gives: every type that occurs is known and, unless builtin, defined in some package; a type has one
definition; and an option that is not passed in a special way is passed as a flag and its value. -/
structure Root.Sound (r : Root) : Prop where
  known : ∀ t ∈ r.occurring, t ∈ r.types
  defined : ∀ t ∈ r.occurring, builtin t = true ∨ ∃ d ∈ r.all, d.self = t
  single : ∀ d ∈ r.all, ∀ d' ∈ r.all, d.self = d'.self → d = d'
  options : ∀ t, .optional t ∈ r.all → optionFfi t = none →
    ∃ l, r.ffi.get t = some l ∧ r.ffi (.option t) = some (.boolean :: l)

/-- An error that is sent as a message. -/
def Root.Message (r : Root) (t : Ty) : Prop := ∃ n vs, t = .enum n ∧ .enum n true vs ∈ r.all

/-- A callback interface. -/
def IsCallback (t : Ty) : Prop := ∃ n, t = .callback n

/-- No callback interface, bytes or error sent as a message stands inside another value (bytes can be boxed). Options are
of types with at least one value to pass. Callback interfaces go from Kotlin to Rust and errors sent as a message from
Rust to Kotlin, but not the other way. -/
structure Root.Plain (r : Root) : Prop where
  inside : ∀ d ∈ r.all, ∀ t ∈ d.inside, ¬ IsCallback t ∧ ¬ r.Message t ∧ (t = .bytes → ∃ u, d = .box u)
  options : ∀ t, .optional t ∈ r.all → r.ffi.get t ≠ some []
  rustArgs : ∀ c ∈ r.rustFns, ∀ a ∈ c.args, ¬ r.Message a.ty
  rustResults : ∀ c ∈ r.rustFns, ∀ t ∈ c.ret.toList ++ c.throws.toList, ¬ IsCallback t
  kotlinArgs : ∀ c ∈ r.kotlinFns, ∀ a ∈ c.args, ¬ IsCallback a.ty
  kotlinResults : ∀ c ∈ r.kotlinFns, ∀ t ∈ c.ret.toList ++ c.throws.toList, ¬ r.Message t

/-- The options that the runtime knows. -/
def KnownOption : Ty → Prop
  | .int .i64 | .int .u64 => False
  | .int _ | .bool | .f32 | .f64 | .string => True
  | _ => False

/-- The conversions that exist on a side. -/
def Root.Has (r : Root) (s : Side) (op : Op) (t : Ty) : Prop :=
  (t = .bytes → op = .lower ∨ op = .lift) ∧
  (IsCallback t → match s with | .rs => op = .lift ∨ op = .read | .kt => op = .lower ∨ op = .write) ∧
  (r.Message t → match s with | .rs => op = .lower ∨ op = .write | .kt => op = .lift ∨ op = .read) ∧
  (∀ u, t = .option u → op = .lower ∨ op = .lift →
    KnownOption u ∨ (∃ n, u = .iface n) ∨ ∀ x, r.ffi.get t ≠ some [x])

end Verif.Jni.Calls
