import Verif.Gen.Assemble
import Verif.Gen.AssembleSpec
/-
What a type in the tree should say. Apart from the names of definitions, it is the type of the item.
-/
namespace Verif.Gen.Assemble
open Verif.Meta

/-- The type in the tree for a type of an item: definitions are found in the namespace of their crate,
and their Rust names are kept. -/
def Refers (items : List Metadata) : MTy → ITy → Prop
  | .object m n i, t => ∃ ns o, Lives items (crateName m) ns ∧ RustName items m n o ∧ t = .interface ns n o i
  | .record m n, t => ∃ ns o, Lives items (crateName m) ns ∧ RustName items m n o ∧ t = .record ns n o
  | .enum m n, t => ∃ ns o, Lives items (crateName m) ns ∧ RustName items m n o ∧ t = .enum ns n o
  | .callbackInterface m n, t =>
    ∃ ns o, Lives items (crateName m) ns ∧ RustName items m n o ∧ t = .callbackInterface ns n o
  | .custom m n b, t => ∃ ns o b', Lives items (crateName m) ns ∧ RustName items m n o ∧
      Refers items b b' ∧ t = .custom ns n o b'
  | .optional a, t => ∃ b, Refers items a b ∧ t = .optional b
  | .box a, t => ∃ b, Refers items a b ∧ t = .box b
  | .sequence a, t => ∃ b, Refers items a b ∧ t = .sequence b
  | .set a, t => ∃ b, Refers items a b ∧ t = .set b
  | .map k v, t => ∃ k' v', Refers items k k' ∧ Refers items v v' ∧ t = .map k' v'
  | .uint8, t => t = .uint8
  | .int8, t => t = .int8
  | .uint16, t => t = .uint16
  | .int16, t => t = .int16
  | .uint32, t => t = .uint32
  | .int32, t => t = .int32
  | .uint64, t => t = .uint64
  | .int64, t => t = .int64
  | .float32, t => t = .float32
  | .float64, t => t = .float64
  | .boolean, t => t = .boolean
  | .string, t => t = .string
  | .bytes, t => t = .bytes
  | .timestamp, t => t = .timestamp
  | .duration, t => t = .duration

/-- Two descriptions of a type that hold the same members, maybe in another order. -/
structure SameDef (d o : TypeDef) : Prop where
  item : d.item = o.item
  ctors : d.ctors.Perm o.ctors
  methods : d.methods.Perm o.methods
  builtins : d.builtins.Perm o.builtins
  impls : d.impls.Perm o.impls

end Verif.Gen.Assemble
