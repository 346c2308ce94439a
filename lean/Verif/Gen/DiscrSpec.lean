import Verif.Meta.Types
/- What the discriminants of a Rust enum are. -/
namespace Verif.Gen
open Verif.Meta

/-- The Rust reference: a variant without an explicit discriminant has the previous one plus one, the
first variant has zero. `prev` is the previous discriminant. -/
def rustDiscrs (prev : Option Int) : List (Option Int) → List Int
  | [] => []
  | some z :: ds => z :: rustDiscrs (some z) ds
  | none :: ds =>
    let z := match prev with
      | none => 0
      | some p => p + 1
    z :: rustDiscrs (some z) ds

/-- The number a literal stands for. -/
def litValue : MLit → Option Int
  | .uint n _ _ => some n
  | .int z _ _ => some z
  | _ => none

/-- The type a literal is written with. -/
def litType : MLit → Option MTy
  | .uint _ _ t => some t
  | .int _ _ t => some t
  | _ => none

/-- The numbers an integer type contains. -/
def inType (z : Int) : MTy → Prop
  | .uint8 => 0 ≤ z ∧ z < 2 ^ 8
  | .uint16 => 0 ≤ z ∧ z < 2 ^ 16
  | .uint32 => 0 ≤ z ∧ z < 2 ^ 32
  | .uint64 => 0 ≤ z ∧ z < 2 ^ 64
  | .int8 => -2 ^ 7 ≤ z ∧ z < 2 ^ 7
  | .int16 => -2 ^ 15 ≤ z ∧ z < 2 ^ 15
  | .int32 => -2 ^ 31 ≤ z ∧ z < 2 ^ 31
  | .int64 => -2 ^ 63 ≤ z ∧ z < 2 ^ 63
  | _ => False

instance (z : Int) (t : MTy) : Decidable (inType z t) := by
  cases t <;> unfold inType <;> infer_instance

end Verif.Gen
