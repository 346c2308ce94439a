import Verif.Meta.Types
import Verif.Meta.Reader
/-
Enum discriminants in the generators: uniffi_bindgen/src/pipeline/general/enums.rs (Python) and
uniffi_bindgen/src/interface/enum_.rs (Kotlin, Swift, Ruby).
-/
namespace Verif.Meta

/-- Rust's `?` and statement sequencing. -/
def Res.bind {α β : Type} : Res α → (α → Res β) → Res β
  | .ok a, f => f a
  | .err, _ => .err
  | .panic, _ => .panic

end Verif.Meta

namespace Verif.Gen
open Verif Verif.Meta

/-- enums.rs:64-74: is the discriminant type signed? `none` is the error "Invalid enum discriminant
type". -/
def signedType : Option MTy → Option Bool
  | some .uint8 | some .uint16 | some .uint32 | some .uint64 => some false
  | some .int8 | some .int16 | some .int32 | some .int64 => some true
  | some _ => none
  | none => some true

/-- `val + 1` on a `u64`; overflow panics (debug builds). -/
def succU64 (n : Nat) : Res Nat := if n + 1 < 2 ^ 64 then .ok (n + 1) else .panic

/-- `val + 1` on an `i64`. -/
def succI64 (z : Int) : Res Int := if z + 1 < 2 ^ 63 then .ok (z + 1) else .panic

/-- The state of the loop: `max_value`, `min_value` and `variant_discrs`. -/
structure DiscrSt where
  maxValue : Nat
  minValue : Int
  discrs : List MLit

/-- The discriminant of one variant: enums.rs:83-103. The placeholder type is `u8`. -/
def nextDiscr (signed : Bool) (discrs : List MLit) : Option MLit → Res MLit
  | some lit => .ok lit
  | none =>
    match discrs.getLast? with
    | none => .ok (if signed then .int 0 .decimal .uint8 else .uint 0 .decimal .uint8)
    | some (.uint v _ _) => (succU64 v).bind fun v => .ok (.uint v .decimal .uint8)
    | some (.int v _ _) => (succI64 v).bind fun v => .ok (.int v .decimal .uint8)
    | some _ => .err

/-- One round of the loop: enums.rs:82-118. -/
def discrStep (signed : Bool) (st : DiscrSt) (d : Option MLit) : Res DiscrSt :=
  (nextDiscr signed st.discrs d).bind fun lit =>
    match lit with
    | .uint v _ _ =>
      .ok { st with maxValue := max st.maxValue v, discrs := st.discrs ++ [lit] }
    | .int v _ _ =>
      if v ≥ 0 then .ok { st with maxValue := max st.maxValue v.toNat, discrs := st.discrs ++ [lit] }
      else .ok { st with minValue := min st.minValue v, discrs := st.discrs ++ [lit] }
    | _ => .panic

/-- The loop. -/
def discrLoop (signed : Bool) : DiscrSt → List (Option MLit) → Res DiscrSt
  | st, [] => .ok st
  | st, d :: ds => (discrStep signed st d).bind fun st => discrLoop signed st ds

/-- The width chosen when the metadata has no discriminant type: enums.rs:123-135. -/
def chooseType (minValue : Int) (maxValue : Nat) : Res MTy :=
  if minValue ≥ -128 ∧ maxValue ≤ 127 then .ok .int8
  else if minValue ≥ -32768 ∧ maxValue ≤ 32767 then .ok .int16
  else if minValue ≥ -2147483648 ∧ maxValue ≤ 2147483647 then .ok .int32
  else if maxValue ≤ 9223372036854775807 then .ok .int64
  else .err

/-- enums.rs:137-144. -/
def setType (t : MTy) : MLit → MLit
  | .uint v r _ => .uint v r t
  | .int v r _ => .int v r t
  | l => l

/-- `determine_discriminants`: enums.rs:59-150. -/
def determineDiscriminants (discrType : Option MTy) (discrs : List (Option MLit)) :
    Res (MTy × List MLit) :=
  match signedType discrType with
  | none => .err
  | some signed =>
    (discrLoop signed { maxValue := 0, minValue := 0, discrs := [] } discrs).bind fun st =>
      (match discrType with
        | some t => Res.ok t
        | none => chooseType st.minValue st.maxValue).bind fun t =>
          .ok (t, st.discrs.map (setType t))

/-- `v as u64` for an `i64`. -/
def asU64 (z : Int) : Nat := (z % 2 ^ 64).toNat

/-- `next as i64` for a `u64`. -/
def asI64 (n : Nat) : Int := if n < 2 ^ 63 then n else (n : Int) - 2 ^ 64

/-- `Enum::variant_discr_iter`: interface/enum_.rs:238-258. `new_uint` and `new_int` make literals of
types `u64` and `i64`: uniffi_meta/src/lib.rs:333-341. -/
def variantDiscrs : Nat → List (Option MLit) → Res (List MLit)
  | _, [] => .ok []
  | next, d :: ds =>
    (match d with
      | none => Res.ok (next,
          if asI64 next < 0 then MLit.int (asI64 next) .decimal .int64
          else MLit.uint next .decimal .uint64)
      | some (.uint v _ _) => .ok (v, .uint v .decimal .uint64)
      | some (.int v _ _) => .ok (asU64 v, .int v .decimal .int64)
      | some _ => .err).bind fun p =>
        (variantDiscrs ((p.1 + 1) % 2 ^ 64) ds).bind fun r => .ok (p.2 :: r)

end Verif.Gen
