import Verif.Bytes
/-
Types and values that cross the FFI, and the typing relation between them.

The types are those of `uniffi_meta::Type` (uniffi_meta/src/types.rs:84-147). User-defined
types are looked up by name in an environment, so recursive types are included.
-/
namespace Verif.Wire
open Verif

/-- The integer primitives, uniffi_core/src/ffi_converter_impls.rs:70-77. -/
inductive IntTy where
  | u8 | i8 | u16 | i16 | u32 | i32 | u64 | i64
  deriving DecidableEq, Repr

/-- `size_of::<T>()` for the integer primitives. -/
def IntTy.width : IntTy → Nat
  | .u8 | .i8 => 1
  | .u16 | .i16 => 2
  | .u32 | .i32 => 4
  | .u64 | .i64 => 8

/-- Signedness of the integer primitives. -/
def IntTy.signed : IntTy → Bool
  | .i8 | .i16 | .i32 | .i64 => true
  | _ => false

/-- The numbers an integer primitive can hold. -/
def IntTy.InRange (t : IntTy) (z : Int) : Prop :=
  if t.signed then -(2 ^ (8 * t.width - 1) : Int) ≤ z ∧ z < (2 ^ (8 * t.width - 1) : Int)
  else 0 ≤ z ∧ z < (2 ^ (8 * t.width) : Int)

instance (t : IntTy) (z : Int) : Decidable (t.InRange z) := by
  unfold IntTy.InRange; exact inferInstance

/-- Types, uniffi_meta/src/types.rs:84-147. Objects, trait objects and callback interfaces cross
as a 64-bit handle. `bytes` is `seq u8`, as in the Rust code. `named` is a record, enum or custom
type, resolved through the environment. -/
inductive Ty where
  | int (t : IntTy)
  | f32
  | f64
  | bool
  | string
  | timestamp
  | duration
  | handle
  | option (t : Ty)
  | seq (t : Ty)
  | map (k v : Ty)
  | set (t : Ty)
  | box (t : Ty)
  | named (name : String)
  deriving DecidableEq, Repr

/-- Values. Floats are their bit patterns (`to_bits`), a timestamp is the signed number of
nanoseconds since the epoch, a duration is seconds and sub-second nanoseconds as in
`std::time::Duration`. A map or set is listed in iteration order. `custom id low` is the value
number `id` of a user's custom type together with the builtin value `low` its `lower` gives. -/
inductive Val where
  | int (z : Int)
  | float (bits : Nat)
  | bool (b : Bool)
  | str (s : String)
  | time (ns : Int)
  | dur (secs nanos : Nat)
  | handle (h : Nat)
  | none
  | some (v : Val)
  | seq (vs : List Val)
  | map (es : List (Val × Val))
  | set (vs : List Val)
  | box (v : Val)
  | record (fs : List Val)
  | variant (idx : Nat) (fs : List Val)
  | custom (id : Nat) (low : Val)
  deriving Repr

/-- A user-defined type. Custom types carry the user's `lower` and `try_lift` functions on an
arbitrary (numbered) set of custom values; uniffi_macros/src/custom.rs. -/
inductive Def where
  | record (fields : List Ty)
  | enum (variants : List (List Ty))
  | custom (builtin : Ty) (lower : Nat → Val) (lift : Val → Option Nat)

/-- The user-defined types of an interface. -/
abbrev Env := String → Option Def

/-! ### Decidable equality of values -/

mutual
def Val.beq : Val → Val → Bool
  | .int a, .int b => a == b
  | .float a, .float b => a == b
  | .bool a, .bool b => a == b
  | .str a, .str b => a == b
  | .time a, .time b => a == b
  | .dur a b, .dur c d => a == c && b == d
  | .handle a, .handle b => a == b
  | .none, .none => true
  | .some a, .some b => Val.beq a b
  | .seq a, .seq b => Val.beqList a b
  | .map a, .map b => Val.beqPairs a b
  | .set a, .set b => Val.beqList a b
  | .box a, .box b => Val.beq a b
  | .record a, .record b => Val.beqList a b
  | .variant i a, .variant j b => i == j && Val.beqList a b
  | .custom i a, .custom j b => i == j && Val.beq a b
  | _, _ => false
def Val.beqList : List Val → List Val → Bool
  | [], [] => true
  | a :: as, b :: bs => Val.beq a b && Val.beqList as bs
  | _, _ => false
def Val.beqPairs : List (Val × Val) → List (Val × Val) → Bool
  | [], [] => true
  | (a, a') :: as, (b, b') :: bs => Val.beq a b && Val.beq a' b' && Val.beqPairs as bs
  | _, _ => false
end

mutual
theorem Val.beq_iff : ∀ (a b : Val), Val.beq a b = true ↔ a = b
  | .some a, b => by cases b <;> simp [Val.beq, Val.beq_iff a]
  | .seq a, b => by cases b <;> simp [Val.beq, Val.beqList_iff a]
  | .map a, b => by cases b <;> simp [Val.beq, Val.beqPairs_iff a]
  | .set a, b => by cases b <;> simp [Val.beq, Val.beqList_iff a]
  | .box a, b => by cases b <;> simp [Val.beq, Val.beq_iff a]
  | .record a, b => by cases b <;> simp [Val.beq, Val.beqList_iff a]
  | .variant i a, b => by cases b <;> simp [Val.beq, Val.beqList_iff a]
  | .custom i a, b => by cases b <;> simp [Val.beq, Val.beq_iff a]
  | .int _, b => by cases b <;> simp [Val.beq]
  | .float _, b => by cases b <;> simp [Val.beq]
  | .bool _, b => by cases b <;> simp [Val.beq]
  | .str _, b => by cases b <;> simp [Val.beq]
  | .time _, b => by cases b <;> simp [Val.beq]
  | .dur _ _, b => by cases b <;> simp [Val.beq]
  | .handle _, b => by cases b <;> simp [Val.beq]
  | .none, b => by cases b <;> simp [Val.beq]
theorem Val.beqList_iff : ∀ (a b : List Val), Val.beqList a b = true ↔ a = b
  | [], b => by cases b <;> simp [Val.beqList]
  | a :: as, b => by cases b <;> simp [Val.beqList, Val.beq_iff a, Val.beqList_iff as]
theorem Val.beqPairs_iff : ∀ (a b : List (Val × Val)), Val.beqPairs a b = true ↔ a = b
  | [], b => by cases b <;> simp [Val.beqPairs]
  | (a, a') :: as, b => by
    cases b with
    | nil => simp [Val.beqPairs]
    | cons p ps =>
      obtain ⟨b, b'⟩ := p
      simp [Val.beqPairs, Val.beq_iff a, Val.beq_iff a', Val.beqPairs_iff as]
end

instance : DecidableEq Val := fun a b =>
  decidable_of_iff (Val.beq a b = true) (Val.beq_iff a b)

/-! ### Typing -/

/-- Nanoseconds per second. -/
def nsPerSec : Nat := 1000000000

/-- Instants a `SystemTime` can hold: seconds in `i64`, nanoseconds below one second
(std's Unix representation). -/
def timeMin : Int := -(2 ^ 63) * 1000000000
/-- One past the last instant of a `SystemTime`. -/
def timeEnd : Int := 2 ^ 63 * 1000000000

mutual
/-- `HasTy env t v`: `v` is a value of type `t`. Maps and sets have no repeated keys. -/
def HasTy (env : Env) : Ty → Val → Prop
  | .int t, .int z => t.InRange z
  | .f32, .float b => b < 2 ^ 32
  | .f64, .float b => b < 2 ^ 64
  | .bool, .bool _ => True
  | .string, .str _ => True
  | .timestamp, .time ns => timeMin ≤ ns ∧ ns < timeEnd
  | .duration, .dur s n => s < 2 ^ 64 ∧ n < 1000000000
  | .handle, .handle h => h < 2 ^ 64
  | .option _, .none => True
  | .option t, .some v => HasTy env t v
  | .seq t, .seq vs => HasTyAll env t vs
  | .map k v, .map es => HasTyPairs env k v es ∧ (es.map Prod.fst).Nodup
  | .set t, .set vs => HasTyAll env t vs ∧ vs.Nodup
  | .box t, .box v => HasTy env t v
  | .named n, .record fs => ∃ ts, env n = some (.record ts) ∧ HasTyFields env ts fs
  | .named n, .variant i fs =>
      ∃ vs ts, env n = some (.enum vs) ∧ vs[i]? = some ts ∧ HasTyFields env ts fs
  | .named n, .custom i low =>
      ∃ t lo li, env n = some (.custom t lo li) ∧ lo i = low ∧ HasTy env t low
  | _, _ => False
def HasTyAll (env : Env) : Ty → List Val → Prop
  | _, [] => True
  | t, v :: vs => HasTy env t v ∧ HasTyAll env t vs
def HasTyPairs (env : Env) : Ty → Ty → List (Val × Val) → Prop
  | _, _, [] => True
  | t, u, (k, v) :: es => HasTy env t k ∧ HasTy env u v ∧ HasTyPairs env t u es
def HasTyFields (env : Env) : List Ty → List Val → Prop
  | [], [] => True
  | t :: ts, v :: vs => HasTy env t v ∧ HasTyFields env ts vs
  | _, _ => False
end

mutual
/-- Nesting depth of a value: the recursion depth a reader needs. -/
def Val.depth : Val → Nat
  | .some v => v.depth + 1
  | .seq vs => Val.depthList vs + 1
  | .map es => Val.depthPairs es + 1
  | .set vs => Val.depthList vs + 1
  | .box v => v.depth + 1
  | .record fs => Val.depthList fs + 1
  | .variant _ fs => Val.depthList fs + 1
  | .custom _ low => low.depth + 1
  | _ => 1
def Val.depthList : List Val → Nat
  | [] => 0
  | v :: vs => max v.depth (Val.depthList vs)
def Val.depthPairs : List (Val × Val) → Nat
  | [] => 0
  | (k, v) :: es => max (max k.depth v.depth) (Val.depthPairs es)
end

end Verif.Wire

namespace Verif.Wire

mutual
/-- `v.All p`: `p` holds of `v` and of every value nested inside it. -/
def Val.All (p : Val → Prop) : Val → Prop
  | .some v => p (.some v) ∧ v.All p
  | .seq vs => p (.seq vs) ∧ Val.AllList p vs
  | .map es => p (.map es) ∧ Val.AllPairs p es
  | .set vs => p (.set vs) ∧ Val.AllList p vs
  | .box v => p (.box v) ∧ v.All p
  | .record fs => p (.record fs) ∧ Val.AllList p fs
  | .variant i fs => p (.variant i fs) ∧ Val.AllList p fs
  | .custom i low => p (.custom i low) ∧ low.All p
  | v => p v
def Val.AllList (p : Val → Prop) : List Val → Prop
  | [] => True
  | v :: vs => v.All p ∧ Val.AllList p vs
def Val.AllPairs (p : Val → Prop) : List (Val × Val) → Prop
  | [] => True
  | (k, v) :: es => k.All p ∧ v.All p ∧ Val.AllPairs p es
end

end Verif.Wire
