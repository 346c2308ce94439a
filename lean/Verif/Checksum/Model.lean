import Verif.Wire.Rust
/-
The `Checksum` trait and its derive macro: uniffi_meta/src/lib.rs:34-116 and
uniffi_internal_macros/src/checksum.rs. `enc` is the sequence of bytes fed to the hasher.
-/
namespace Verif.Checksum
open Verif
open Verif.Wire (utf8)

variable {ν : Type}

/-- A type that implements `Checksum`. `ν` names the types that derive it. -/
inductive Ty (ν : Type) where
  | bool | u64 | i64 | str
  | box (t : Ty ν)
  | seq (t : Ty ν)
  | map (k v : Ty ν)
  | option (t : Ty ν)
  | named (n : ν)
  deriving DecidableEq, Repr

/-- A field: whether it carries `#[checksum_ignore]`, and its type. -/
structure Fld (ν : Type) where
  ignore : Bool
  ty : Ty ν
  deriving DecidableEq, Repr

/-- The fields of a variant: `syn::Fields`. -/
inductive Flds (ν : Type) where
  | unit
  | unnamed (fs : List (Fld ν))
  | named (fs : List (Fld ν))
  deriving DecidableEq, Repr

/-- A variant with its explicit discriminant. -/
structure Var (ν : Type) where
  discr : Option Nat
  fields : Flds ν
  deriving DecidableEq, Repr

/-- A type with `#[derive(Checksum)]`. -/
inductive Decl (ν : Type) where
  | struct (fs : List (Fld ν))
  | enum (vs : List (Var ν))
  deriving DecidableEq, Repr

/-- A value. A `BTreeMap` is the list of its entries in the order of its iterator. -/
inductive V where
  | bool (b : Bool)
  | u64 (n : Nat)
  | i64 (z : Int)
  | str (s : String)
  | box (v : V)
  | seq (vs : List V)
  | pair (k v : V)
  | map (es : List V)
  | optNone
  | optSome (v : V)
  | struct (vs : List V)
  | variant (i : Nat) (vs : List V)

/-- The running `next_discriminant`: checksum.rs:38-55. -/
def discrsFrom (next : Nat) : List (Var ν) → List Nat
  | [] => []
  | v :: vs =>
    let d := match v.discr with
      | some d => d
      | none => next
    d :: discrsFrom (d + 1) vs

/-- The discriminant written for each variant. -/
def discrs (vs : List (Var ν)) : List Nat := discrsFrom 0 vs

/-- The fields of a variant that are fed to the hasher: all fields of a tuple variant
(checksum.rs:57-73), those without `#[checksum_ignore]` of a struct variant (checksum.rs:74-91). -/
def Flds.hashed : Flds ν → List (Fld ν)
  | .unit => []
  | .unnamed fs => fs.map fun f => { f with ignore := false }
  | .named fs => fs

/-- The case of checksum.rs:28-36: a single variant, which is a unit variant. -/
def isTrivial (vs : List (Var ν)) : Bool :=
  vs.length == 1 && vs.all fun v => match v.fields with
    | .unit => true
    | _ => false

/-- `to_le_bytes` of a `u64`. -/
def le64 (n : Nat) : Bytes := leBytes 8 n

mutual
  /-- `Checksum::checksum`. Values that are not of the type feed nothing. -/
  def enc (env : ν → Decl ν) : Ty ν → V → Bytes
    -- uniffi_meta/src/lib.rs:38-42
    | .bool, .bool b => [if b then 1 else 0]
    -- lib.rs:44-48
    | .u64, .u64 n => le64 n
    -- lib.rs:50-54
    | .i64, .i64 z => le64 (z % 2 ^ 64).toNat
    -- lib.rs:98-116
    | .str, .str s => utf8 s ++ [0xff]
    -- lib.rs:56-60
    | .box t, .box v => enc env t v
    -- lib.rs:62-75
    | .seq t, .seq vs => le64 vs.length ++ encSeq env t vs
    -- lib.rs:77-85
    | .map k v, .map es => le64 es.length ++ encEntries env k v es
    -- lib.rs:87-96
    | .option _, .optNone => le64 0
    | .option t, .optSome v => le64 1 ++ enc env t v
    -- checksum.rs:101-117
    | .named n, .struct vs =>
      match env n with
      | .struct fs => encFields env fs vs
      | .enum _ => []
    -- checksum.rs:28-99
    | .named n, .variant i vs =>
      match env n with
      | .struct _ => []
      | .enum vars =>
        if isTrivial vars then []
        else
          match vars[i]?, (discrs vars)[i]? with
          | some var, some d => le64 d ++ encFields env var.fields.hashed vs
          | _, _ => []
    | _, _ => []
  /-- The items of a slice. -/
  def encSeq (env : ν → Decl ν) (t : Ty ν) : List V → Bytes
    | [] => []
    | v :: vs => enc env t v ++ encSeq env t vs
  /-- The entries of a map. -/
  def encEntries (env : ν → Decl ν) (k v : Ty ν) : List V → Bytes
    | [] => []
    | .pair a b :: es => enc env k a ++ (enc env v b ++ encEntries env k v es)
    | _ :: es => encEntries env k v es
  /-- The fields that are not ignored, in order. -/
  def encFields (env : ν → Decl ν) : List (Fld ν) → List V → Bytes
    | f :: fs, v :: vs => (if f.ignore then [] else enc env f.ty v) ++ encFields env fs vs
    | _, _ => []
end

/-- `checksum`: lib.rs:562-570; `hash` is SipHash-1-3 with a zero key. -/
def checksum16 (hash : Bytes → UInt64) (env : ν → Decl ν) (t : Ty ν) (v : V) : UInt16 :=
  (hash (enc env t v) &&& 0xFFFF).toUInt16

end Verif.Checksum
