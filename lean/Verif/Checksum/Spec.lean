import Verif.Checksum.Model
/-
Which values a type has, and what of a value counts for the interface. Nothing here refers to bytes.
-/
namespace Verif.Checksum

variable {ν : Type}

mutual
  /-- `v` is a value of type `t`. Every length fits 64 bits. -/
  def Typed (env : ν → Decl ν) : Ty ν → V → Prop
    | .bool, .bool _ => True
    | .u64, .u64 n => n < 2 ^ 64
    | .i64, .i64 z => -2 ^ 63 ≤ z ∧ z < 2 ^ 63
    | .str, .str _ => True
    | .box t, .box v => Typed env t v
    | .seq t, .seq vs => vs.length < 2 ^ 64 ∧ TypedSeq env t vs
    | .map k v, .map es => es.length < 2 ^ 64 ∧ TypedEntries env k v es
    | .option _, .optNone => True
    | .option t, .optSome v => Typed env t v
    | .named n, .struct vs =>
      match env n with
      | .struct fs => TypedFields env fs vs
      | .enum _ => False
    | .named n, .variant i vs =>
      match env n with
      | .struct _ => False
      | .enum vars =>
        match vars[i]? with
        | some var => TypedFields env var.fields.hashed vs
        | none => False
    | _, _ => False
  /-- A list of values of type `t`. -/
  def TypedSeq (env : ν → Decl ν) (t : Ty ν) : List V → Prop
    | [] => True
    | v :: vs => Typed env t v ∧ TypedSeq env t vs
  /-- A list of entries. -/
  def TypedEntries (env : ν → Decl ν) (k v : Ty ν) : List V → Prop
    | [] => True
    | .pair a b :: es => Typed env k a ∧ Typed env v b ∧ TypedEntries env k v es
    | _ :: _ => False
  /-- A value for each field; nothing is asked of ignored fields. -/
  def TypedFields (env : ν → Decl ν) : List (Fld ν) → List V → Prop
    | [], [] => True
    | f :: fs, v :: vs => (f.ignore = false → Typed env f.ty v) ∧ TypedFields env fs vs
    | _, _ => False
end

mutual
  /-- The value with the content of every `#[checksum_ignore]` field blanked out. -/
  def visible (env : ν → Decl ν) : Ty ν → V → V
    | .box t, .box v => .box (visible env t v)
    | .seq t, .seq vs => .seq (visibleSeq env t vs)
    | .map k v, .map es => .map (visibleEntries env k v es)
    | .option t, .optSome v => .optSome (visible env t v)
    | .named n, .struct vs =>
      match env n with
      | .struct fs => .struct (visibleFields env fs vs)
      | .enum _ => .struct vs
    | .named n, .variant i vs =>
      match env n with
      | .struct _ => .variant i vs
      | .enum vars =>
        match vars[i]? with
        | some var => .variant i (visibleFields env var.fields.hashed vs)
        | none => .variant i vs
    | _, v => v
  def visibleSeq (env : ν → Decl ν) (t : Ty ν) : List V → List V
    | [] => []
    | v :: vs => visible env t v :: visibleSeq env t vs
  def visibleEntries (env : ν → Decl ν) (k v : Ty ν) : List V → List V
    | [] => []
    | .pair a b :: es => .pair (visible env k a) (visible env v b) :: visibleEntries env k v es
    | e :: es => e :: visibleEntries env k v es
  def visibleFields (env : ν → Decl ν) : List (Fld ν) → List V → List V
    | f :: fs, v :: vs =>
      (if f.ignore then .struct [] else visible env f.ty v) :: visibleFields env fs vs
    | _, vs => vs
end

/-- The variants of every enum have different discriminants, which fit 64 bits. The Rust compiler
rejects an enum with equal discriminants (E0081). -/
def Distinct (env : ν → Decl ν) : Prop :=
  ∀ n vs, env n = .enum vs → (discrs vs).Nodup ∧ ∀ d ∈ discrs vs, d < 2 ^ 64

end Verif.Checksum
