import Verif.Meta.Spec
/-
C types and signatures: what two sides of a C call have to agree on.
-/
namespace Verif.Abi
open Verif.Meta

/-- A C type. A pointer carries what it points to, `none` for bytes or nothing in particular; a
function pointer carries the signature. -/
inductive CTy where
  | int (bits : Nat) (signed : Bool)
  | float | double
  | ptr (pointee : Option CTy)
  | fn (params : List CTy) (ret : Option CTy)
  | struct (fields : List CTy)

/-- The signature of a C function; a missing return type is `void`. -/
structure CSig where
  params : List CTy
  ret : Option CTy

/-! Types as a language without unsigned integers sees them. -/

mutual
  /-- The type with the sign of integers forgotten. -/
  def CTy.noSign : CTy → CTy
    | .int b _ => .int b true
    | .float => .float
    | .double => .double
    | .ptr t => .ptr (CTy.noSignOpt t)
    | .fn ps r => .fn (CTy.noSigns ps) (CTy.noSignOpt r)
    | .struct fs => .struct (CTy.noSigns fs)
  /-- A list of types. -/
  def CTy.noSigns : List CTy → List CTy
    | [] => []
    | t :: ts => t.noSign :: CTy.noSigns ts
  /-- A type that may be missing. -/
  def CTy.noSignOpt : Option CTy → Option CTy
    | none => none
    | some t => some t.noSign
end

/-! Types as a language with plain pointers sees them. -/

mutual
  /-- The type with what data pointers point to forgotten. -/
  def CTy.noPointee : CTy → CTy
    | .int b s => .int b s
    | .float => .float
    | .double => .double
    | .ptr _ => .ptr none
    | .fn ps r => .fn (CTy.noPointees ps) (CTy.noPointeeOpt r)
    | .struct fs => .struct (CTy.noPointees fs)
  /-- A list of types. -/
  def CTy.noPointees : List CTy → List CTy
    | [] => []
    | t :: ts => t.noPointee :: CTy.noPointees ts
  /-- A type that may be missing. -/
  def CTy.noPointeeOpt : Option CTy → Option CTy
    | none => none
    | some t => some t.noPointee
end

/-- A signature, each type changed by `w`. -/
def CSig.map (w : CTy → CTy) (s : CSig) : CSig :=
  { params := s.params.map w, ret := s.ret.map w }

end Verif.Abi
