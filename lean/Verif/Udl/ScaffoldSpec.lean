import Verif.Udl.ScaffoldBind
/-
What it means that the functions the bindings look up are exported.
-/
namespace Verif.Udl.File
open Verif Verif.Meta Verif.Udl Verif.Abi

/-- Two signatures are the same but for what `w` leaves out of types and `wr` changes in what is
returned. -/
structure Like (w wr : CTy → CTy) (a b : CSig) : Prop where
  params : a.params.map w = b.params.map w
  ret : a.ret.map w = b.ret.map wr

/-- What is looked up is what is exported: the same symbol, the same signature, the same table, the
same checksum. -/
inductive Fits (w wr : CTy → CTy) : Entry → Entry → Prop
  | call {s a b} : Like w wr a b → Fits w wr (.call s a) (.call s b)
  | init {s t u} : t.map w = u.map w → Fits w wr (.init s t) (.init s u)
  | checksum {s v} : Fits w wr (.checksum s v) (.checksum s v)

/-- An argument is a reference to bytes. -/
def BorrowedBytes (a : UArg) : Prop := a.passBy ≠ .value ∧ a.ty = .bytes

/-- The callable an item is. -/
inductive CallableOf : UItem → UFn → Prop
  | func {f} : CallableOf (.func f) f
  | method {n f} : CallableOf (.method n f) f
  | constructor {n f} : CallableOf (.constructor n f) f
  | traitMethod {n i f} : CallableOf (.traitMethod n i f) f

/-- A type the generated Rust code can throw. -/
inductive Throwable : MTy → Prop
  | enum {m n} : Throwable (.enum m n)
  | object {m n i} : Throwable (.object m n i)
  | customEnum {m n m' n'} : Throwable (.custom m n (.enum m' n'))
  | customObject {m n m' n' i} : Throwable (.custom m n (.object m' n' i))

/-- The name of a type is used as an error in the file. -/
def UsedAsError (items : List UItem) (n : String) : Prop :=
  (∃ i ∈ items, ∃ f e, CallableOf i f ∧ f.throws = some e ∧
    ((∃ m, e = .enum m n) ∨ (∃ m k, e = .object m n k) ∨ (∃ m b, e = .custom m n b))) ∨
  ∃ m fl r vs ne d, .enum m n (.error fl) r vs ne d ∈ items

/-- The built-in traits whose methods are never generated: those of trait interfaces, those of enums
used as errors, and `Display` of an enum that has no `Debug`. -/
inductive Unserved (items : List UItem) : UItem → UTrait → Prop
  | traitInterface {m n r k d t} : Unserved items (.object m n r (.trait k) d) t
  | error {m n s r vs ne d t} : UsedAsError items n → Unserved items (.enum m n s r vs ne d) t
  | display {m n s r vs ne d f} : (∀ g, .uniffiTrait n (.debug g) ∉ items) →
    Unserved items (.enum m n s r vs ne d) (.display f)

end Verif.Udl.File
