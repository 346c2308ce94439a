import Verif.Gen.TraitOps

/-!
# What users may expect of the operators of exported types

`Verif.Gen.TraitOps` models what is generated.  This file says what Rust promises of the traits and for
which types the languages are expected to follow Rust.
-/

namespace Verif.Gen.TraitOpsSpec

open Verif.Gen.TraitOps

/-- What Rust asks of implementations of the traits: `!=` is the negation of `==`, equal values have one
hash, swapping the operands of `cmp` swaps the answer, and `cmp` calls equal what `==` calls equal. -/
structure Lawful {V : Type} (i : Impl V) : Prop where
  ne : ∀ x y, i.ne x y = !i.eq x y
  hash : ∀ x y, i.eq x y = true → i.hash x = i.hash y
  swap : ∀ x y, i.cmp y x = (i.cmp x y).swap
  cmpEq : ∀ x y, i.cmp x y = .eq ↔ i.eq x y = true

/-- What a comparison means in Rust: `a < b`, `a <= b`, `a > b` and `a >= b` in terms of `a.cmp(&b)`. -/
def rustRel : Rel → Ordering → Bool
  | .lt, .lt => true
  | .le, .lt | .le, .eq => true
  | .gt, .gt => true
  | .ge, .gt | .ge, .eq => true
  | _, _ => false

/-- The language compares fields sensibly: fields that compare equal are one value for Rust. -/
def Sensible {V : Type} (n : Native V) : Prop :=
  ∀ x y, n.fieldsEq x y = true → x = y

/-- Two values of one program: an object is one value, and whether a variant has fields is a matter of
the variant. -/
structure Together {V : Type} (a b : Val V) : Prop where
  one : a.id = b.id → a = b
  variants : a.variant = b.variant → a.hasFields = b.hasFields

/-- The types whose exported `Eq`, `Ord` and `Hash` a language uses.  Left out are types whose templates
do not have the trait methods. -/
def follows : Lang → Kind → Bool
  | .python, .object | .python, .errorObject | .python, .record _ | .python, .dataEnum => true
  | .python, _ => false
  | .kotlin, .record f => f
  | .kotlin, .flatEnum | .kotlin, .flatError => false
  | .kotlin, _ => true
  | .kotlinJni, .record f => f
  | .kotlinJni, .flatEnum | .kotlinJni, .flatError => false
  | .kotlinJni, _ => true
  | .swift, _ => true
  | .ruby, .object | .ruby, .errorObject | .ruby, .record _ | .ruby, .dataEnum => true
  | .ruby, _ => false

/-- Types generated as an enum of the language, or as an error, that has text of its own. -/
def followsText : Lang → Kind → Bool
  | .kotlin, .flatEnum => true
  | .swift, .flatError | .swift, .dataError => false
  | l, k => follows l k

end Verif.Gen.TraitOpsSpec
