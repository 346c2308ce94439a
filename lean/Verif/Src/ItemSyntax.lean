import Verif.Src.Cfg
/-
Items of Rust source files as uniffi_parse_rs gets them from `syn`. `A` is the type of attributes: the code sees
`Meta`, the specification of conditional compilation uses `Attr`.
-/
namespace Verif.Src
open Verif.Meta

/-- `FnArg`. A receiver has the type that it stands for: `&self` has `&Self`. The pattern of an argument is `none`
if it is not just a name. -/
inductive SArg where
  | receiver (ty : Ty)
  | typed (pat : Option Ident) (ty : Ty)

/-- A function, also in an `impl` or a `trait`. -/
structure SFn (A : Type) where
  attrs : List A
  isAsync : Bool
  ident : Ident
  inputs : List SArg
  output : Option Ty

structure SField (A : Type) where
  attrs : List A
  ident : Option Ident
  ty : Ty

/-- The value of a variant: a literal, a literal with `-`, or another expression. -/
inductive SDiscr where
  | int (n : Nat)
  | neg (n : Nat)
  | other
  deriving DecidableEq

structure SVariant (A : Type) where
  attrs : List A
  ident : Ident
  discr : Option SDiscr
  fields : List (SField A)

/-- What is in the parentheses of a macro that defines an item: `custom_type!(Url, String)`,
`use_remote_type!(a::B)`, or something else. -/
inductive SBody where
  | custom (docs : List Meta) (ident : Ident) (builtin : Ty)
  | path (p : Path)
  | other

/-- `syn::Item`. `id` stands for the place of the item in the sources. Modules in other files are included where
they are declared; a module whose file is missing is left out. A `use` has the items of `parse_use`,
use_.rs:25-85. `generics` and bodies are left out. `other` are items that the code ignores. -/
inductive SItem (A : Type) where
  | fn (id : Nat) (vis : Vis) (f : SFn A)
  | struct (id : Nat) (attrs : List A) (vis : Vis) (ident : Ident) (fields : List (SField A))
  | enum (id : Nat) (attrs : List A) (vis : Vis) (ident : Ident) (variants : List (SVariant A))
  | trait (id : Nat) (attrs : List A) (vis : Vis) (ident : Ident) (fns : List (SFn A))
  | impl (id : Nat) (attrs : List A) (trait : Option (Path × List Ty)) (self : Ty) (fns : List (SFn A))
  | mod (id : Nat) (attrs : List A) (vis : Vis) (ident : Ident) (items : List (SItem A))
  | use (attrs : List A) (items : List Item)
  | type (id : Nat) (attrs : List A) (vis : Vis) (ident : Ident) (params : List (Ident × Option Ty)) (target : Ty)
  | macro (id : Nat) (attrs : List A) (path : Path) (body : SBody)
  | other (attrs : List A)

end Verif.Src
