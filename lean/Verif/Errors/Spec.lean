import Verif.Errors.Format
/-
What C69 says, in terms of what the user wrote.
-/
namespace Verif.ErrorFormat
open Verif Verif.Wire

/-- What the caller in the other language should hold for the Rust error `variant i fs`: the same
variant; with the `to_string()` text if the Rust side was told to send only that, with the fields
otherwise. -/
def Delivered (L : Lang) (msg : Nat → List Val → String) : Derive → Nat → List Val → Val
  | .flatError _, i, fs => .variant i [L.leaf (.str (msg i fs))]
  | _, i, fs => .variant i (reprAll L fs)

/-- No variant has fields. -/
def Decl.Fieldless (d : Decl) : Prop := ∀ ts ∈ d.variants, ts = []

/-- The types of which only the message is sent: `#[uniffi(flat_error)]`, an `[Error] enum` of the UDL
file, and an enum without fields of the UDL file that the UDL file throws. -/
def Decl.SendsMessage (d : Decl) (c : Crate) : Prop :=
  (∃ r, d.source = .macros (.flatError r)) ∨ d.source = .udl .errorEnum ∨
    (d.source = .udl .enum ∧ d.Fieldless ∧ d.name ∈ c.udlThrows)

/-- Something called `name` is an error in this crate: a function, method or constructor throws it,
or it is declared as an error. -/
def Crate.HasError (c : Crate) (name : String) : Prop :=
  name ∈ c.macroThrows ∨ name ∈ c.udlThrows ∨
    ∃ d ∈ c.decls, d.name = name ∧ d.source ≠ .macros .enum ∧ d.source ≠ .udl .enum

/-- Rust treats the type as an ordinary enum: it is one by derive, or it is one in the UDL file and
nothing in the UDL file throws it. -/
def Decl.OrdinaryIn (d : Decl) (c : Crate) : Prop :=
  d.source = .macros .enum ∨ (d.source = .udl .enum ∧ d.name ∉ c.udlThrows)

/-- The declarations for which the bindings expect something else than Rust sends: an enum without
fields which Rust treats as an ordinary enum, while its name counts as an error in the bindings. -/
def Misread (l : Language) (p : Program) (c : Crate) (d : Decl) : Prop :=
  d.Fieldless ∧ d.OrdinaryIn c ∧
    (c.HasError d.name ∨ (l ≠ .python ∧ ∃ c' ∈ p, c'.HasError d.name))

/-- The wire operations of a language; `lossy` is how its runtime decodes invalid UTF-8. -/
def Language.lang (lossy : Bytes → String) : Language → Lang
  | .python => Python.lang
  | .kotlin => Kotlin.lang lossy
  | .swift => Swift.lang lossy
  | .ruby => Ruby.lang

end Verif.ErrorFormat
