import Verif.Src.Derive
import Verif.Src.EmitSpec
/-
Which attributes the derive macros accept and what they say. `uniffiArgs` are the arguments of all `#[uniffi(…)]`
together, `textArg` is the text of `name = "…"`, `fieldDefault` the default of a field and `docText` the
documentation, as in the specification of what is read from sources.
-/
namespace Verif.Derive
open Verif.Meta Verif.Src

/-- Every `#[key…]` has a list of attributes in parentheses. -/
def Lists (key : String) (metas : List Meta) : Prop :=
  ∀ m ∈ metas, m.pathOf.isIdent key = true → ∃ p as, m = .list p (some as)

/-- `key` is there at most once. -/
def Once (key : String) (as : List Meta) : Prop := (as.filter fun m => m.pathOf.isIdent key).length ≤ 1

/-- `key = "text"` -/
def IsText (key : String) (m : Meta) : Prop := ∃ p s, m = .nameValue p (.str s) ∧ p.isIdent key = true

/-- `key` -/
def IsWord (key : String) (m : Meta) : Prop := ∃ p, m = .path p ∧ p.isIdent key = true

/-- `default` or `default = value` -/
def IsDefault (m : Meta) : Prop :=
  IsWord "default" m ∨ ∃ p v, m = .nameValue p v ∧ v ≠ .default ∧ p.isIdent "default" = true

/-- Documentation is text. `#[doc(hidden)]` is no documentation. -/
def DocsText (metas : List Meta) : Prop :=
  ∀ m ∈ metas, ∀ p v, m = .nameValue p v → p.isIdent "doc" = true → ∃ s, v = .str s

/-- At most `name = "…"`. -/
def NamesOnly (metas : List Meta) : Prop :=
  Lists "uniffi" metas ∧ (∀ a ∈ uniffiArgs metas, IsText "name" a) ∧ Once "name" (uniffiArgs metas)

/-- At most `name = "…"` and a default. -/
def FieldArgsOk (metas : List Meta) : Prop :=
  Lists "uniffi" metas ∧ (∀ a ∈ uniffiArgs metas, IsText "name" a ∨ IsDefault a) ∧
  Once "name" (uniffiArgs metas) ∧ Once "default" (uniffiArgs metas)

/-- At most `name = "…"`, `flat_error` and `with_try_read`. -/
def EnumArgsOk (metas : List Meta) : Prop :=
  Lists "uniffi" metas ∧
  (∀ a ∈ uniffiArgs metas, IsText "name" a ∨ IsWord "flat_error" a ∨ IsWord "with_try_read" a) ∧
  Once "name" (uniffiArgs metas) ∧ Once "flat_error" (uniffiArgs metas) ∧ Once "with_try_read" (uniffiArgs metas)

/-- `repr` has words only. -/
def ReprOk (metas : List Meta) : Prop :=
  Lists "repr" metas ∧ ∀ a ∈ argsIn (fun m => m.pathOf.isIdent "repr") metas, ∃ p, a = .path p

/-- The integer type that the last word of `repr` names. -/
def ReprSays (metas : List Meta) (r : Option String) : Prop :=
  match (argsIn (fun m => m.pathOf.isIdent "repr") metas).getLast? with
  | none => r = none
  | some m => (∃ w ∈ ["u8", "u16", "u32", "u64", "usize", "i8", "i16", "i32", "i64", "isize"],
        m.pathOf.isIdent w = true ∧ r = some w) ∨
      ((∀ w ∈ ["u8", "u16", "u32", "u64", "usize", "i8", "i16", "i32", "i64", "isize"], m.pathOf.isIdent w = false) ∧ r = none)

/-- The integer types that can cross. -/
def intTypes : List (String × RTy) :=
  [("u8", .u8), ("i8", .i8), ("u16", .u16), ("i16", .i16), ("u32", .u32), ("i32", .i32), ("u64", .u64), ("i64", .i64)]

/-- Defaults that can be recorded: no suffixes, no characters or bytes. -/
inductive Recordable : DefSrc → Prop
  | str (s) : Recordable (.str s)
  | int (z) : Recordable (.int z false)
  | float (d) : Recordable (.float d false)
  | bool (b) : Recordable (.bool b)
  | none : Recordable .optNone
  | some {d} : Recordable d → Recordable (.optSome d)
  | emptySeq : Recordable .emptySeq
  | default : Recordable .default

/-- A field that a derive macro accepts. -/
structure FieldOk (f : DField) : Prop where
  args : FieldArgsOk f.metas
  docs : DocsText f.metas
  default : ∀ d, fieldDefault (uniffiArgs f.metas) = some d → Recordable d

/-- What is recorded about a field. -/
structure FieldSays (f : DField) (s : FieldSrc) : Prop where
  /-- The name in the attributes, or else the one of the field; a field of a tuple has no name of its own. -/
  name : match f.ident with
    | some i => NameIs (textArg "name" (uniffiArgs f.metas)) i.name s.name s.origName
    | none => s.name = (textArg "name" (uniffiArgs f.metas)).getD "" ∧ s.origName = none
  ty : s.ty = f.ty
  default : s.default = fieldDefault (uniffiArgs f.metas)
  docstring : s.docstring = (docText f.metas).getD ""

/-- A variant that a derive macro accepts. -/
structure VariantOk (v : DVariant) : Prop where
  args : NamesOnly v.metas
  docs : DocsText v.metas
  discr : v.discr ≠ some .other
  few : v.fields.length ≤ 255
  fields : ∀ f ∈ v.fields, FieldOk f

/-- What is recorded about a variant. -/
structure VariantSays (v : DVariant) (s : VariantSrc) : Prop where
  name : NameIs (textArg "name" (uniffiArgs v.metas)) v.ident.name s.name s.origName
  discr : match v.discr with
    | none => s.discr = none
    | some (.int n) => s.discr = some (n : Int)
    | some (.neg n) => s.discr = some (-n : Int)
    | some .other => False
  fields : Each FieldSays v.fields s.fields
  docstring : s.docstring = (docText v.metas).getD ""

/-- What is recorded about a variant of a flat error: its name and documentation. -/
structure FlatSays (v : DVariant) (s : VariantSrc) : Prop where
  name : NameIs (textArg "name" (uniffiArgs v.metas)) v.ident.name s.name s.origName
  discr : s.discr = none
  fields : s.fields = []
  docstring : s.docstring = (docText v.metas).getD ""

end Verif.Derive
