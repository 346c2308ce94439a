import Verif.Src.EmitSpec
/-
How the macros see functions, fields and variants of a program when it is compiled.
-/
namespace Verif.Src
open Verif.Meta

/-- The type is not one of those that `Shown` leaves open. -/
def Settled (ir : Ir) (p : RPath) (ty : Ty) : Prop :=
  TraitsLocal ir p ty ∧ ParamsFresh ir p ty ∧ ∀ t, Means ir [] p ty t → t.noUdl = true

/-- The macros see the type of a field as `r`. -/
def TypeSeen (ir : Ir) (p : RPath) (ty : Ty) (r : RTy) : Prop := ∃ t, Means ir [] p ty t ∧ Crosses none t r

/-- The macros see an argument as `a`. -/
def ArgSeen (ir : Ir) (p : RPath) (self : Option RTy) (as : List Meta) : SArg → ArgSrc → Prop
  | .typed (some x) ty, a => a.name = x.name ∧ a.default = argDefault as x ∧
      ∃ t, Means ir [] p ty t ∧ ArgCrosses self t a.ty a.passBy
  | _, _ => False

/-- The macros see a result as `r`. -/
def RetSeen (ir : Ir) (p : RPath) (self : Option RTy) : Option Ty → RetSrc → Prop
  | none, r => r = .plain none
  | some ty, r => ∃ t, Means ir [] p ty t ∧ RetCrosses self t r

/-- The macros see the signature and the documentation of a function as `src`. -/
structure FnSeen (ir : Ir) (p : RPath) (selfArg selfRet : Option RTy) (metas as : List Meta) (f : SFn Meta)
    (inputs : List SArg) (src : FnSrc) : Prop where
  isAsync : src.isAsync = f.isAsync
  args : Each (ArgSeen ir p selfArg as) inputs src.args
  ret : RetSeen ir p selfRet f.output src.ret
  docstring : src.docstring = (docText metas).getD ""

/-- The macros see a field as `src`. A field of a tuple has no name of its own to keep: uniffi_macros enum_.rs:371-379. -/
def FieldSeen (env : CompileEnv) (ir : Ir) (p : RPath) (f : SField Meta) (src : FieldSrc) : Prop :=
  ∃ metas, Active env f.attrs metas ∧ TypeSeen ir p f.ty src.ty ∧
    (match f.ident with
      | some i => NameIs (textArg "name" (uniffiArgs metas)) i.name src.name src.origName
      | none => src.name = (textArg "name" (uniffiArgs metas)).getD "" ∧ src.origName = none) ∧
    src.default = fieldDefault (uniffiArgs metas) ∧ src.docstring = (docText metas).getD ""

/-- The macros see a variant as `src`. -/
def VariantSeen (env : CompileEnv) (ir : Ir) (p : RPath) (v : SVariant Meta) (src : VariantSrc) : Prop :=
  ∃ metas, Active env v.attrs metas ∧ NameIs (textArg "name" (uniffiArgs metas)) v.ident.name src.name src.origName ∧
    (match v.discr with
      | none => src.discr = none
      | some (.int n) => src.discr = some (n : Int)
      | some (.neg n) => src.discr = some (-n : Int)
      | some .other => False) ∧
    Each (FieldSeen env ir p) (v.fields.filter fun f => isActive env f.attrs) src.fields ∧
    src.docstring = (docText metas).getD ""

/-- There is no documentation that consists of nothing but an empty line. -/
def NotEmptyDoc (metas : List Meta) : Prop := docText metas ≠ some ""

/-- The same documentation everywhere in a field or a variant. -/
def DocsNotEmpty (env : CompileEnv) (attrs : List Meta) : Prop := ∀ metas, Active env attrs metas → NotEmptyDoc metas

/-- No field of a tuple is given a name. -/
def TupleUnnamed (env : CompileEnv) (f : SField Meta) : Prop :=
  f.ident = none → ∀ metas, Active env f.attrs metas → textArg "name" (uniffiArgs metas) = none

/-- What is asked of fields: no empty documentation, and no names in tuples. -/
def FieldPlain (env : CompileEnv) (f : SField Meta) : Prop := DocsNotEmpty env f.attrs ∧ TupleUnnamed env f

end Verif.Src
