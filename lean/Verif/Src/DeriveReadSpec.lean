import Verif.Src.DeriveSpec
/-
When the readers of sources see the same items as the derive macros, and what it means that they agree.
-/
namespace Verif.Derive
open Verif.Meta Verif.Src

/-- `default` alone comes last in its attribute. -/
def DefaultLast (metas : List Meta) : Prop :=
  ∀ m ∈ metas, m.pathOf.isIdent "uniffi" = true → ∀ p pre x post, m = .list p (some (pre ++ x :: post)) →
    IsWord "default" x → post = []

/-- All words of `repr` name integer types that can cross. -/
def ReprCrosses (metas : List Meta) : Prop :=
  ∀ a ∈ argsIn (fun m => m.pathOf.isIdent "repr") metas, ∃ t, t ∈ intTypes ∧ a.pathOf.isIdent t.1 = true

/-- The value has a type: `i64::MIN` is left out. The compiler refuses values that do not fit. -/
def DiscrFits (ty : Option RTy) (d : Option SDiscr) : Prop :=
  match ty, d with
  | some t, some (.int n) => if t ∈ [.i8, .i16, .i32, .i64] then n < 2 ^ 63 else n < 2 ^ 64
  | some t, some (.neg n) => t ∈ [.i8, .i16, .i32, .i64] ∧ n < 2 ^ 63
  | _, _ => True

/-- The macro gets the field `d` where the source has `f`. -/
def FieldSame (env : CompileEnv) (f : SField Meta) (d : DField) : Prop := Active env f.attrs d.metas ∧ f.ident = d.ident

/-- Items that are left out have attributes that can be read. -/
def Readable (env : CompileEnv) (attrs : List Meta) : Prop := isActive env attrs = false → env.parseAttrs attrs = .ok none

/-- The macro gets the fields `ds` where the source has `fs`. -/
def FieldsSame (env : CompileEnv) (fs : List (SField Meta)) (ds : List DField) : Prop :=
  Each (FieldSame env) (fs.filter fun f => isActive env f.attrs) ds ∧ ∀ f ∈ fs, Readable env f.attrs

/-- The macro gets the variant `d` where the source has `v`. -/
def VariantSame (env : CompileEnv) (v : SVariant Meta) (d : DVariant) : Prop :=
  Active env v.attrs d.metas ∧ v.ident = d.ident ∧ v.discr = d.discr ∧ FieldsSame env v.fields d.fields

/-- The macro gets the variants `ds` where the source has `vs`. -/
def VariantsSame (env : CompileEnv) (vs : List (SVariant Meta)) (ds : List DVariant) : Prop :=
  Each (VariantSame env) (vs.filter fun v => isActive env v.attrs) ds ∧ ∀ v ∈ vs, Readable env v.attrs

/-- A field that was read from sources says what the macro recorded. Names of fields of tuples are left out. -/
structure FieldAgrees (f : PField) (s : FieldSrc) : Prop where
  name : ∀ i, f.ident = some i → NameIs f.attrs.name i.name s.name s.origName
  default : f.attrs.default = s.default
  docstring : f.attrs.docstring.getD "" = s.docstring

/-- The value of a variant, if the enum has a type. -/
def ValueAgrees (ty : Option RTy) (l : Option MLit) (z : Option Int) : Prop :=
  match ty, z with
  | some _, some z => (∃ t, l = some (.int z .decimal t)) ∨ ∃ t, ∃ n : Nat, (n : Int) = z ∧ l = some (.uint n .decimal t)
  | _, _ => l = none

/-- A variant that was read from sources says what the macro recorded. -/
structure VariantAgrees (ty : Option RTy) (v : PVariant) (s : VariantSrc) : Prop where
  name : NameIs v.attrs.name v.ident.name s.name s.origName
  value : ValueAgrees ty v.discr s.discr
  fields : Each FieldAgrees v.fields s.fields
  docstring : v.attrs.docstring.getD "" = s.docstring

/-- A variant of a flat error that was read from sources says what the macro recorded: there is a name and documentation. -/
structure FlatAgrees (v : PVariant) (s : VariantSrc) : Prop where
  name : NameIs v.attrs.name v.ident.name s.name s.origName
  value : v.discr = none
  docstring : v.attrs.docstring.getD "" = s.docstring

end Verif.Derive
