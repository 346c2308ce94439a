import Verif.Gen.Api
/-
Which interfaces and configurations are handled correctly by the two ways of renaming. These conditions
describe the limits of the code.
-/
namespace Verif.Gen.Api
open Verif Verif.Meta Verif.Gen

/-- No `Box`, and custom types are over types without user-defined ones. -/
def simple : MTy → Bool
  | .box _ => false
  | .optional t | .sequence t | .set t => simple t
  | .map k v => simple k && simple v
  | .custom _ _ b => boxFree b && (namesIn b).isEmpty
  | _ => true

/-- No `Box`, and all user-defined types in the type are declared in the crate `c`. -/
def within (c : String) (t : MTy) : Prop := boxFree t = true ∧ ∀ p ∈ pathsIn t, crateName p = c

/-- All user-defined types in the type are declared in the crate of the type itself; for a compound
type, in this crate. -/
def uniform (this : String) (t : MTy) : Prop :=
  within (match declaredIn t with | some m => crateName m | none => this) t

/-- The configuration does not concern the signature of the member. -/
def untouched (R : Renames) (crate owner : String) (m : Member) : Prop :=
  renamedSig R crate (dot owner m.sig.name) m.sig = m.sig

/-- The configuration does not rename anything in these types. -/
def fixed (R : Renames) (ts : List MTy) : Prop := ∀ t ∈ ts, renamedTy R t = t

/-- The trait of the given name has a callback table, whose symbol and slots the configuration does
not concern. -/
def tableKept (R : Renames) (out : List String) (crate owner : String) (methods : List Member) : Prop :=
  R crate owner = none ∧ ∀ m ∈ methods, dot owner m.sig.name ∉ out

/-- What the Kotlin, Swift and Ruby generators handle. -/
structure Covered (R : Renames) (out : List String) (api : Api) : Prop where
  functions : ∀ f ∈ api.functions, ∀ t ∈ f.types, uniform api.crate t
  fields : ∀ s ∈ fields api, uniform api.crate s.ty
  known : ∀ t ∈ api.known, uniform api.crate t
  records : ∀ r ∈ api.records, ∀ m ∈ r.ctors ++ r.methods ++ r.traits, untouched R api.crate r.name m
  enums : ∀ e ∈ api.enums, ∀ m ∈ e.ctors ++ e.methods ++ e.traits, untouched R api.crate e.name m
  objects : ∀ o ∈ api.objects,
    (∀ m ∈ o.methods, ∀ t ∈ m.sig.types, uniform api.crate t) ∧
    (∀ m ∈ o.ctors, ∀ s ∈ m.sig.args, uniform api.crate s.ty) ∧
    (∀ m ∈ o.ctors, fixed R (m.sig.ret.toList ++ m.sig.throws.toList)) ∧
    (∀ m ∈ o.traits, untouched R api.crate o.name m) ∧
    (o.table.isSome → tableKept R out api.crate o.name o.methods)
  callbacks : ∀ c ∈ api.callbacks,
    (∀ m ∈ c.methods, ∀ s ∈ m.sig.args, uniform api.crate s.ty) ∧
    (∀ m ∈ c.methods, fixed R (m.sig.ret.toList ++ m.sig.throws.toList)) ∧
    tableKept R out api.crate c.name c.methods
  /-- a known type whose name is listed is a definition of this crate that can be left out -/
  out : ∀ t ∈ api.known, ∀ p ∈ (namedIn t).head?, declaredIn t = some p.1 → p.2 ∈ out →
    crateName p.1 = api.crate ∧
    p.2 ∈ api.records.map (·.name) ++ api.enums.map (·.name) ++ api.objects.map (·.name) ++
      api.callbacks.map (·.name)

/-! The types that methods are called on and constructors build, left out of the comparison. -/

def Member.anon (m : Member) : Member := { m with owner := .uint8 }
def Table.anon (t : Table) : Table := { t with slots := t.slots.map Member.anon }

def anon (api : Api) : Api :=
  { api with
    records := api.records.map fun r =>
      { r with ctors := r.ctors.map Member.anon, methods := r.methods.map Member.anon
               traits := r.traits.map Member.anon }
    enums := api.enums.map fun r =>
      { r with ctors := r.ctors.map Member.anon, methods := r.methods.map Member.anon
               traits := r.traits.map Member.anon }
    objects := api.objects.map fun r =>
      { r with ctors := r.ctors.map Member.anon, methods := r.methods.map Member.anon
               traits := r.traits.map Member.anon, table := r.table.map Table.anon }
    callbacks := api.callbacks.map fun r =>
      { r with methods := r.methods.map Member.anon, table := r.table.anon } }

end Verif.Gen.Api
