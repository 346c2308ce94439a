import Verif.Gen.Sources
/-
Which crates a crate depends on and which features it asks for.
-/
namespace Verif.Gen.Sources

/-- The crates `source` needs, directly or indirectly, and itself; names as they are written. -/
inductive Needs (pkgs : List Package) (source : String) : String → Prop
  | self : Needs pkgs source source
  | dep {c : String} {p : Package} {d : Dep} : Needs pkgs source c → getPackage pkgs c = some p → d ∈ p.deps →
      Needs pkgs source d.name

/-- A package that is needed. -/
def NeedsPackage (pkgs : List Package) (source : String) (p : Package) : Prop :=
  ∃ c, Needs pkgs source c ∧ getPackage pkgs c = some p

/-- Names are written as the packages write them. -/
def Spelled (pkgs : List Package) (source : String) : Prop :=
  ∀ c p, Needs pkgs source c → getPackage pkgs c = some p → p.name = c

/-- Default features of `p` are asked for. -/
def WantsDefault (pkgs : List Package) (o : Options) (source : String) (p : Package) : Prop :=
  (p.name = source ∧ o.noDefault = false) ∨
  ∃ q d, NeedsPackage pkgs source q ∧ d ∈ q.deps ∧ d.name = p.name ∧ d.usesDefault = true

/-- Feature `f` of `p` is asked for, by the user, by a package that is needed, or because it is a default feature. -/
def Wants (pkgs : List Package) (o : Options) (source : String) (p : Package) (f : String) : Prop :=
  (p.name = source ∧ f ∈ p.features.map (·.1) ∧ f ≠ "default" ∧ (o.all = true ∨ f ∈ o.features)) ∨
  (∃ q d, NeedsPackage pkgs source q ∧ d ∈ q.deps ∧ d.name = p.name ∧ f ∈ d.features) ∨
  (WantsDefault pkgs o source p ∧ ∃ l, defaultFeatures p = some l ∧ f ∈ l)

end Verif.Gen.Sources
