import Verif.Meta.Group
/-
Words for what an interface should hold, given the metadata items it is made from.
-/
namespace Verif.Gen.Assemble
open Verif.Meta

/-- What an item stands for: a function or a type of a crate, or a member of a type of a crate. -/
inductive Role where
  | function (crate name : String)
  | record (crate name : String)
  | enum (crate name : String)
  | custom (crate name : String)
  | object (crate name : String)
  | callback (crate name : String)
  | ctor (crate owner name : String)
  | method (crate owner name : String)
  | traitMethod (crate owner name : String)
  | builtin (crate owner name : String)
  | impl (crate owner : String) (trait : MTy)
  deriving DecidableEq, Repr

/-- The role of an item. An implementation for a type without a name has none. -/
def role : Metadata → Option Role
  | .namespace_ .. => none
  | .udlFile .. => none
  | .func f => some (.function (crateName f.modulePath) f.name)
  | .record m n .. => some (.record (crateName m) n)
  | .enum m n .. => some (.enum (crateName m) n)
  | .customType m n .. => some (.custom (crateName m) n)
  | .object m n .. => some (.object (crateName m) n)
  | .callbackInterface m n _ => some (.callback (crateName m) n)
  | .constructor c => some (.ctor (crateName c.modulePath) c.selfName c.name)
  | .method m => some (.method (crateName m.fn.modulePath) m.selfName m.fn.name)
  | .traitMethod t _ f => some (.traitMethod (crateName f.modulePath) t f.name)
  | .uniffiTrait (.debug m) | .uniffiTrait (.display m) | .uniffiTrait (.eq m _)
  | .uniffiTrait (.hash m) | .uniffiTrait (.ord m) =>
    some (.builtin (crateName m.fn.modulePath) m.selfName m.fn.name)
  | .objectTraitImpl (.object m n _) tr | .objectTraitImpl (.record m n) tr
  | .objectTraitImpl (.enum m n) tr | .objectTraitImpl (.custom m n _) tr
  | .objectTraitImpl (.callbackInterface m n) tr => some (.impl (crateName m) n tr)
  | .objectTraitImpl _ _ => none

/-- The crate and the name of the type an item defines. -/
def definedType (i : Metadata) : Option (String × String) :=
  match role i with
  | some (.record c n) | some (.enum c n) | some (.custom c n) | some (.object c n)
  | some (.callback c n) => some (c, n)
  | _ => none

/-- A custom type. -/
def isCustom : Metadata → Bool
  | .customType .. => true
  | _ => false

/-- The crate whose items go to a namespace. Crate names in items may be written with `-`. -/
def Lives (items : List Metadata) (crate ns : String) : Prop :=
  ∃ c, Metadata.namespace_ c ns ∈ items ∧
    c.toList = crate.toList.map fun ch => if ch = '-' then '_' else ch

/-- No crate is given two namespaces. -/
def OneNamespace (items : List Metadata) : Prop :=
  ∀ c n n', Metadata.namespace_ c n ∈ items → Metadata.namespace_ c n' ∈ items → n = n'

/-- Two items that describe the same custom type; documentation may be missing in one. -/
def SameCustom : Metadata → Metadata → Prop
  | .customType m n _ b _, .customType m' n' _ b' _ => m = m' ∧ n = n' ∧ b = b'
  | _, _ => False

/-- No two items contradict each other. -/
structure Consistent (items : List Metadata) : Prop where
  /-- a namespace belongs to one crate -/
  namespaces : ∀ c c' n, Metadata.namespace_ c n ∈ items → Metadata.namespace_ c' n ∈ items → c = c'
  /-- implementations are for types with a name -/
  impls : ∀ t tr, Metadata.objectTraitImpl t tr ∈ items → role (.objectTraitImpl t tr) ≠ none
  /-- two items in the same role are one, or describe the same custom type -/
  roles : ∀ i ∈ items, ∀ j ∈ items, role i ≠ none → role i = role j → i = j ∨ SameCustom i j

/-- The documentation of a custom type. -/
def customDoc : Metadata → Option String
  | .customType _ _ _ _ d => d
  | _ => none

/-- Custom types described twice: with and without documentation at most, and otherwise the same. -/
def OneCustom (items : List Metadata) : Prop :=
  ∀ i ∈ items, ∀ j ∈ items, SameCustom i j → (customDoc i).isSome = (customDoc j).isSome → i = j

/-- A type in a default. -/
inductive InDefault : MDef → MTy → Prop where
  | uint (n r t) : InDefault (.literal (.uint n r t)) t
  | int (n r t) : InDefault (.literal (.int n r t)) t
  | float (s t) : InDefault (.literal (.float s t)) t
  | optSome (d t) : InDefault d t → InDefault (.literal (.optSome d)) t

/-- A type of an argument, or in its default. -/
def InArgs (as : List MArg) (t : MTy) : Prop :=
  ∃ a ∈ as, a.ty = t ∨ ∃ d, a.default = some d ∧ InDefault d t

/-- A type in a signature. -/
def InFn (f : MFn) (t : MTy) : Prop := InArgs f.inputs t ∨ f.returnType = some t ∨ f.throws = some t

/-- A type of a field, or in its default. -/
def InFields (fs : List MField) (t : MTy) : Prop :=
  ∃ f ∈ fs, f.ty = t ∨ ∃ d, f.default = some d ∧ InDefault d t

/-- A type an item mentions. -/
def Mentions : Metadata → MTy → Prop
  | .func f, t => InFn f t
  | .constructor c, t => InArgs c.inputs t ∨ c.throws = some t
  | .method m, t => InFn m.fn t
  | .traitMethod _ _ f, t => InFn f t
  | .uniffiTrait (.debug m), t | .uniffiTrait (.display m), t | .uniffiTrait (.hash m), t
  | .uniffiTrait (.ord m), t => InFn m.fn t
  | .uniffiTrait (.eq e n), t => InFn e.fn t ∨ InFn n.fn t
  | .objectTraitImpl a b, t => t = a ∨ t = b
  | .record _ _ _ fs _, t => InFields fs t
  | .enum _ _ _ _ dt vs _ _, t => dt = some t ∨
      ∃ v ∈ vs, InFields v.fields t ∨ ∃ l, v.discr = some l ∧ InDefault (.literal l) t
  | .customType _ _ _ b _, t => t = b
  | _, _ => False

/-- The module paths in a type. -/
inductive Names : MTy → String → Prop where
  | object (m n i) : Names (.object m n i) m
  | record (m n) : Names (.record m n) m
  | enum (m n) : Names (.enum m n) m
  | callbackInterface (m n) : Names (.callbackInterface m n) m
  | custom (m n b) : Names (.custom m n b) m
  | builtin (m n b m') : Names b m' → Names (.custom m n b) m'
  | optional (t m) : Names t m → Names (.optional t) m
  | box (t m) : Names t m → Names (.box t) m
  | sequence (t m) : Names t m → Names (.sequence t) m
  | set (t m) : Names t m → Names (.set t) m
  | key (k v m) : Names k m → Names (.map k v) m
  | value (k v m) : Names v m → Names (.map k v) m

/-- The crate of a path has a namespace. -/
def Known (items : List Metadata) (m : String) : Prop := ∃ ns, Lives items (crateName m) ns

/-- The crate of a function or a type. -/
def Placed (i : Metadata) (cr : String) : Prop :=
  (∃ n, role i = some (.function cr n)) ∨ ∃ n, definedType i = some (cr, n)

/-- Every crate that items are from or refer to has a namespace. -/
structure AllKnown (items : List Metadata) : Prop where
  placed : ∀ i ∈ items, ∀ cr, Placed i cr → ∃ ns, Lives items cr ns
  mentioned : ∀ i ∈ items, ∀ t, Mentions i t → ∀ m, Names t m → Known items m

/-- No type has both methods and trait methods. -/
def NoMix (items : List Metadata) : Prop :=
  ∀ i ∈ items, ∀ j ∈ items, ∀ cr n x y, role i = some (.method cr n x) →
    role j ≠ some (.traitMethod cr n y)

/-- A constructor of the type named `n`. -/
def ctorIn (n : String) (i : Metadata) : Bool :=
  match role i with
  | some (.ctor _ o _) => o = n
  | _ => false

/-- A method or trait method of the type named `n`. -/
def methodIn (n : String) (i : Metadata) : Bool :=
  match role i with
  | some (.method _ o _) | some (.traitMethod _ o _) => o = n
  | _ => false

/-- A built-in trait of the type named `n`. -/
def builtinIn (n : String) (i : Metadata) : Bool :=
  match role i with
  | some (.builtin _ o _) => o = n
  | _ => false

/-- An implementation of a trait for the type named `n`. -/
def implIn (n : String) (i : Metadata) : Bool :=
  match role i with
  | some (.impl _ o _) => o = n
  | _ => false

/-- A member of the type named `n`. -/
def memberIn (n : String) (i : Metadata) : Bool :=
  ctorIn n i || methodIn n i || builtinIn n i || implIn n i

/-- An exported function. -/
def isFunction (i : Metadata) : Bool :=
  match role i with
  | some (.function ..) => true
  | _ => false

/-- The name of a type that can have members. -/
def ownerName (i : Metadata) : Option String :=
  match role i with
  | some (.record _ n) | some (.enum _ n) | some (.object _ n) | some (.callback _ n) => some n
  | _ => none

/-- The crate of an item with a role. -/
def crateOf (i : Metadata) : Option String :=
  match role i with
  | some (.function c _) | some (.record c _) | some (.enum c _) | some (.custom c _)
  | some (.object c _) | some (.callback c _) | some (.ctor c _ _) | some (.method c _ _)
  | some (.traitMethod c _ _) | some (.builtin c _ _) | some (.impl c _ _) => some c
  | none => none

/-- The type an item defines is an object, a record or an enum named `n`. -/
def hasMethods (n : String) (i : Metadata) : Prop :=
  ∃ c, role i = some (.object c n) ∨ role i = some (.record c n) ∨ role i = some (.enum c n)

/-- The position of a method of a trait. -/
def position : Metadata → Nat
  | .traitMethod _ x _ => x.toNat
  | _ => 0

/-- What an item needs from the items before it, for the languages other than Python: functions have
different names, custom types are described alike, members come after the type they are of, and methods
of callback interfaces come in the order of their positions. -/
def FitsAfter (before : List Metadata) : Metadata → Prop
  | .namespace_ .. => False
  | .func f => ∀ j ∈ before, ∀ c, role j ≠ some (.function c f.name)
  | .customType m n o b d => ∀ j ∈ before, ∀ c, role j = some (.custom c n) → SameCustom j (.customType m n o b d)
  | .constructor c => ∃ j ∈ before, hasMethods c.selfName j
  | .method m => ∃ j ∈ before, hasMethods m.selfName j
  | .uniffiTrait (.debug m) | .uniffiTrait (.display m) | .uniffiTrait (.hash m) | .uniffiTrait (.ord m)
  | .uniffiTrait (.eq m _) => ∃ j ∈ before, hasMethods m.selfName j
  | .traitMethod t x _ => (∃ j ∈ before, hasMethods t j) ∨
      ((∃ j ∈ before, ∃ c, role j = some (.callback c t)) ∧ x.toNat = (before.filter (methodIn t)).length)
  | .objectTraitImpl (.object _ n _) _ | .objectTraitImpl (.record _ n) _ | .objectTraitImpl (.enum _ n) _
  | .objectTraitImpl (.custom _ n _) _ | .objectTraitImpl (.callbackInterface _ n) _ =>
      ∃ j ∈ before, ∃ c, role j = some (.object c n)
  | .objectTraitImpl _ _ => False
  | _ => True

/-- The exported name of a member. -/
def memberName (i : Metadata) : String :=
  match role i with
  | some (.ctor _ _ n) | some (.method _ _ n) | some (.traitMethod _ _ n) | some (.builtin _ _ n) => n
  | _ => ""

/-- Methods come in the order of their names, methods of traits in the order of their positions. -/
def Before : Metadata → Metadata → Prop
  | .traitMethod _ i _, .traitMethod _ j _ => i ≤ j
  | .method a, .method b => a.fn.name ≤ b.fn.name
  | _, _ => False

/-- The module, the exported name and the Rust name, if given, of a definition. -/
def written : Metadata → Option (String × String × Option String)
  | .func f => some (f.modulePath, f.name, f.origName)
  | .record m n o _ _ => some (m, n, o)
  | .enum m n o _ _ _ _ _ => some (m, n, o)
  | .object m n o _ _ => some (m, n, o)
  | _ => none

/-- Definitions of one module with the same exported name have the same Rust name. -/
def OneOrig (items : List Metadata) : Prop :=
  ∀ i ∈ items, ∀ j ∈ items, ∀ m n o o', written i = some (m, n, o) → written j = some (m, n, o') → o = o'

/-- The Rust name of the definition `n` of a module. -/
def RustName (items : List Metadata) (m n o : String) : Prop :=
  (∃ i ∈ items, written i = some (m, n, some o)) ∨
  (o = n ∧ ∀ i ∈ items, ∀ o', written i ≠ some (m, n, some o'))

end Verif.Gen.Assemble
