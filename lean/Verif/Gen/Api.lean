import Verif.Meta.Types
import Verif.Meta.Names
import Verif.Gen.TypeWalkSpec
/-
The interface of one crate as the generators hold it in memory, and what a configuration file that
renames items or leaves items out should make of it. Written from the description of the
configuration, not from the code that applies it.
-/
namespace Verif.Gen.Api
open Verif Verif.Meta Verif.Gen

/-- An argument of a function, or a field. -/
structure Slot where
  name : String
  ty : MTy
  deriving DecidableEq, Repr

/-- What a user calls: a function, or the rest of a method or constructor. `symbol` is the function
of the library that is called. -/
structure Sig where
  name : String
  args : List Slot
  ret : Option MTy
  throws : Option MTy
  symbol : String
  deriving DecidableEq, Repr

/-- A method or constructor, with the type it is called on or builds. -/
structure Member where
  owner : MTy
  sig : Sig
  deriving DecidableEq, Repr

structure Rec where
  path : String
  name : String
  fields : List Slot
  ctors : List Member
  methods : List Member
  /-- methods for `Debug`, `Display`, `Eq`, `Hash` and `Ord` -/
  traits : List Member
  deriving DecidableEq, Repr

structure Variant where
  name : String
  fields : List Slot
  deriving DecidableEq, Repr

structure Enum where
  path : String
  name : String
  variants : List Variant
  ctors : List Member
  methods : List Member
  traits : List Member
  deriving DecidableEq, Repr

/-- The callback table of a trait that can be implemented on the foreign side: the function of the
library that takes the table, and the method behind each slot. The library calls slots by position. -/
structure Table where
  initSymbol : String
  slots : List Member
  deriving DecidableEq, Repr

structure Obj where
  path : String
  name : String
  imp : Impl
  ctors : List Member
  methods : List Member
  traits : List Member
  cloneSymbol : String
  freeSymbol : String
  table : Option Table
  deriving DecidableEq, Repr

structure Cb where
  path : String
  name : String
  methods : List Member
  table : Table
  deriving DecidableEq, Repr

/-- `known` are the types the interface uses. -/
structure Api where
  crate : String
  functions : List Sig
  records : List Rec
  enums : List Enum
  objects : List Obj
  callbacks : List Cb
  known : List MTy
  deriving DecidableEq, Repr

/-! What renaming should do -/

/-- The `rename` tables of all crates: crate, then the dotted path of an item, give the new name. -/
abbrev Renames := String → String → Option String

/-- The new name of the item with path `key` of a crate, called `old`. -/
def Renames.new (R : Renames) (crate key old : String) : String :=
  match R crate key with
  | some n => n
  | none => old

/-- `Owner.member`. -/
def dot (a b : String) : String := a ++ "." ++ b

/-- Each type is renamed by the table of the crate that declares it, wherever it occurs. -/
def renamedTy (R : Renames) : MTy → MTy
  | .object m n i => .object m (R.new (crateName m) n n) i
  | .record m n => .record m (R.new (crateName m) n n)
  | .enum m n => .enum m (R.new (crateName m) n n)
  | .callbackInterface m n => .callbackInterface m (R.new (crateName m) n n)
  | .custom m n b => .custom m (R.new (crateName m) n n) (renamedTy R b)
  | .optional t => .optional (renamedTy R t)
  | .sequence t => .sequence (renamedTy R t)
  | .set t => .set (renamedTy R t)
  | .box t => .box (renamedTy R t)
  | .map k v => .map (renamedTy R k) (renamedTy R v)
  | t => t

/-- An argument or field of the item with path `owner`. -/
def renamedSlot (R : Renames) (crate owner : String) (s : Slot) : Slot :=
  ⟨R.new crate (dot owner s.name) s.name, renamedTy R s.ty⟩

/-- A function or method with path `path`. -/
def renamedSig (R : Renames) (crate path : String) (f : Sig) : Sig :=
  { name := R.new crate path f.name
    args := f.args.map (renamedSlot R crate path)
    ret := f.ret.map (renamedTy R)
    throws := f.throws.map (renamedTy R)
    symbol := f.symbol }

def renamedMember (R : Renames) (crate owner : String) (m : Member) : Member :=
  ⟨renamedTy R m.owner, renamedSig R crate (dot owner m.sig.name) m.sig⟩

def renamedRec (R : Renames) (crate : String) (r : Rec) : Rec :=
  { path := r.path
    name := R.new crate r.name r.name
    fields := r.fields.map (renamedSlot R crate r.name)
    ctors := r.ctors.map (renamedMember R crate r.name)
    methods := r.methods.map (renamedMember R crate r.name)
    traits := r.traits.map (renamedMember R crate r.name) }

def renamedVariant (R : Renames) (crate owner : String) (v : Variant) : Variant :=
  ⟨R.new crate (dot owner v.name) v.name, v.fields.map (renamedSlot R crate (dot owner v.name))⟩

def renamedEnum (R : Renames) (crate : String) (e : Enum) : Enum :=
  { path := e.path
    name := R.new crate e.name e.name
    variants := e.variants.map (renamedVariant R crate e.name)
    ctors := e.ctors.map (renamedMember R crate e.name)
    methods := e.methods.map (renamedMember R crate e.name)
    traits := e.traits.map (renamedMember R crate e.name) }

/-- The symbols of the library stay as they are. -/
def renamedTable (R : Renames) (crate owner : String) (t : Table) : Table :=
  ⟨t.initSymbol, t.slots.map (renamedMember R crate owner)⟩

def renamedObj (R : Renames) (crate : String) (o : Obj) : Obj :=
  { o with
    name := R.new crate o.name o.name
    ctors := o.ctors.map (renamedMember R crate o.name)
    methods := o.methods.map (renamedMember R crate o.name)
    traits := o.traits.map (renamedMember R crate o.name)
    table := o.table.map (renamedTable R crate o.name) }

def renamedCb (R : Renames) (crate : String) (c : Cb) : Cb :=
  { c with
    name := R.new crate c.name c.name
    methods := c.methods.map (renamedMember R crate c.name)
    table := renamedTable R crate c.name c.table }

/-- The interface with every item under its configured name, and every reference to a type under the
name of the type. -/
def renamed (R : Renames) (api : Api) : Api :=
  { crate := api.crate
    functions := api.functions.map fun f => renamedSig R api.crate f.name f
    records := api.records.map (renamedRec R api.crate)
    enums := api.enums.map (renamedEnum R api.crate)
    objects := api.objects.map (renamedObj R api.crate)
    callbacks := api.callbacks.map (renamedCb R api.crate)
    known := api.known.map (renamedTy R) }

/-! What one can ask of an interface -/

def Sig.types (f : Sig) : List MTy := f.args.map (·.ty) ++ f.ret.toList ++ f.throws.toList
def Member.types (m : Member) : List MTy := m.owner :: m.sig.types

/-- All methods and constructors. -/
def members (api : Api) : List Member :=
  api.records.flatMap (fun r => r.ctors ++ r.methods ++ r.traits) ++
  api.enums.flatMap (fun e => e.ctors ++ e.methods ++ e.traits) ++
  api.objects.flatMap (fun o => o.ctors ++ o.methods ++ o.traits) ++
  api.callbacks.flatMap (·.methods)

/-- All callback tables. -/
def tables (api : Api) : List Table :=
  api.objects.filterMap (·.table) ++ api.callbacks.map (·.table)

/-- All fields. -/
def fields (api : Api) : List Slot :=
  api.records.flatMap (·.fields) ++ api.enums.flatMap (fun e => e.variants.flatMap (·.fields))

/-- Every type that is mentioned. -/
def mentioned (api : Api) : List MTy :=
  api.functions.flatMap Sig.types ++ (members api).flatMap Member.types ++
    (tables api).flatMap (fun t => t.slots.flatMap Member.types) ++
    (fields api).map (·.ty) ++ api.known

/-- The names of the user-defined types in a type with the place of their declaration. -/
def namedIn : MTy → List (String × String)
  | .object m n _ | .record m n | .enum m n | .callbackInterface m n => [(m, n)]
  | .custom m n t => (m, n) :: namedIn t
  | .optional t | .sequence t | .set t | .box t => namedIn t
  | .map k v => namedIn k ++ namedIn v
  | _ => []

/-- The names of the types that the interface defines; custom types are those among the known types
that belong to the crate. -/
def defined (api : Api) : List String :=
  api.records.map (·.name) ++ api.enums.map (·.name) ++ api.objects.map (·.name) ++
    api.callbacks.map (·.name) ++
    api.known.filterMap fun
      | .custom m n _ => if crateName m = api.crate then some n else none
      | _ => none

/-- Every type of the crate that is mentioned is defined. -/
def closed (api : Api) : Prop :=
  ∀ t ∈ mentioned api, ∀ p ∈ namedIn t, crateName p.1 = api.crate → p.2 ∈ defined api

/-- Every symbol of the library that the bindings call. -/
def symbols (api : Api) : List String :=
  api.functions.map (·.symbol) ++ (members api).map (·.sig.symbol) ++
    api.objects.flatMap (fun o => [o.cloneSymbol, o.freeSymbol]) ++
    (tables api).map (·.initSymbol)

/-! What leaving items out should do -/

/-- The members of an owner that stay. -/
def kept (out : List String) (owner : String) (ms : List Member) : List Member :=
  ms.filter fun m => dot owner m.sig.name ∉ out

/-- Whether a type is a user-defined type of the crate with one of the names. -/
def isOneOf (crate : String) (out : List String) : MTy → Bool
  | .object m n _ | .record m n | .enum m n | .callbackInterface m n | .custom m n _ =>
    crateName m == crate && out.contains n
  | _ => false

/-- The interface without the listed items. The callback tables keep a slot for each method, also for
those that are left out. -/
def excluded (out : List String) (api : Api) : Api :=
  { crate := api.crate
    functions := api.functions.filter fun f => f.name ∉ out
    records := (api.records.filter fun r => r.name ∉ out).map fun r =>
      { r with ctors := kept out r.name r.ctors, methods := kept out r.name r.methods }
    enums := (api.enums.filter fun e => e.name ∉ out).map fun e =>
      { e with ctors := kept out e.name e.ctors, methods := kept out e.name e.methods }
    objects := (api.objects.filter fun o => o.name ∉ out).map fun o =>
      { o with ctors := kept out o.name o.ctors, methods := kept out o.name o.methods }
    callbacks := (api.callbacks.filter fun c => c.name ∉ out).map fun c =>
      { c with methods := kept out c.name c.methods }
    known := api.known.filter fun t => !isOneOf api.crate out t }

/-! Interfaces as they are loaded -/

/-- The members belong to the type `self` and have the symbols that `symbol` gives for their names. -/
def membersOf (self : MTy) (symbol : String → String) (ms : List Member) : Prop :=
  ∀ m ∈ ms, m.owner = self ∧ m.sig.symbol = symbol m.sig.name

/-- The symbols are those that the library has for the names in the metadata, definitions belong to
the crate, and the callback tables have a slot for each method. -/
structure Loaded (api : Api) : Prop where
  functions : ∀ f ∈ api.functions, f.symbol = fnSymbol api.crate f.name
  records : ∀ r ∈ api.records, crateName r.path = api.crate ∧
    membersOf (.record r.path r.name) (constructorSymbol api.crate r.name) r.ctors ∧
    membersOf (.record r.path r.name) (methodSymbol api.crate r.name) r.methods ∧
    membersOf (.record r.path r.name) (methodSymbol api.crate r.name) r.traits
  enums : ∀ e ∈ api.enums, crateName e.path = api.crate ∧
    membersOf (.enum e.path e.name) (constructorSymbol api.crate e.name) e.ctors ∧
    membersOf (.enum e.path e.name) (methodSymbol api.crate e.name) e.methods ∧
    membersOf (.enum e.path e.name) (methodSymbol api.crate e.name) e.traits
  objects : ∀ o ∈ api.objects, crateName o.path = api.crate ∧
    membersOf (.object o.path o.name o.imp) (constructorSymbol api.crate o.name) o.ctors ∧
    membersOf (.object o.path o.name o.imp) (methodSymbol api.crate o.name) o.methods ∧
    membersOf (.object o.path o.name o.imp) (methodSymbol api.crate o.name) o.traits ∧
    o.cloneSymbol = Meta.cloneSymbol api.crate o.name ∧ o.freeSymbol = Meta.freeSymbol api.crate o.name ∧
    o.table = (if o.imp = .trait .both ∨ o.imp = .trait .foreignOnly then
      some (Table.mk (initVtableSymbol api.crate o.name) o.methods) else none)
  callbacks : ∀ c ∈ api.callbacks, crateName c.path = api.crate ∧
    membersOf (.callbackInterface c.path c.name) (methodSymbol api.crate c.name) c.methods ∧
    c.table = Table.mk (initVtableSymbol api.crate c.name) c.methods

end Verif.Gen.Api
