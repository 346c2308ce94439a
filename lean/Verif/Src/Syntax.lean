import Verif.Meta.Types
/-
The parts of Rust source files that uniffi_parse_rs keeps: uniffi_parse_rs/src/items.rs, modules.rs,
use_.rs. Spans, documentation, and the contents of records, enums and functions are left out.
-/
namespace Verif.Src
open Verif.Meta

/-- An identifier; `raw` if it is written with `r#`. Two identifiers are equal if both agree. -/
structure Ident where
  raw : Bool := false
  name : String
  deriving DecidableEq, Repr

/-- `IdentExt::unraw`. -/
def Ident.unraw (i : Ident) : Ident := ⟨false, i.name⟩

instance : Coe String Ident := ⟨fun s => ⟨false, s⟩⟩

/-- `Visibility`: paths.rs:570-589. -/
inductive Vis where
  | pub | priv
  deriving DecidableEq, Repr

/-- The identifiers of a `syn::Path`, and whether it starts with `::`. Generic arguments are in
`Ty.path`. -/
structure Path where
  leading : Bool := false
  segs : List Ident
  deriving DecidableEq, Repr

/-- The parts of `syn::Type` that `_resolve_type` tells apart: types.rs:347-563. Parentheses and
groups are dropped. `dyn` has the paths of the trait bounds; `unit` is the empty tuple. -/
inductive Ty where
  | path (p : Path) (args : List Ty)
  | reference (mutable : Bool) (t : Ty)
  | slice (t : Ty)
  | unit
  | dyn (bounds : List Path)
  | other
  deriving Repr

/-- `BuiltinItem`: items.rs:48-77. -/
inductive Builtin where
  | unitType | boolean | string | str | uint8 | int8 | uint16 | int16 | uint32 | int32 | uint64 | int64
  | float32 | float64 | systemTime | duration | vec | hashMap | hashSet | option | result | arc | box
  | from_ | unexpectedUniFFICallbackError
  | uniffiMacro (name : String)
  | uniffiDerive (name : String)
  deriving DecidableEq, Repr

/-- `TraitExportType`: attrs/traits.rs. -/
inductive ExportTy where
  | traitInterface (kind : TraitKind)
  | callbackInterface
  deriving DecidableEq, Repr

/-- What an item with a name is. An alias has its type parameters with their defaults. -/
inductive Kind where
  | record | enum | object | fn | nonUniffi
  | trait (exportTy : ExportTy)
  | alias (params : List (Ident × Option Ty)) (target : Ty)
  | custom (builtin : Ty)
  deriving Repr

/-- `Item`: items.rs:17-42. The code compares items by their address; `id` stands for it. It also
stands for `Module::id`, modules.rs:33, which is different for every module. `other` is an item that
has no name. -/
inductive Item where
  | module (id : Nat) (ident : Ident) (vis : Vis) (items : List Item)
  | decl (id : Nat) (kind : Kind) (ident : Ident) (vis : Vis) (attrName : Option String) (remote : Bool)
  | useItem (id : Nat) (vis : Vis) (path : Path) (ident : Ident)
  | useGlob (id : Nat) (vis : Vis) (path : Path)
  | useRemote (id : Nat) (path : Path)
  | udl (id : Nat) (ty : MTy)
  | builtin (b : Builtin)
  | other (id : Nat)

/-- The address of an item. Builtin items are static; equal ones have one address. -/
inductive Addr where
  | item (id : Nat)
  | builtin (b : Builtin)
  deriving DecidableEq, Repr

def Item.addr : Item → Addr
  | .module id _ _ _ | .decl id _ _ _ _ _ | .useItem id _ _ _ | .useGlob id _ _ | .useRemote id _
  | .udl id _ | .other id => .item id
  | .builtin b => .builtin b

/-- `Item::ident`: items.rs:95-109. -/
def Item.ident : Item → Option Ident
  | .module _ i _ _ | .decl _ _ i _ _ _ => some i.unraw
  | .useRemote _ p => p.segs.getLast?.map Ident.unraw
  | _ => none

/-- `Type::name` of a type from UDL: uniffi_meta/src/types.rs:170-181. -/
def udlName : MTy → Option String
  | .object _ n _ | .record _ n | .enum _ n | .custom _ n _ | .callbackInterface _ n => some n
  | _ => none

/-- `Item::name_from_attrs`: items.rs:121-130. -/
def Item.nameFromAttrs : Item → Option String
  | .decl _ .record _ _ n _ | .decl _ .enum _ _ n _ | .decl _ .object _ _ n _ | .decl _ .fn _ _ n _
  | .decl _ (.trait _) _ _ n _ => n
  | _ => none

/-- `Item::is_special`: items.rs:159-168. -/
def Item.isSpecial : Item → Bool
  | .decl _ .record _ _ _ remote | .decl _ .enum _ _ _ remote | .decl _ .object _ _ _ remote => remote
  | .decl _ (.custom _) _ _ _ _ => true
  | .useRemote _ _ => true
  | _ => false

/-- `Item::vis`: items.rs:132-153. -/
def Item.vis : Item → Vis
  | .decl _ (.custom _) _ _ _ _ => .pub
  | .module _ _ v _ | .decl _ _ _ v _ _ | .useItem _ v _ _ | .useGlob _ v _ => v
  | .builtin _ | .useRemote _ _ | .udl _ _ => .pub
  | .other _ => .priv

/-- `Namespace`: paths.rs:591-599. -/
inductive Ns where
  | value | type | macro | nonUniffiType
  deriving DecidableEq, Repr

/-- Whether a builtin item is a macro. -/
def Builtin.isMacro : Builtin → Bool
  | .uniffiMacro _ | .uniffiDerive _ => true
  | _ => false

/-- `Namespace::matches`: paths.rs:602-632. -/
def Ns.matches : Ns → Item → Bool
  | .type, .module _ _ _ _ | .type, .decl _ .record _ _ _ _ | .type, .decl _ .enum _ _ _ _
  | .type, .decl _ .object _ _ _ _ | .type, .decl _ (.trait _) _ _ _ _
  | .type, .decl _ (.custom _) _ _ _ _ | .type, .udl _ _ | .type, .decl _ (.alias _ _) _ _ _ _
  | .type, .useRemote _ _ => true
  | .type, .builtin b => !b.isMacro
  | .type, _ => false
  | .value, .decl _ .fn _ _ _ _ => true
  | .value, _ => false
  | .macro, .builtin b => b.isMacro
  | .macro, _ => true
  | .nonUniffiType, .decl _ .nonUniffi _ _ _ _ => true
  | .nonUniffiType, _ => false

/-- `Ir`: ir.rs:29-40. The root module of each crate, with the name of the crate. -/
structure Ir where
  roots : List (Ident × Item)

/-- `ir.crate_roots.get(..)`. -/
def Ir.root (ir : Ir) (crate : Ident) : Option Item := (ir.roots.find? fun r => r.1 == crate).map (·.2)

end Verif.Src
