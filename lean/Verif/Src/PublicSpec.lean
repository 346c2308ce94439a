import Verif.Src.PublicPaths
import Verif.Src.PathsSpec
/-
What a public path is.
-/
namespace Verif.Src

/-- A module that can be reached from the crate root through public modules. -/
inductive Public (ir : Ir) : RPath → Prop
  | root {crate id ident vis items} : ir.root crate = some (.module id ident vis items) →
      Public ir [.module id ident vis items]
  | child {p id ident vis items id' ident' items'} : Public ir p → p.getLast? = some (.module id ident vis items) →
      .module id' ident' .pub items' ∈ items → Public ir (p ++ [.module id' ident' .pub items'])

/-- In the module at `m`, the text `name` leads to the item `target`: it is declared there, or imported
with `pub use`, or brought in by a `pub use` of all of another module. -/
inductive Exports (ir : Ir) (target : Addr) : RPath → String → Prop
  | declared {m id mi vis items i ident} : m.getLast? = some (.module id mi vis items) → i ∈ items →
      i.addr = target → i.ident = some ident → Exports ir target m ident.show
  | imported {m id mi vis items uid path ident ns q} : m.getLast? = some (.module id mi vis items) →
      .useItem uid .pub path ident ∈ items → Denotes ir m path ns q → q.getLast?.map Item.addr = some target →
      Exports ir target m ident.show
  | glob {m id mi vis items uid path ns q name} : m.getLast? = some (.module id mi vis items) →
      .useGlob uid .pub path ∈ items → Denotes ir m path ns q → Exports ir target q name →
      Exports ir target m name

/-- Every `pub use` in the program leads somewhere or is not found; a `pub use` of everything leads to a
module. Imports are followed at most `k` deep. -/
def Clean (ir : Ir) (k : Nat) (ns : Ns) : Prop :=
  ∀ m id mi vis items, Canon ir m → m.getLast? = some (.module id mi vis items) → ∀ i ∈ items, match i with
    | .useItem _ .pub path _ => (∃ q, resolveRef ir k m path ns = .ok q) ∨ resolveRef ir k m path ns = .error .notFound
    | .useGlob _ .pub path =>
      (∃ q id' mi' vis' items', resolveRef ir k m path ns = .ok q ∧ q.getLast? = some (.module id' mi' vis' items')) ∨
      resolveRef ir k m path ns = .error .notFound
    | _ => True

/-- From the module at `m`, other crates get to the item `target`: it is declared there, or imported with
`pub use`, or some module that leads to it is imported as a whole with `pub use`. -/
inductive Leads (ir : Ir) (k : Nat) (target : Item) : RPath → Prop
  | declared {m id mi vis items i} : m.getLast? = some (.module id mi vis items) → i ∈ items →
      i.addr = target.addr → Leads ir k target m
  | imported {m id mi vis items uid path ident q} : m.getLast? = some (.module id mi vis items) →
      .useItem uid .pub path ident ∈ items → resolveRef ir k m path target.searchNs = .ok q →
      q.getLast?.map Item.addr = some target.addr → Leads ir k target m
  | glob {m id mi vis items uid path q} : m.getLast? = some (.module id mi vis items) →
      .useGlob uid .pub path ∈ items → resolveRef ir k m path .type = .ok q → Leads ir k target q →
      Leads ir k target m

/-- The name to use in an import: `orig_name` if there is one, else `name`. -/
def ItemNames.importName (n : ItemNames) : String :=
  match n.origName with
  | some o => o
  | none => n.name

mutual
/-- How deep modules are nested in an item. -/
def Item.height : Item → Nat
  | .module _ _ _ items => itemsHeight items + 1
  | _ => 0
def itemsHeight : List Item → Nat
  | [] => 0
  | i :: is => max i.height (itemsHeight is)
end

/-- Enough fuel for the search: one more than the number of modules. -/
def Ir.searchDepth (ir : Ir) : Nat := ir.moduleIds.length + 1

/-- Enough levels: one more than the nesting of modules. -/
def levelsFor (p : RPath) : Nat :=
  match p with
  | root :: _ => root.height + 1
  | [] => 0

/-- `public_path_to_item` with the cache. -/
def publicPathTop (ir : Ir) (p : RPath) (c : FullCache) : Res ItemNames × FullCache :=
  publicPath ir ir.searchDepth (levelsFor p) ir.fuel p c

/-- Items that can be part of the interface. -/
def Kind.exportable : Kind → Bool
  | .nonUniffi | .alias _ _ => false
  | _ => true

/-- A path that ends with such an item, declared in a module. Public paths are looked up only for these:
functions.rs:59, records.rs:50, enums.rs:56, objects.rs:63, traits.rs:75, custom_types.rs:27, types.rs:393-411. -/
def RPath.isDecl (p : RPath) : Bool :=
  match p.dropLast, p.getLast? with
  | _ :: _, some (.decl _ k _ _ _ _) => k.exportable
  | _, _ => false

/-- No other such item of the program has the same path, written out. -/
def OnlyPath (ir : Ir) (p : RPath) : Prop :=
  ∀ q, Canon ir q → RPath.isDecl q = true → pathString q = pathString p → q = p

/-- The caches after any lookups, from empty caches on. -/
inductive FullReach (ir : Ir) : FullCache → Prop
  | empty : FullReach ir {}
  | child {c p} (ident : Ident) (ns : Ns) : FullReach ir c → Canon ir p →
      FullReach ir { c with lookups := (child ir ir.fuel p ident ns c.lookups).2 }
  | publicPath {c p} : FullReach ir c → Canon ir p → RPath.isDecl p = true →
      FullReach ir (publicPathTop ir p c).2

end Verif.Src
