import Verif.Src.Paths
/-
What the name lookup of uniffi_parse_rs/src/paths.rs should do, without a cache and without an order of
search.
-/
namespace Verif.Src

/-- A path of items: a module of the program with the modules around it, or an item of such a module, or
a builtin item. -/
inductive Canon (ir : Ir) : RPath → Prop
  | root {crate m} : ir.root crate = some m → Canon ir [m]
  | builtin (b) : Canon ir [.builtin b]
  | item {p id ident vis items i} : Canon ir p → p.getLast? = some (.module id ident vis items) → i ∈ items →
      Canon ir (p ++ [i])

/-- The address of an item tells where it is. -/
def Ir.Unique (ir : Ir) : Prop :=
  ∀ p q, Canon ir p → Canon ir q → p.getLast?.map Item.addr = q.getLast?.map Item.addr → p = q

mutual
/-- `Names ir p ident ns q`: in the module at `p`, the name `ident` stands for the item at `q`. It is
declared there, or imported by name, or imported by a glob, or named by `use_remote_type!`. -/
inductive Names (ir : Ir) : RPath → Ident → Ns → RPath → Prop
  | super {p ns} : 2 ≤ p.length → Names ir p ⟨false, "super"⟩ ns p.dropLast
  | crate {root p ns} : Names ir (root :: p) ⟨false, "crate"⟩ ns [root]
  | declared {p ident ns id mi vis items i} : p.getLast? = some (.module id mi vis items) → i ∈ items →
      (∀ rid path, i ≠ .useRemote rid path) → i.ident = some ident.unraw → ns.matches i = true →
      Names ir p ident ns (p ++ [i])
  | udl {p ident ns id mi vis items uid ty} : p.getLast? = some (.module id mi vis items) →
      .udl uid ty ∈ items → udlName ty = some ident.name → ns = .type ∨ ns = .macro →
      Names ir p ident ns (p ++ [.udl uid ty])
  | imported {p ident ns id mi vis items uid uvis path q} : p.getLast? = some (.module id mi vis items) →
      .useItem uid uvis path ident.unraw ∈ items → Denotes ir p path ns q →
      (∀ i, q.getLast? = some i → ns.matches i = true) → Names ir p ident ns q
  | glob {p ident ns id mi vis items uid uvis path q} : p.getLast? = some (.module id mi vis items) →
      .useGlob uid uvis path ∈ items → Denotes ir p ⟨path.leading, path.segs ++ [ident.unraw]⟩ ns q →
      Names ir p ident ns q
  | remote {p ident ns id mi vis items uid path q} : p.getLast? = some (.module id mi vis items) →
      .useRemote uid path ∈ items → path.segs.getLast?.map Ident.unraw = some ident.unraw →
      Denotes ir p path ns q → Names ir p ident ns q

/-- `Walks ir p segs ns q`: going from `p` along the names `segs` leads to `q`. -/
inductive Walks (ir : Ir) : RPath → List Ident → Ns → RPath → Prop
  | nil {p ns} : Walks ir p [] ns p
  | cons {p seg rest ns q r} : Names ir p seg (if rest = [] then ns else .type) q → Walks ir q rest ns r →
      Walks ir p (seg :: rest) ns r

/-- `Denotes ir p path ns q`: a path written in the module at `p` stands for the item at `q`. -/
inductive Denotes (ir : Ir) : RPath → Path → Ns → RPath → Prop
  | relative {p segs ns q} : segs ≠ [] → Walks ir p segs ns q → Denotes ir p ⟨false, segs⟩ ns q
  | udl {root rest leading ident ns id mi vis items uid ty} : root = .module id mi vis items →
      .udl uid ty ∈ items → udlName ty = some ident.name →
      Denotes ir (root :: rest) ⟨leading, [ident]⟩ ns [root, .udl uid ty]
  | crate {p leading crate rest root ns q} : ir.root crate = some root → Walks ir [root] rest ns q →
      Denotes ir p ⟨leading, crate :: rest⟩ ns q
  | builtin {p leading segs ns b} : (segs.map (·.name), b) ∈ builtins →
      Denotes ir p ⟨leading, segs⟩ ns [.builtin b]
end

mutual
/-- The modules inside an item. -/
def Item.moduleIds : Item → List Nat
  | .module id _ _ items => id :: itemsModuleIds items
  | _ => []
def itemsModuleIds : List Item → List Nat
  | [] => []
  | i :: is => i.moduleIds ++ itemsModuleIds is
end

mutual
/-- The identifiers in the imports inside an item. -/
def Item.useIdents : Item → List Ident
  | .module _ _ _ items => itemsUseIdents items
  | .useItem _ _ path _ | .useGlob _ _ path | .useRemote _ path => path.segs
  | _ => []
def itemsUseIdents : List Item → List Ident
  | [] => []
  | i :: is => i.useIdents ++ itemsUseIdents is
end

def Ir.moduleIds (ir : Ir) : List Nat := itemsModuleIds (ir.roots.map (·.2))
def Ir.useIdents (ir : Ir) : List Ident := itemsUseIdents (ir.roots.map (·.2))

/-- The identifiers that can be asked for when `ident` is looked up. -/
def Ir.idents (ir : Ir) (ident : Ident) : List Ident :=
  (ident :: ir.useIdents) ++ (ident :: ir.useIdents).map Ident.unraw

/-- The keys that can be asked for when `ident` is looked up. -/
def Ir.keys (ir : Ir) (ident : Ident) : List Key :=
  ir.moduleIds.flatMap fun id => (ir.idents ident).flatMap fun i =>
    [Ns.value, .type, .macro, .nonUniffiType].map fun ns => (id, i, ns)

/-- How deep the recursion can get: one more than the number of keys. -/
def Ir.fuel (ir : Ir) : Nat := ir.moduleIds.length * (2 * (ir.useIdents.length + 1) * 4) + 1

/-- `RPath::resolve` with the cache. -/
def resolveTop (ir : Ir) (p : RPath) (path : Path) (ns : Ns) (c : Cache) : Res RPath × Cache :=
  (resolve ir p path ns).run (child ir ir.fuel) c

/-- The caches after any calls of `child`, from an empty cache on. -/
inductive Reach (ir : Ir) : Cache → Prop
  | empty : Reach ir {}
  | child {c p} (ident : Ident) (ns : Ns) : Reach ir c → Canon ir p → Reach ir (child ir ir.fuel p ident ns c).2

/-- What a path stands for if imports are followed without a cache, at most `k` deep. -/
def resolveRef (ir : Ir) (k : Nat) (p : RPath) (path : Path) (ns : Ns) : Res RPath :=
  (resolve ir p path ns).eval (childRef ir k)

/-- Following imports comes to an end, when a path is looked up: it takes no more than `k` steps. -/
def Ends (ir : Ir) (k : Nat) (p : RPath) (path : Path) (ns : Ns) : Prop :=
  resolveRef ir k p path ns ≠ .error .fuel

end Verif.Src
