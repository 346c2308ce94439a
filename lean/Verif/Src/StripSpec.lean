import Verif.Src.Parse
import Verif.Src.CfgSpec
/-
What conditional compilation means for items: the compiler goes on with the items, fields, variants and functions
whose attributes say that they are kept, and with the attributes that remain.
-/
namespace Verif.Src
open Verif.Meta

/-! ### How a program is written -/

def SFn.written (f : SFn Attr) : SFn Meta := ⟨attrsWritten f.attrs, f.isAsync, f.ident, f.inputs, f.output⟩
def SField.written (f : SField Attr) : SField Meta := ⟨attrsWritten f.attrs, f.ident, f.ty⟩
def SVariant.written (v : SVariant Attr) : SVariant Meta :=
  ⟨attrsWritten v.attrs, v.ident, v.discr, v.fields.map SField.written⟩

mutual
def SItem.written : SItem Attr → SItem Meta
  | .fn id vis f => .fn id vis f.written
  | .struct id attrs vis ident fields => .struct id (attrsWritten attrs) vis ident (fields.map SField.written)
  | .enum id attrs vis ident variants => .enum id (attrsWritten attrs) vis ident (variants.map SVariant.written)
  | .trait id attrs vis ident fns => .trait id (attrsWritten attrs) vis ident (fns.map SFn.written)
  | .impl id attrs trait self fns => .impl id (attrsWritten attrs) trait self (fns.map SFn.written)
  | .mod id attrs vis ident items => .mod id (attrsWritten attrs) vis ident (itemsWritten items)
  | .use attrs items => .use (attrsWritten attrs) items
  | .type id attrs vis ident params target => .type id (attrsWritten attrs) vis ident params target
  | .macro id attrs path body => .macro id (attrsWritten attrs) path body
  | .other attrs => .other (attrsWritten attrs)
def itemsWritten : List (SItem Attr) → List (SItem Meta)
  | [] => []
  | i :: is => i.written :: itemsWritten is
end

def SCrate.written (c : SCrate Attr) : SCrate Meta := ⟨c.id, c.ident, c.env, c.udl, itemsWritten c.items⟩

/-! ### What the compiler keeps of it -/

def SFn.kept (o : Options) (f : SFn Attr) : Option (SFn Meta) :=
  (configured o f.attrs).map fun attrs => ⟨attrs, f.isAsync, f.ident, f.inputs, f.output⟩
def SField.kept (o : Options) (f : SField Attr) : Option (SField Meta) :=
  (configured o f.attrs).map fun attrs => ⟨attrs, f.ident, f.ty⟩
def SVariant.kept (o : Options) (v : SVariant Attr) : Option (SVariant Meta) :=
  (configured o v.attrs).map fun attrs => ⟨attrs, v.ident, v.discr, v.fields.filterMap (SField.kept o)⟩

mutual
def SItem.kept (o : Options) : SItem Attr → Option (SItem Meta)
  | .fn id vis f => (f.kept o).map (.fn id vis)
  | .struct id attrs vis ident fields =>
    (configured o attrs).map fun attrs => .struct id attrs vis ident (fields.filterMap (SField.kept o))
  | .enum id attrs vis ident variants =>
    (configured o attrs).map fun attrs => .enum id attrs vis ident (variants.filterMap (SVariant.kept o))
  | .trait id attrs vis ident fns =>
    (configured o attrs).map fun attrs => .trait id attrs vis ident (fns.filterMap (SFn.kept o))
  | .impl id attrs trait self fns =>
    (configured o attrs).map fun attrs => .impl id attrs trait self (fns.filterMap (SFn.kept o))
  | .mod id attrs vis ident items =>
    (configured o attrs).map fun attrs => .mod id attrs vis ident (itemsKept o items)
  | .use attrs items => (configured o attrs).map fun attrs => .use attrs items
  | .type id attrs vis ident params target => (configured o attrs).map fun attrs => .type id attrs vis ident params target
  | .macro id attrs path body => (configured o attrs).map fun attrs => .macro id attrs path body
  | .other attrs => (configured o attrs).map .other
def itemsKept (o : Options) : List (SItem Attr) → List (SItem Meta)
  | [] => []
  | i :: is =>
    match i.kept o with
    | some i => i :: itemsKept o is
    | none => itemsKept o is
end

/-- Each crate has options of its own, since it has features of its own. -/
def SCrate.kept (o : Nat → Options) (c : SCrate Attr) : SCrate Meta :=
  ⟨c.id, c.ident, c.env, c.udl, itemsKept (o c.id) c.items⟩

/-! ### What the code can deal with -/

def SFn.Known (o : Options) (f : SFn Attr) : Prop := ∀ a ∈ f.attrs, a.Known o
def SField.Known (o : Options) (f : SField Attr) : Prop := ∀ a ∈ f.attrs, a.Known o
def SVariant.Known (o : Options) (v : SVariant Attr) : Prop :=
  (∀ a ∈ v.attrs, a.Known o) ∧ ∀ f ∈ v.fields, f.Known o

mutual
/-- All conditions are about the target or features, or about options that are not set. Imports, aliases, macros,
structs and enums are not left out. An `impl` of a trait is not left out. -/
def SItem.Known (o : Options) : SItem Attr → Prop
  | .fn _ _ f => f.Known o
  | .struct _ attrs _ _ fields => (∀ a ∈ attrs, a.Known o) ∧ attrsActive o attrs = true ∧ ∀ f ∈ fields, f.Known o
  | .enum _ attrs _ _ variants => (∀ a ∈ attrs, a.Known o) ∧ attrsActive o attrs = true ∧ ∀ v ∈ variants, v.Known o
  | .trait _ attrs _ _ fns => (∀ a ∈ attrs, a.Known o) ∧ ∀ f ∈ fns, f.Known o
  | .impl _ attrs trait _ fns =>
    (∀ a ∈ attrs, a.Known o) ∧ (attrsActive o attrs = true ∨ trait = none) ∧ ∀ f ∈ fns, f.Known o
  | .mod _ attrs _ _ items => (∀ a ∈ attrs, a.Known o) ∧ ItemsKnown o items
  | .use attrs _ => attrsActive o attrs = true
  | .type _ attrs _ _ _ _ => attrsActive o attrs = true
  | .macro _ attrs _ _ => attrsActive o attrs = true
  | .other _ => True
def ItemsKnown (o : Options) : List (SItem Attr) → Prop
  | [] => True
  | i :: is => i.Known o ∧ ItemsKnown o is
end

mutual
/-- Items without every `impl` that is neither exported nor of a trait: the bindings do not depend on it. -/
def PItem.prune : PItem → List PItem
  | .module id ident vis items => [.module id ident vis (pruneAll items)]
  | .unresolvedImpl _ none _ => []
  | i => [i]
def pruneAll : List PItem → List PItem
  | [] => []
  | i :: is => i.prune ++ pruneAll is
end

/-- The same for all crates. -/
def pruneCrates (cs : List (Ident × PItem)) : List (Ident × List PItem) := cs.map fun c => (c.1, c.2.prune)

end Verif.Src
