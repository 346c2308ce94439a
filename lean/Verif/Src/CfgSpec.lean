import Verif.Src.Cfg
/-
What conditional compilation means in Rust: the Rust reference, "Conditional compilation".
-/
namespace Verif.Src
open Verif.Meta

/-- A configuration predicate. An option is a name, or a name with a value. -/
inductive Pred where
  | all (ps : List Pred)
  | any (ps : List Pred)
  | not (p : Pred)
  | option (name : String) (value : Option String)

/-- The options that the compiler has set. -/
abbrev Options := String → Option String → Bool

mutual
/-- When a predicate is true. -/
def Pred.holds (o : Options) : Pred → Bool
  | .all ps => allHold o ps
  | .any ps => anyHolds o ps
  | .not p => !p.holds o
  | .option n v => o n v
def allHold (o : Options) : List Pred → Bool
  | [] => true
  | p :: ps => p.holds o && allHold o ps
def anyHolds (o : Options) : List Pred → Bool
  | [] => false
  | p :: ps => p.holds o || anyHolds o ps
end

/-- A path of one identifier. -/
def word (s : String) : Path := ⟨false, [⟨false, s⟩]⟩

mutual
/-- How a predicate is written. -/
def Pred.written : Pred → Meta
  | .all ps => .list (word "all") (some (writtenAll ps))
  | .any ps => .list (word "any") (some (writtenAll ps))
  | .not p => .list (word "not") (some [p.written])
  | .option n none => .path (word n)
  | .option n (some v) => .nameValue (word n) (.str v)
def writtenAll : List Pred → List Meta
  | [] => []
  | p :: ps => p.written :: writtenAll ps
end

/-- Attributes: `#[cfg(..)]`, `#[cfg_attr(.., .., ..)]` or another one. -/
inductive Attr where
  | cfg (p : Pred)
  | cfgAttr (p : Pred) (attrs : List Attr)
  | plain (m : Meta)

mutual
/-- How an attribute is written. -/
def Attr.written : Attr → Meta
  | .cfg p => .list (word "cfg") (some [p.written])
  | .cfgAttr p as => .list (word "cfg_attr") (some (p.written :: attrsWritten as))
  | .plain m => m
def attrsWritten : List Attr → List Meta
  | [] => []
  | a :: as => a.written :: attrsWritten as
end

mutual
/-- Whether an item with the attribute is kept. A `cfg_attr` whose predicate is true stands for the attributes
in it. -/
def Attr.active (o : Options) : Attr → Bool
  | .cfg p => p.holds o
  | .cfgAttr p as => if p.holds o then attrsActive o as else true
  | .plain _ => true
def attrsActive (o : Options) : List Attr → Bool
  | [] => true
  | a :: as => a.active o && attrsActive o as
end

mutual
/-- The attributes that remain. -/
def Attr.expand (o : Options) : Attr → List Meta
  | .cfg _ => []
  | .cfgAttr p as => if p.holds o then attrsExpand o as else []
  | .plain m => [m]
def attrsExpand (o : Options) : List Attr → List Meta
  | [] => []
  | a :: as => a.expand o ++ attrsExpand o as
end

/-- What the compiler makes of the attributes of an item: nothing if the item is left out. -/
def configured (o : Options) (as : List Attr) : Option (List Meta) :=
  if attrsActive o as then some (attrsExpand o as) else none

/-- The options that depend on the target and on the features of the crate. -/
structure Describes (e : CompileEnv) (o : Options) : Prop where
  feature : ∀ v, o "feature" (some v) = decide (v ∈ e.features)
  arch : ∀ v, o "target_arch" (some v) = decide (v = e.arch)
  os : ∀ v, o "target_os" (some v) = decide (v = e.os)
  env : ∀ v, o "target_env" (some v) = decide (v = e.env)
  vendor : ∀ v, o "target_vendor" (some v) = decide (v = e.vendor)
  endian : ∀ v, o "target_endian" (some v) =
    decide ((v = "big" ∧ e.endian = some true) ∨ (v = "little" ∧ e.endian = some false))
  pointerWidth : ∀ v, o "target_pointer_width" (some v) = decide (∃ n, e.pointerWidth = some n ∧ v = toString n)

/-- The names of these options. -/
def targetNames : List String :=
  ["feature", "target_arch", "target_os", "target_env", "target_vendor", "target_endian", "target_pointer_width"]

mutual
/-- A predicate about these options only. Other options may occur if they are not set; words of the predicate
language are not options. -/
def Pred.Known (o : Options) : Pred → Prop
  | .all ps | .any ps => PredsKnown o ps
  | .not p => p.Known o
  | .option n v =>
    (n ∈ targetNames ∧ v ≠ none) ∨
    (n ∉ targetNames ∧ n ∉ ["all", "any", "not"] ∧ o n v = false)
def PredsKnown (o : Options) : List Pred → Prop
  | [] => True
  | p :: ps => p.Known o ∧ PredsKnown o ps
end

/-- Attributes with such predicates, and `cfg_attr` only with attributes that are not again conditions. -/
def Attr.Known (o : Options) : Attr → Prop
  | .cfg p => p.Known o
  | .cfgAttr p as => p.Known o ∧ ∀ a ∈ as, ∃ m, a = .plain m ∧ ¬ m.pathOf.isIdent "cfg" ∧ ¬ m.pathOf.isIdent "cfg_attr"
  | .plain m => ¬ m.pathOf.isIdent "cfg" ∧ ¬ m.pathOf.isIdent "cfg_attr"

end Verif.Src
