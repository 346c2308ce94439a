import Verif.Src.PathsRules
import Verif.Src.PathsRepeat
import Verif.Src.Places
import Verif.Src.UseTree
/-
C61: names in Rust sources are looked up as in Rust.
-/
namespace Verif.Props.Paths
open Verif.Src

/-- The addresses on the path that was found, or the error. -/
def shown : Res RPath → Err ⊕ List Addr
  | .ok q => .inr (q.map Item.addr)
  | .error e => .inl e

/-- Resolving a path leaves a cache that the theorems below hold for. -/
theorem C61_reach {ir : Ir} (hu : ir.Unique) {c : Cache} (hc : Reach ir c) {p : RPath} (hp : Canon ir p)
    {path : Path} {ns : Ns} : Reach ir (resolveTop ir p path ns c).2 := (resolve_main hu path ns hp hc).2.1

/-! ### An example program -/

/-- ```
mod a { pub struct A; pub mod inner { pub use super::A as B; } }
mod b { pub use crate::a::*; }
use b::A;
pub struct C;
mod c { pub use crate::b::*; pub use crate::a::*; pub struct A; }
``` -/
def demoInner : Item := .module 3 "inner" .pub [.useItem 4 .pub ⟨false, ["super", "A"]⟩ "B"]
def demoA : Item := .module 1 "a" .priv [.decl 2 .record "A" .pub none false, demoInner]
def demoB : Item := .module 5 "b" .priv [.useGlob 6 .pub ⟨false, ["crate", "a"]⟩]
def demoC : Item := .module 9 "c" .priv [.useGlob 10 .pub ⟨false, ["crate", "b"]⟩,
  .useGlob 11 .pub ⟨false, ["crate", "a"]⟩, .decl 12 .record "A" .pub none false]
def demoRoot : Item := .module 0 "demo" .pub
  [demoA, demoB, .useItem 7 .priv ⟨false, ["b", "A"]⟩ "A", .decl 8 .object "C" .pub none false, demoC]
def demo : Ir := ⟨[("demo", demoRoot)]⟩

theorem demo_unique : demo.Unique := unique_of_check (by decide +kernel)
theorem demo_root : Canon demo [demoRoot] := .root (crate := "demo") rfl
theorem demo_c : Canon demo [demoRoot, demoC] :=
  .item demo_root (i := demoC) rfl (by simp [demoRoot])

/-- A cache after two lookups. -/
def demoCache : Cache := (resolveTop demo [demoRoot] ⟨false, ["b", "Missing"]⟩ .type
  (resolveTop demo [demoRoot] ⟨false, ["A"]⟩ .type {}).2).2
theorem demo_reach : Reach demo demoCache :=
  C61_reach demo_unique (C61_reach demo_unique .empty demo_root) demo_root

/-! ### C61: looking up a path ends -/

/-- Looking up any path from any place, after any other lookups, comes to an end: the calls nest no
deeper than `ir.fuel`, which the number of modules and imports fixes, however imports refer to each other. -/
theorem C61_terminates {ir : Ir} (hu : ir.Unique) {c : Cache} (hc : Reach ir c) {p : RPath} (hp : Canon ir p)
    (path : Path) (ns : Ns) : (resolveTop ir p path ns c).1 ≠ .error .fuel :=
  plain_fuel (resolve_main hu path ns hp hc).1.1

example : (resolveTop demo [demoRoot, demoC] ⟨false, ["inner", "B"]⟩ .type demoCache).1 ≠ .error .fuel :=
  C61_terminates demo_unique demo_reach demo_c _ _

/-! ### C61: what is found is right -/

/-- What is found for a path, after any other lookups, is an item that the path stands for: there are
declarations and imports in the sources that lead to it. -/
theorem C61_sound {ir : Ir} (hu : ir.Unique) {c : Cache} (hc : Reach ir c) {p : RPath} (hp : Canon ir p)
    {path : Path} {ns : Ns} {q : RPath} (h : (resolveTop ir p path ns c).1 = .ok q) :
    Canon ir q ∧ Denotes ir p path ns q :=
  (resolve_main hu path ns hp hc).1.2 q h

example : shown (resolveTop demo [demoRoot] ⟨false, ["b", "inner", "B"]⟩ .type demoCache).1
    = .inr [.item 0, .item 1, .item 2] := by decide +kernel

/-! ### C61: the order of lookups does not matter -/

/-- If following the imports behind a path comes to an end, then the answer does not depend on what was
looked up before: it is the answer without a cache and without the check for cycles. -/
theorem C61_history {ir : Ir} (hu : ir.Unique) {c : Cache} (hc : Reach ir c) {p : RPath} (hp : Canon ir p)
    {path : Path} {ns : Ns} {k : Nat} (hk : Ends ir k p path ns) :
    (resolveTop ir p path ns c).1 = resolveRef ir k p path ns :=
  (resolve_main hu path ns hp hc).2.2 k hk

/-- Two histories give the same answer. -/
theorem C61_order_partial {ir : Ir} (hu : ir.Unique) {c c' : Cache} (hc : Reach ir c) (hc' : Reach ir c')
    {p : RPath} (hp : Canon ir p) {path : Path} {ns : Ns} {k : Nat} (hk : Ends ir k p path ns) :
    (resolveTop ir p path ns c).1 = (resolveTop ir p path ns c').1 :=
  (C61_history hu hc hp hk).trans (C61_history hu hc' hp hk).symm

/-- Following imports ends in the example; five steps are enough. -/
theorem demo_ends : Ends demo 5 [demoRoot] ⟨false, ["b", "inner", "B"]⟩ .type := by
  intro h
  have h' : shown (resolveRef demo 5 [demoRoot] ⟨false, ["b", "inner", "B"]⟩ .type) = .inl .fuel := by rw [h]; rfl
  revert h'
  decide +kernel

example : (resolveTop demo [demoRoot] ⟨false, ["b", "inner", "B"]⟩ .type demoCache).1
    = (resolveTop demo [demoRoot] ⟨false, ["b", "inner", "B"]⟩ .type {}).1 :=
  C61_order_partial demo_unique demo_reach .empty demo_root demo_ends

/-- Asking for a path again gives the same answer, whatever was asked in between, and even if following
imports does not end. -/
theorem C61_repeat {ir : Ir} (hu : ir.Unique) {c c' : Cache} (hc : Reach ir c) {p : RPath} {path : Path} {ns : Ns}
    (h : Later ir (resolveTop ir p path ns c).2 c') :
    (resolveTop ir p path ns c').1 = (resolveTop ir p path ns c).1 := by
  rw [resolve_again (reach_good hu hc).2 h]

example : (resolveTop demo [demoRoot] ⟨false, ["A"]⟩ .type demoCache).1
    = (resolveTop demo [demoRoot] ⟨false, ["A"]⟩ .type {}).1 :=
  C61_repeat demo_unique .empty (later_run .refl)

/-- ```
mod m1 { pub use crate::m2::*; pub use crate::m3::*; }
mod m2 { pub use crate::m1::*; }
mod m3 { pub struct A; }
``` -/
def cycRoot : Item := .module 0 "cyc" .pub
  [.module 1 "m1" .priv [.useGlob 2 .pub ⟨false, ["crate", "m2"]⟩, .useGlob 3 .pub ⟨false, ["crate", "m3"]⟩],
   .module 4 "m2" .priv [.useGlob 5 .pub ⟨false, ["crate", "m1"]⟩],
   .module 6 "m3" .priv [.decl 7 .record "A" .pub none false]]
def cyc : Ir := ⟨[("cyc", cycRoot)]⟩

/-- The order does matter if glob imports form a cycle: `m2::A` is found at first, but not after `m1::A`
has been looked up. -/
theorem C61_order_broken : cyc.Unique ∧ ∃ c c' : Cache, Reach cyc c ∧ Reach cyc c' ∧
    shown (resolveTop cyc [cycRoot] ⟨false, ["m2", "A"]⟩ .type c).1 = .inr [.item 0, .item 6, .item 7] ∧
    shown (resolveTop cyc [cycRoot] ⟨false, ["m2", "A"]⟩ .type c').1 = .inl .notFound :=
  ⟨unique_of_check (by decide +kernel), {}, (resolveTop cyc [cycRoot] ⟨false, ["m1", "A"]⟩ .type {}).2,
    .empty, C61_reach (unique_of_check (by decide +kernel)) .empty (.root (crate := "cyc") rfl),
    by decide +kernel, by decide +kernel⟩

/-! ### C61: the rules -/

section
variable {ir : Ir} {p : RPath} {id : Nat} {mi : Ident} {vis : Vis} {items : List Item} {ident : Ident} {ns : Ns}

/-- A name that is declared once in a module and not imported there by name stands for the declared item,
whatever the glob imports of the module bring in, and whatever was looked up before. -/
theorem C61_declared (hu : ir.Unique) {c : Cache} (hc : Reach ir c) (hp : Canon ir p)
    (hl : p.getLast? = some (.module id mi vis items))
    (h1 : ident ≠ ⟨false, "super"⟩) (h2 : ident ≠ ⟨false, "crate"⟩) {i : Item} (hd : i.isDecl = true)
    (hs : i.isSpecial = false) (hf : items.filter (Item.introduces ident ns) = [i]) :
    (resolveTop ir p ⟨false, [ident]⟩ ns c).1 = .ok (p ++ [i]) := by
  have hall : ∀ j ∈ items, Item.introduces ident ns j = true → j = i := by
    intro j hj hi
    have := List.mem_filter.2 ⟨hj, hi⟩
    rw [hf] at this
    exact List.mem_singleton.1 this
  have hi : i.introduces ident ns = true := (List.mem_filter.1 (hf ▸ List.mem_singleton.2 rfl)).2
  have hch : childRef ir 1 p ident ns = .ok (p ++ [i]) := by
    rw [childRef_plain hl h1 h2, childPlain, eval_bind, scanItems_filter, hf, scanItems_decl hd hi]
    · rfl
    · intro j hj hji uid ty hc
      rw [hall j hj hji] at hc; subst hc; exact nomatch hd
    · intro j hj hji
      rw [hall j hj hji]; exact hs
  have := resolveRef_one (canon_ne hp) hch
  rw [C61_history hu hc hp (k := 1) (by rw [Ends, this]; exact nofun), this]

example : (resolveTop demo [demoRoot, demoC] ⟨false, ["A"]⟩ .type demoCache).1
    = .ok ([demoRoot, demoC] ++ [.decl 12 .record "A" .pub none false]) :=
  C61_declared demo_unique demo_reach demo_c rfl (by decide) (by decide) rfl rfl rfl

/-- A name that is declared twice in a module is an error. -/
theorem C61_declared_twice (hu : ir.Unique) {c : Cache} (hc : Reach ir c) (hp : Canon ir p)
    (hl : p.getLast? = some (.module id mi vis items))
    (h1 : ident ≠ ⟨false, "super"⟩) (h2 : ident ≠ ⟨false, "crate"⟩) {i j : Item} (hd : i.isDecl = true)
    (hs : i.isSpecial = false) (hd' : j.isDecl = true)
    (hs' : j.isSpecial = false) (hf : items.filter (Item.introduces ident ns) = [i, j]) :
    (resolveTop ir p ⟨false, [ident]⟩ ns c).1 = .error .nameConflict := by
  have hall : ∀ x ∈ items, Item.introduces ident ns x = true → x = i ∨ x = j := by
    intro x hx hi
    have := List.mem_filter.2 ⟨hx, hi⟩
    rw [hf] at this
    simpa using this
  have hi : i.introduces ident ns = true := (List.mem_filter.1 (hf ▸ List.mem_cons_self)).2
  have hj : j.introduces ident ns = true := (List.mem_filter.1 (hf ▸ List.mem_cons_of_mem _ List.mem_cons_self)).2
  have hch : childRef ir 1 p ident ns = .error .nameConflict := by
    rw [childRef_plain hl h1 h2, childPlain, eval_bind, scanItems_filter, hf, scanItems_decl hd hi,
      scanItems_decl_conflict hd' hj, module_err hl]
    · rfl
    · intro x hx hxi uid ty hc
      rcases hall x hx hxi with rfl | rfl
      · subst hc; exact nomatch hd
      · subst hc; exact nomatch hd'
    · intro x hx hxi
      rcases hall x hx hxi with rfl | rfl
      · exact hs
      · exact hs'
  have := resolveRef_one_err (canon_ne hp) (by decide) hch
  rw [C61_history hu hc hp (k := 1) (by rw [Ends, this]; exact nofun), this]

def twiceRoot : Item := .module 0 "twice" .pub [.decl 1 .record "A" .pub none false, .decl 2 .enum "A" .pub none false]
example : (resolveTop ⟨[("twice", twiceRoot)]⟩ [twiceRoot] ⟨false, ["A"]⟩ .type {}).1 = .error .nameConflict :=
  C61_declared_twice (unique_of_check (by decide +kernel)) .empty (.root (crate := "twice") rfl) rfl (by decide)
    (by decide) (i := .decl 1 .record "A" .pub none false) (j := .decl 2 .enum "A" .pub none false) rfl rfl rfl rfl rfl

/-- A name that is imported once by name, and not declared, stands for what the path of the import stands
for, whatever the glob imports of the module bring in. -/
theorem C61_imported (hu : ir.Unique) {c : Cache} (hc : Reach ir c) (hp : Canon ir p)
    (hl : p.getLast? = some (.module id mi vis items))
    (h1 : ident ≠ ⟨false, "super"⟩) (h2 : ident ≠ ⟨false, "crate"⟩) {uid : Nat} {uvis : Vis} {path : Path}
    (hf : items.filter (Item.introduces ident ns) = [.useItem uid uvis path ident.unraw])
    {k : Nat} {q : RPath} {last : Item} (hq : resolveRef ir k p path ns = .ok q) (hlast : q.getLast? = some last)
    (hm : ns.matches last = true) :
    (resolveTop ir p ⟨false, [ident]⟩ ns c).1 = .ok q := by
  have hall : ∀ j ∈ items, Item.introduces ident ns j = true → j = .useItem uid uvis path ident.unraw := by
    intro j hj hi
    have := List.mem_filter.2 ⟨hj, hi⟩
    rw [hf] at this
    exact List.mem_singleton.1 this
  have hch : childRef ir (k + 1) p ident ns = .ok q := by
    rw [childRef_plain hl h1 h2, childPlain, eval_bind, scanItems_filter, hf]
    · have hscan : (scanItems ir p ident.unraw ns none [.useItem uid uvis path ident.unraw]).eval (childRef ir k)
          = .ok (some (.use q)) := by
        rw [scanItems.eq_def]
        simp only [Item.ident, beq_self_eq_true, if_true]
        rw [eval_bind]
        have : (resolve ir p path ns).eval (childRef ir k) = .ok q := hq
        rw [this]
        simp only [addUse, hlast, hm, if_true]
        rfl
      rw [hscan]
      rfl
    · intro j hj hji uid' ty hc
      rw [hall j hj hji] at hc; exact nomatch hc
    · intro j hj hji
      rw [hall j hj hji]; rfl
  have := resolveRef_one (canon_ne hp) hch
  rw [C61_history hu hc hp (k := k + 1) (by rw [Ends, this]; exact nofun), this]

theorem demo_import : resolveRef demo 4 [demoRoot] ⟨false, ["b", "A"]⟩ .type
    = .ok [demoRoot, demoA, .decl 2 .record "A" .pub none false] := by rfl
example : (resolveTop demo [demoRoot] ⟨false, ["A"]⟩ .type demoCache).1
    = .ok [demoRoot, demoA, .decl 2 .record "A" .pub none false] :=
  C61_imported demo_unique demo_reach demo_root rfl (by decide) (by decide) rfl demo_import rfl rfl

/-- The answers for the glob imports of a module. -/
def globAnswers (ir : Ir) (k : Nat) (p : RPath) (ident : Ident) (ns : Ns) (items : List Item) : List (Res RPath) :=
  (globs items).map fun g => resolveRef ir k p ⟨g.leading, g.segs ++ [ident.unraw]⟩ ns

/-- A name that a module neither declares nor imports by name stands for what its glob imports bring in,
if they agree. -/
theorem C61_glob (hu : ir.Unique) {c : Cache} (hc : Reach ir c) (hp : Canon ir p)
    (hl : p.getLast? = some (.module id mi vis items))
    (h1 : ident ≠ ⟨false, "super"⟩) (h2 : ident ≠ ⟨false, "crate"⟩)
    (hf : items.filter (Item.introduces ident ns) = []) {k : Nat} {q : RPath}
    (hq : .ok q ∈ globAnswers ir k p ident ns items)
    (hall : ∀ r ∈ globAnswers ir k p ident ns items, r = .ok q ∨ r = .error .notFound) :
    (resolveTop ir p ⟨false, [ident]⟩ ns c).1 = .ok q := by
  have hnone : ∀ j ∈ items, ¬ Item.introduces ident ns j = true := by
    intro j hj hi
    have := List.mem_filter.2 ⟨hj, hi⟩
    rw [hf] at this
    exact nomatch this
  have hch : childRef ir (k + 1) p ident ns = .ok q := by
    rw [childRef_plain hl h1 h2 (fun j hj hji => absurd hji (hnone j hj)) (fun j hj hji => absurd hji (hnone j hj)),
      childPlain, eval_bind, scanItems_filter, hf]
    show Prog.eval _ ((scanGlobs ir p ident.unraw ns none (globs items)).bind _) = _
    obtain ⟨r, hr, _, hr'⟩ := scanGlobs_agree (p := p) (ident := ident) (ns := ns) (k := k) (q := q)
      (gs := globs items) (found := none) (.inl rfl)
      (fun g hg => (hall _ (List.mem_map.2 ⟨g, hg, rfl⟩)).symm)
    obtain ⟨g, hg, he⟩ := List.mem_map.1 hq
    rw [eval_bind, hr, hr' g hg he]
    rfl
  have := resolveRef_one (canon_ne hp) hch
  rw [C61_history hu hc hp (k := k + 1) (by rw [Ends, this]; exact nofun), this]

theorem demo_glob : globAnswers demo 4 [demoRoot, demoC] "inner" .type
    (match demoC with | .module _ _ _ items => items | _ => [])
    = [.ok [demoRoot, demoA, demoInner], .ok [demoRoot, demoA, demoInner]] := by rfl
example : (resolveTop demo [demoRoot, demoC] ⟨false, ["inner"]⟩ .type demoCache).1 = .ok [demoRoot, demoA, demoInner] :=
  C61_glob demo_unique demo_reach demo_c rfl (by decide) (by decide) rfl (k := 4)
    (by show _ ∈ globAnswers demo 4 [demoRoot, demoC] "inner" .type
          (match demoC with | .module _ _ _ items => items | _ => [])
        rw [demo_glob]; exact .head _)
    (by show ∀ r ∈ globAnswers demo 4 [demoRoot, demoC] "inner" .type
          (match demoC with | .module _ _ _ items => items | _ => []), _
        rw [demo_glob]; simp)

/-- Two glob imports that bring in different items for one name are an error. -/
theorem C61_glob_conflict (hu : ir.Unique) {c : Cache} (hc : Reach ir c) (hp : Canon ir p)
    (hl : p.getLast? = some (.module id mi vis items))
    (h1 : ident ≠ ⟨false, "super"⟩) (h2 : ident ≠ ⟨false, "crate"⟩)
    (hf : items.filter (Item.introduces ident ns) = []) {k : Nat} {q q' : RPath}
    (hans : globAnswers ir k p ident ns items = [.ok q, .ok q'])
    (hne : q.getLast?.map Item.addr ≠ q'.getLast?.map Item.addr) :
    (resolveTop ir p ⟨false, [ident]⟩ ns c).1 = .error .nameConflict := by
  have hnone : ∀ j ∈ items, ¬ Item.introduces ident ns j = true := by
    intro j hj hi
    have := List.mem_filter.2 ⟨hj, hi⟩
    rw [hf] at this
    exact nomatch this
  have hch : childRef ir (k + 1) p ident ns = .error .nameConflict := by
    rw [childRef_plain hl h1 h2 (fun j hj hji => absurd hji (hnone j hj)) (fun j hj hji => absurd hji (hnone j hj)),
      childPlain, eval_bind, scanItems_filter, hf]
    show Prog.eval _ ((scanGlobs ir p ident.unraw ns none (globs items)).bind _) = _
    unfold globAnswers at hans
    obtain ⟨g, gs, hgs, e1, h'⟩ := List.map_eq_cons_iff.1 hans
    obtain ⟨g', gs', rfl, e2, h''⟩ := List.map_eq_cons_iff.1 h'
    rw [List.map_eq_nil_iff] at h''
    subst h''
    rw [hgs]
    have e1 : (resolve ir p ⟨g.leading, g.segs ++ [ident.unraw]⟩ ns).eval (childRef ir k) = .ok q := e1
    have e2 : (resolve ir p ⟨g'.leading, g'.segs ++ [ident.unraw]⟩ ns).eval (childRef ir k) = .ok q' := e2
    have hs : RPath.same q q' = false := by simpa [RPath.same] using hne
    have hscan : (scanGlobs ir p ident.unraw ns none [g, g']).eval (childRef ir k) = .error .nameConflict := by
      rw [scanGlobs, eval_bind, e1]
      dsimp only [addGlob]
      rw [scanGlobs, eval_bind, e2]
      simp only [addGlob, hs, Bool.false_eq_true, if_false, module_err hl]
      rfl
    rw [eval_bind, hscan]
    rfl
  have := resolveRef_one_err (canon_ne hp) (by decide) hch
  rw [C61_history hu hc hp (k := k + 1) (by rw [Ends, this]; exact nofun), this]

def ambiRoot : Item := .module 0 "ambi" .pub
  [.module 1 "a" .priv [.decl 2 .record "A" .pub none false], .module 3 "b" .priv [.decl 4 .record "A" .pub none false],
   .useGlob 5 .priv ⟨false, ["a"]⟩, .useGlob 6 .priv ⟨false, ["b"]⟩]
def ambi : Ir := ⟨[("ambi", ambiRoot)]⟩
example : (resolveTop ambi [ambiRoot] ⟨false, ["A"]⟩ .type {}).1 = .error .nameConflict :=
  C61_glob_conflict (unique_of_check (by decide +kernel)) .empty (.root (crate := "ambi") rfl) rfl (by decide)
    (by decide) rfl (k := 3)
    (q := [ambiRoot, .module 1 "a" .priv [.decl 2 .record "A" .pub none false], .decl 2 .record "A" .pub none false])
    (q' := [ambiRoot, .module 3 "b" .priv [.decl 4 .record "A" .pub none false], .decl 4 .record "A" .pub none false])
    rfl (by decide)

end

/-! ### C61: where the lookup differs from Rust -/

/-- `struct A;` and the path `self::A`: not found. -/
def selfRoot : Item := .module 0 "s" .pub [.decl 1 .record "A" .pub none false,
  .module 2 "inner" .priv [.decl 3 .record "B" .pub none false], .useItem 4 .pub ⟨false, ["self", "inner", "B"]⟩ "B"]
theorem C61_self_broken : (⟨[("s", selfRoot)]⟩ : Ir).Unique ∧
    shown (resolveTop ⟨[("s", selfRoot)]⟩ [selfRoot] ⟨false, ["A"]⟩ .type {}).1 = .inr [.item 0, .item 1] ∧
    shown (resolveTop ⟨[("s", selfRoot)]⟩ [selfRoot] ⟨false, ["self", "A"]⟩ .type {}).1 = .inl .notFound ∧
    shown (resolveTop ⟨[("s", selfRoot)]⟩ [selfRoot] ⟨false, ["B"]⟩ .type {}).1 = .inl .notFound :=
  ⟨unique_of_check (by decide +kernel), by decide +kernel, by decide +kernel, by decide +kernel⟩

/-- `mod inner { pub struct r#final; }  use inner::r#final;`: the import is not found, the item itself
is. -/
def rawRoot : Item := .module 0 "s" .pub [.module 2 "inner" .priv [.decl 3 .record ⟨true, "final"⟩ .pub none false],
  .useItem 4 .priv ⟨false, ["inner", ⟨true, "final"⟩]⟩ ⟨true, "final"⟩]
theorem C61_raw_broken : (⟨[("s", rawRoot)]⟩ : Ir).Unique ∧
    shown (resolveTop ⟨[("s", rawRoot)]⟩ [rawRoot] ⟨false, ["inner", ⟨true, "final"⟩]⟩ .type {}).1
      = .inr [.item 0, .item 2, .item 3] ∧
    shown (resolveTop ⟨[("s", rawRoot)]⟩ [rawRoot] ⟨false, [⟨true, "final"⟩]⟩ .type {}).1 = .inl .notFound :=
  ⟨unique_of_check (by decide +kernel), by decide +kernel, by decide +kernel⟩

/-- `mod a { struct A; }  mod b { pub struct A; }  use a::*;  use b::*;`: Rust does not import the private
`a::A`, so `A` is `b::A`. Here it is an error. -/
def privRoot : Item := .module 0 "s" .pub
  [.module 1 "a" .priv [.decl 2 .record "A" .priv none false], .module 3 "b" .priv [.decl 4 .record "A" .pub none false],
   .useGlob 5 .priv ⟨false, ["a"]⟩, .useGlob 6 .priv ⟨false, ["b"]⟩]
theorem C61_private_broken : (⟨[("s", privRoot)]⟩ : Ir).Unique ∧
    shown (resolveTop ⟨[("s", privRoot)]⟩ [privRoot] ⟨false, ["A"]⟩ .type {}).1 = .inl .nameConflict :=
  ⟨unique_of_check (by decide +kernel), by decide +kernel⟩

/-- `use std::string::String;` and the path `String::Item`: the lookup panics. -/
def panicRoot : Item := .module 0 "s" .pub [.useItem 1 .priv ⟨false, ["std", "string", "String"]⟩ "String"]
theorem C61_builtin_panics : (⟨[("s", panicRoot)]⟩ : Ir).Unique ∧
    shown (resolveTop ⟨[("s", panicRoot)]⟩ [panicRoot] ⟨false, ["String", "Item"]⟩ .type {}).1 = .inl .panic :=
  ⟨unique_of_check (by decide +kernel), by decide +kernel⟩

/-! ### C61: use statements -/

/-- A use statement gives exactly the imports at its leaves, if no `self` is renamed. -/
theorem C61_use {t : UseTree} {is : List Import} (hn : t.noRenamedSelf = true) (h : parseUse [] t = some is)
    (i : Import) : i ∈ is ↔ Leaf t [] i := parseUse_mem hn h

/-- A use statement is refused only for a `self` without a path before it. -/
theorem C61_use_accepted {ident : Ident} {t : UseTree} : parseUse [] (.path ident t) ≠ none := by
  rw [parseUse]; exact parseUse_none (by simp)

/-- `use a::{self, b::{C, D as E}, f::*};` -/
def demoUse : UseTree := .path "a" (.group [.name "self", .path "b" (.group [.name "C", .rename "D" "E"]), .path "f" .glob])
example : demoUse.noRenamedSelf = true ∧ parseUse [] demoUse = some
    [.item ["a"] "a", .item ["a", "b", "C"] "C", .item ["a", "b", "D"] "E", .glob ["a", "f"]] := by decide +kernel

/-- `use a::{self as b};` should import `a` as `b`; the import that is made has the path `a::self`. -/
theorem C61_use_self_broken : ∃ t is, parseUse [] t = some is ∧ ∃ i, Leaf t [] i ∧ i ∉ is :=
  ⟨.path "a" (.group [.rename "self" "b"]), [.item ["a", "self"] "b"], by rfl, .item ["a"] "b",
    .path (.group (.head _) .renameSelf), by decide⟩

end Verif.Props.Paths
