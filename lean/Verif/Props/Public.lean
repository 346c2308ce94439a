import Verif.Src.PublicMain
/-
C62: every exported item gets a path under which other crates can import it.
-/
namespace Verif.Props.Public
open Verif.Src

deriving instance DecidableEq for Except

/-! ### An example program -/

/-- ```
mod inner {
    #[uniffi(name = "Alpha")] pub struct A;
    pub struct B;
    pub fn f();
}
pub mod api { pub use crate::inner::A as Z; pub struct C; }
pub mod all { pub use crate::inner::*; }
``` -/
def itemA : Item := .decl 2 .record "A" .pub (some "Alpha") false
def itemB : Item := .decl 3 .record "B" .pub none false
def itemF : Item := .decl 4 .fn "f" .pub none false
def inner : Item := .module 1 "inner" .priv [itemA, itemB, itemF]
def itemC : Item := .decl 7 .enum "C" .pub none false
def api : Item := .module 5 "api" .pub [.useItem 6 .pub ⟨false, ["crate", "inner", "A"]⟩ "Z", itemC]
def all : Item := .module 8 "all" .pub [.useGlob 9 .pub ⟨false, ["crate", "inner"]⟩]
def root : Item := .module 0 "demo" .pub [inner, api, all]
def demo : Ir := ⟨[("demo", root)]⟩

theorem demo_unique : demo.Unique := unique_of_check (by decide +kernel)
theorem demo_root : Canon demo [root] := .root (crate := "demo") rfl
theorem demo_A : Canon demo [root, inner, itemA] :=
  .item (.item demo_root (i := inner) rfl (by simp [root])) (i := itemA) rfl (by simp)
theorem demo_B : Canon demo [root, inner, itemB] :=
  .item (.item demo_root (i := inner) rfl (by simp [root])) (i := itemB) rfl (by simp)
theorem demo_C : Canon demo [root, api, itemC] :=
  .item (.item demo_root (i := api) rfl (by simp [root])) (i := itemC) rfl (by simp)
theorem demo_api : Public demo [root, api] := .child (.root (crate := "demo") rfl) rfl (by simp [root, api])
theorem demo_all : Public demo [root, all] := .child (.root (crate := "demo") rfl) rfl (by simp [root, all])
theorem demo_only : OnlyPath.check demo = true := by decide +kernel
theorem demo_clean : Clean demo 4 .type := clean_of_check (by decide +kernel)

/-- A cache after a lookup. -/
def demoCache : FullCache := (publicPathTop demo [root, inner, itemA] {}).2
theorem demo_reach : FullReach demo demoCache := .publicPath .empty demo_A rfl

section
variable {ir : Ir} {c : FullCache} {p : RPath}

/-! ### C62: the search ends -/

/-- Looking for a public path of any item, after any other lookups, comes to an end, however modules import
each other. -/
theorem C62_terminates (hu : ir.Unique) (hc : FullReach ir c) (hp : Canon ir p) :
    (publicPathTop ir p c).1 ≠ .error .fuel := by
  intro h
  rcases publicPathTop_plain hu hp hc h with h | h <;> exact nomatch h

example : (publicPathTop demo [root, inner, itemB] demoCache).1 ≠ .error .fuel := C62_terminates demo_unique demo_reach demo_B

/-! ### C62: what is found is right -/

/-- The path that is found names a public module of the crate of the item, and in this module the name to
import leads to the item. -/
theorem C62_importable (hu : ir.Unique) (hc : FullReach ir c) (hp : Canon ir p)
    (ho : OnlyPath ir p) {n : ItemNames} (h : (publicPathTop ir p c).1 = .ok n) :
    ∃ target m, p.getLast? = some target ∧ Public ir m ∧ m.head? = p.head? ∧ n.modulePath = pathString m ∧
      Exports ir target.addr m n.importName := by
  obtain ⟨r, hr, hc'⟩ := publicPathTop_ok hu hp hc ho
  rw [h] at hc'
  rcases hc' with rfl | ⟨_, _, h'⟩
  · obtain ⟨t, m, h1, h2, h3, h4, _, h5⟩ := hr.found n rfl
    exact ⟨t, m, h1, h2, h3, h4, h5⟩
  · exact nomatch h'

/-- The name for the bindings is the one in the attributes of the item, or else that of the declaration,
not that of an import. -/
theorem C62_name (hu : ir.Unique) (hc : FullReach ir c) (hp : Canon ir p)
    (ho : OnlyPath ir p) {n : ItemNames} (h : (publicPathTop ir p c).1 = .ok n) :
    ∃ target ident, p.getLast? = some target ∧ target.ident = some ident ∧
      n.name = target.nameFromAttrs.getD ident.show := by
  obtain ⟨r, hr, hc'⟩ := publicPathTop_ok hu hp hc ho
  rw [h] at hc'
  rcases hc' with rfl | ⟨_, _, h'⟩
  · obtain ⟨t, m, h1, _, _, _, ⟨ident, h5, h6⟩, _⟩ := hr.found n rfl
    exact ⟨t, ident, h1, h5, h6⟩
  · exact nomatch h'

example : OnlyPath demo [root, inner, itemA] := only_of_check demo_only demo_A rfl
example : (publicPathTop demo [root, inner, itemA] {}).1 = .ok ⟨"demo::api", "Alpha", some "Z"⟩ ∧
    (publicPathTop demo [root, inner, itemB] demoCache).1 = .ok ⟨"demo::all", "B", none⟩ ∧
    (publicPathTop demo [root, api, itemC] demoCache).1 = .ok ⟨"demo::api", "C", none⟩ := by decide +kernel

/-! ### C62: what can be imported is found -/

/-- A type that some public module of its crate leads to is found, if the `pub use` statements of the
program do not lead to errors. -/
theorem C62_complete_partial (hu : ir.Unique) (hc : FullReach ir c) (hp : Canon ir p) (hd : RPath.isDecl p = true)
    (ho : OnlyPath ir p) {target : Item} (ht : p.getLast? = some target) (hns : target.searchNs = .type) {k k' : Nat}
    (hk : Clean ir k .type) {m : RPath} (hm : Public ir m) (hh : m.head? = p.head?) (hl : Leads ir k' target m) :
    ∃ n, (publicPathTop ir p c).1 = .ok n := by
  obtain ⟨r, hr, hc'⟩ := publicPathTop_ok hu hp hc ho
  cases r with
  | ok n =>
    rcases hc' with h | ⟨_, h, _⟩
    · exact ⟨n, h⟩
    · exact nomatch h
  | error e =>
    have := hr.clean (isDecl_length hd) k target ht (hns ▸ hk) (isDecl_ident hd ht) e rfl
    subst this
    obtain ⟨S, hS, hpub⟩ := hr.lost rfl target ht
    obtain ⟨id, mi, vis, items, hml⟩ := public_module hm
    exact (leads_lost hu hS hns hl (public_canon hm) id mi vis items hml (hpub m hm hh id mi vis items hml)).elim

/-- The `pub use` of `inner` leads to `B`. -/
theorem demo_leads : Leads demo 4 itemB [root, all] :=
  .glob (q := [root, inner]) rfl (.head _) (by rfl) (.declared (i := itemB) rfl (by simp) rfl)
example : ∃ n, (publicPathTop demo [root, inner, itemB] demoCache).1 = .ok n :=
  C62_complete_partial demo_unique demo_reach demo_B rfl (only_of_check demo_only demo_B rfl) rfl rfl demo_clean
    demo_all rfl demo_leads

/-- Also a function that a public module declares, or imports by name, is found. -/
theorem C62_direct (hu : ir.Unique) (hc : FullReach ir c) (hp : Canon ir p) (hd : RPath.isDecl p = true)
    (ho : OnlyPath ir p) {target : Item} (ht : p.getLast? = some target) {k k' : Nat}
    (hk : Clean ir k target.searchNs) {m : RPath} (hm : Public ir m) (hh : m.head? = p.head?)
    {id mi vis items} (hml : m.getLast? = some (.module id mi vis items))
    (h : (∃ i ∈ items, i.addr = target.addr) ∨ ∃ uid path ident q, .useItem uid .pub path ident ∈ items ∧
      resolveRef ir k' m path target.searchNs = .ok q ∧ q.getLast?.map Item.addr = some target.addr) :
    ∃ n, (publicPathTop ir p c).1 = .ok n := by
  obtain ⟨r, hr, hc'⟩ := publicPathTop_ok hu hp hc ho
  cases r with
  | ok n =>
    rcases hc' with h | ⟨_, h, _⟩
    · exact ⟨n, h⟩
    · exact nomatch h
  | error e =>
    have := hr.clean (isDecl_length hd) k target ht hk (isDecl_ident hd ht) e rfl
    subst this
    obtain ⟨S, hS, hpub⟩ := hr.lost rfl target ht
    have hl := hS id (hpub m hm hh id mi vis items hml) m mi vis items (public_canon hm) hml
    rcases h with ⟨i, hi, he⟩ | ⟨uid, path, ident, q, hi, hq, he⟩
    · exact ((hl i hi).1 he).elim
    · exact ((hl _ hi).2.1 _ _ _ rfl _ _ hq he).elim

/-- `mod inner { pub fn f(); }  pub use inner::f;` -/
def fnItem : Item := .decl 2 .fn "f" .pub none false
def fnInner : Item := .module 1 "inner" .priv [fnItem]
def fnRoot : Item := .module 0 "fns" .pub [fnInner, .useItem 3 .pub ⟨false, ["inner", "f"]⟩ "f"]
def fns : Ir := ⟨[("fns", fnRoot)]⟩
theorem fns_f : Canon fns [fnRoot, fnInner, fnItem] :=
  .item (.item (.root (crate := "fns") rfl) (i := fnInner) rfl (by simp)) (i := fnItem) rfl (by simp)
theorem fns_use : resolveRef fns 3 [fnRoot] ⟨false, ["inner", "f"]⟩ .value = .ok [fnRoot, fnInner, fnItem] := by rfl
example : ∃ n, (publicPathTop fns [fnRoot, fnInner, fnItem] {}).1 = .ok n :=
  C62_direct (unique_of_check (by decide +kernel)) .empty fns_f rfl (only_of_check (by decide +kernel) fns_f rfl) rfl
    (k := 3) (clean_of_check (by decide +kernel)) (m := [fnRoot]) (.root (crate := "fns") rfl) rfl rfl
    (.inr ⟨3, _, _, _, .tail _ (.head _), fns_use, rfl⟩)

/-! ### C62: asking again -/

/-- Once a path was found for an item, every later lookup gives the same. -/
theorem C62_repeat {n : ItemNames} (h : (publicPathTop ir p c).1 = .ok n) {c' : FullCache}
    (hl : FullLater ir (publicPathTop ir p c).2 c') : (publicPathTop ir p c').1 = .ok n :=
  publicPath_get (get_later (get_after h) hl)

example : (publicPathTop demo [root, inner, itemA] (publicPathTop demo [root, inner, itemB] demoCache).2).1
    = .ok ⟨"demo::api", "Alpha", some "Z"⟩ :=
  C62_repeat (c := {}) (by decide +kernel) (.publicPath .refl)

end

/-! ### C62: where the search fails -/

/-- `mod inner { pub fn f(); }  pub use inner::*;`: other crates can import `f`, but no path is found. -/
def globRoot : Item := .module 0 "fns" .pub [fnInner, .useGlob 3 .pub ⟨false, ["inner"]⟩]
def globFns : Ir := ⟨[("fns", globRoot)]⟩
theorem C62_function_glob_broken : globFns.Unique ∧ Public globFns [globRoot] ∧ Leads globFns 3 fnItem [globRoot] ∧
    (publicPathTop globFns [globRoot, fnInner, fnItem] {}).1 = .error .noPubPath :=
  ⟨unique_of_check (by decide +kernel), .root (crate := "fns") rfl,
    .glob (q := [globRoot, fnInner]) rfl (.tail _ (.head _)) (by rfl) (.declared (i := fnItem) rfl (by simp) rfl),
    by decide +kernel⟩

/-- `pub mod a { pub fn g(); }  pub fn a();  pub use a::*;`: the import of everything in the module `a` is
looked up as if it were the function `a`. No path is found for `g`, although the module is public. -/
def clashG : Item := .decl 2 .fn "g" .pub none false
def clashMod : Item := .module 1 "a" .pub [clashG]
def clashRoot : Item := .module 0 "fns" .pub
  [clashMod, .decl 3 .fn "a" .pub none false, .useGlob 4 .pub ⟨false, ["a"]⟩]
def clash : Ir := ⟨[("fns", clashRoot)]⟩
theorem C62_function_module_broken : clash.Unique ∧ Public clash [clashRoot, clashMod] ∧
    (publicPathTop clash [clashRoot, clashMod, clashG] {}).1 = .error .noPubPath :=
  ⟨unique_of_check (by decide +kernel), .child (.root (crate := "fns") rfl) rfl (.head _), by decide +kernel⟩

/-- `pub mod api { struct C; }`: a path is found for a private item. -/
def privC : Item := .decl 2 .record "C" .priv none false
def privApi : Item := .module 1 "api" .pub [privC]
def privRoot : Item := .module 0 "p" .pub [privApi]
theorem C62_private_broken : (⟨[("p", privRoot)]⟩ : Ir).Unique ∧ privC.vis = .priv ∧
    (publicPathTop ⟨[("p", privRoot)]⟩ [privRoot, privApi, privC] {}).1 = .ok ⟨"p::api", "C", none⟩ :=
  ⟨unique_of_check (by decide +kernel), rfl, by decide +kernel⟩

/-- `mod inner { pub struct B; }  pub mod all { pub use crate::inner::*; pub struct B; }`: the path that is
found for `inner::B` leads to `all::B`. -/
def shadowed : Item := .decl 2 .record "B" .pub none false
def shadowInner : Item := .module 1 "inner" .priv [shadowed]
def shadowRoot : Item := .module 0 "p" .pub [shadowInner,
  .module 3 "all" .pub [.useGlob 4 .pub ⟨false, ["crate", "inner"]⟩, .decl 5 .record "B" .pub none false]]
def shadow : Ir := ⟨[("p", shadowRoot)]⟩
theorem C62_shadow_broken : shadow.Unique ∧
    (publicPathTop shadow [shadowRoot, shadowInner, shadowed] {}).1 = .ok ⟨"p::all", "B", none⟩ ∧
    (match (resolveTop shadow [shadowRoot] ⟨true, ["p", "all", "B"]⟩ .type {}).1 with
      | .ok q => q.map Item.addr
      | .error _ => []) = [.item 0, .item 3, .item 5] :=
  ⟨unique_of_check (by decide +kernel), by decide +kernel, by decide +kernel⟩

/-- `#[uniffi(name = "Rec")] pub struct a {}  #[uniffi::export(name = "func")] pub fn a();`: the type and the
function have the same path. After the type was looked up, the function gets the name of the type. -/
def twinT : Item := .decl 1 .record "a" .pub (some "Rec") false
def twinF : Item := .decl 2 .fn "a" .pub (some "func") false
def twinRoot : Item := .module 0 "p" .pub [twinT, twinF]
def twin : Ir := ⟨[("p", twinRoot)]⟩
theorem C62_cache_broken : twin.Unique ∧
    (publicPathTop twin [twinRoot, twinF] {}).1 = .ok ⟨"p", "func", some "a"⟩ ∧
    (publicPathTop twin [twinRoot, twinF] (publicPathTop twin [twinRoot, twinT] {}).2).1 = .ok ⟨"p", "Rec", some "a"⟩ :=
  ⟨unique_of_check (by decide +kernel), by decide +kernel, by decide +kernel⟩

/-- `mod inner { pub mod sub { pub struct D; } }  pub use inner::*;`: `p::sub::D` can be imported, but no path
is found for `D`. -/
def nestD : Item := .decl 3 .record "D" .pub none false
def nestSub : Item := .module 2 "sub" .pub [nestD]
def nestInner : Item := .module 1 "inner" .priv [nestSub]
def nestRoot : Item := .module 0 "p" .pub [nestInner, .useGlob 4 .pub ⟨false, ["inner"]⟩]
def nest : Ir := ⟨[("p", nestRoot)]⟩
theorem C62_nested_broken : nest.Unique ∧
    (match (resolveTop nest [nestRoot] ⟨true, ["p", "sub", "D"]⟩ .type {}).1 with
      | .ok q => q.map Item.addr
      | .error _ => []) = [.item 0, .item 1, .item 2, .item 3] ∧
    (publicPathTop nest [nestRoot, nestInner, nestSub, nestD] {}).1 = .error .noPubPath :=
  ⟨unique_of_check (by decide +kernel), by decide +kernel, by decide +kernel⟩

end Verif.Props.Public
