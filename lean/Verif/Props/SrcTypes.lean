import Verif.Src.TypesCheck
import Verif.Src.CrossLemmas
/-
C63: a type in a signature is read as what it stands for in Rust, and as the macros read it.
-/
namespace Verif.Props.SrcTypes
open Verif.Src
open Verif.Meta (MTy RTy PassBy RetSrc RTy.toMeta RetSrc.returns RetSrc.throws)

deriving instance DecidableEq for Except

/-! ### An example program -/

/-- A type that is a single name. -/
def ty (x : String) (args : List Ty := []) : Ty := .path ⟨false, [x]⟩ args

/-- ```
use std::collections::HashMap;
use std::sync::Arc;
use inner::O;
mod inner { pub struct A; pub struct O; pub trait Tr {} }
pub mod api { pub use crate::inner::A; pub use crate::inner::O; }
type Pairs<K, V = Bytes> = HashMap<K, V>;
type Bytes = Vec<u8>;
custom_type!(Url, String);
type B1 = B2;
type B2 = B1;
``` -/
def itemA : Item := .decl 2 .record "A" .pub (some "Alpha") false
def itemO : Item := .decl 3 .object "O" .pub none false
def itemTr : Item := .decl 4 (.trait (.traitInterface .both)) "Tr" .pub none false
def inner : Item := .module 1 "inner" .priv [itemA, itemO, itemTr]
def api : Item := .module 5 "api" .pub
  [.useItem 6 .pub ⟨false, ["crate", "inner", "A"]⟩ "A", .useItem 7 .pub ⟨false, ["crate", "inner", "O"]⟩ "O"]
def itemPairs : Item := .decl 8 (.alias [("K", none), ("V", some (ty "Bytes"))] (ty "HashMap" [ty "K", ty "V"])) "Pairs" .pub none false
def itemBytes : Item := .decl 9 (.alias [] (ty "Vec" [ty "u8"])) "Bytes" .pub none false
def itemUrl : Item := .decl 10 (.custom (ty "String")) "Url" .pub none false
def itemB1 : Item := .decl 11 (.alias [] (ty "B2")) "B1" .pub none false
def itemB2 : Item := .decl 12 (.alias [] (ty "B1")) "B2" .pub none false
def root : Item := .module 0 "demo" .pub
  [.useItem 13 .priv ⟨false, ["std", "collections", "HashMap"]⟩ "HashMap",
   .useItem 14 .priv ⟨false, ["std", "sync", "Arc"]⟩ "Arc", .useItem 15 .priv ⟨false, ["inner", "O"]⟩ "O",
   .useItem 16 .priv ⟨false, ["inner", "Tr"]⟩ "Tr", inner, api, itemPairs, itemBytes, itemUrl, itemB1, itemB2]
def demo : Ir := ⟨[("demo", root)]⟩

/-- How far an alias is from the types it is made of. -/
def depth : String → Nat
  | "Bytes" => 1 | "Url" => 1 | "Pairs" => 2 | "B1" => 1 | "B2" => 1
  | _ => 0

theorem demo_unique : demo.Unique := unique_of_check (by decide +kernel)
theorem demo_root : Canon demo [root] := .root (crate := "demo") rfl
theorem demo_modules : demo.RootsModules := by
  intro crate m h
  have := root_mem h
  simp only [demo, List.map_cons, List.map_nil, List.mem_singleton] at this
  subst this; exact ⟨_, _, _, _, rfl⟩
theorem demo_keeps : demo.KeepsNames := keeps_of_check (by decide +kernel)
theorem demo_only : demo.OnlyPaths := fun _ hp hd => only_of_check (by decide +kernel) hp hd
theorem demo_ranked : Ranked demo (rankOf depth) 3 :=
  ranked_of_check demo_modules demo_keeps (by intro n; unfold depth; split <;> omega) (by decide +kernel)
theorem demo_params {p t} (hp : Canon demo p) : ParamsFresh demo p t :=
  params_of_check demo_modules demo_keeps (by decide +kernel) hp
theorem demo_traits {t} : TraitsLocal demo [root] t :=
  traits_of_check demo_modules demo_keeps (by decide +kernel) demo_root ⟨_, _, _, _, rfl⟩

/-- Caches after a type was resolved. -/
def demoCache : FullCache := (resolveType demo 9 [root] (ty "Url") {}).2
theorem demo_reach : FullReach demo demoCache :=
  (resolveTy_sound demo_unique demo_modules demo_only 9 [root] (ty "Url") [] []
    ⟨demo_root, demo_traits, demo_params demo_root⟩ nofun {} .empty).1

theorem size_bound : ∀ l : List Ty, ∃ S, ∀ x ∈ l, x.size ≤ S
  | [] => ⟨0, nofun⟩
  | t :: l => by
    obtain ⟨S, hS⟩ := size_bound l
    refine ⟨t.size + S, fun x hx => ?_⟩
    rcases List.mem_cons.1 hx with rfl | hx
    · omega
    · have := hS x hx; omega

section
variable {ir : Ir} {c : FullCache} {p : RPath}

/-! ### C63: the search ends -/

/-- If no alias contains itself in a generic argument and no custom type is made of itself, then for every
type there is a depth of recursion that is enough, whatever was looked up before; more changes nothing. -/
theorem C63_terminates_partial (hu : ir.Unique) (hr : ir.RootsModules) {rank : RPath → Nat} {bound : Nat}
    (hrank : Ranked ir rank bound) (hp : Canon ir p) (t : Ty) :
    ∃ n, ∀ c, FullReach ir c → ∃ r, r.1 ≠ .error .fuel ∧ ∀ m ≥ n, resolveType ir m p t c = r := by
  obtain ⟨S, hS⟩ : ∃ S, ∀ x ∈ t :: ir.tys, x.size ≤ S :=
    size_bound _
  have he := (resolveTy_ends hu hr hrank (fun x hx => hS x (.tail _ hx))
    (bound * ((S + 1) * (ir.places.length + 2)) + t.size + 1) p t [] [] hp (hS t (.head _)) .nil nofun).1 bound
    (fun _ r _ _ => hrank.bound) (by omega)
  refine ⟨bound * ((S + 1) * (ir.places.length + 2)) + t.size + 1, fun c hc => ⟨_, fun h => ?_, fun m hm => le_fuel hm c fun h => ?_⟩⟩ <;>
    exact (he c hc).2.2 _ h rfl

example : ∃ n, ∀ c, FullReach demo c → ∃ r, r.1 ≠ .error .fuel ∧ ∀ m ≥ n, resolveType demo m [root] (ty "Pairs" [ty "B1"]) c = r :=
  C63_terminates_partial demo_unique demo_modules demo_ranked demo_root _

/-! ### C63: what a type stands for -/

/-- If a type is accepted, the result is what the type stands for: names are found by the rules of Rust, aliases
are replaced by the types they stand for, and types of the program get the names under which other crates can
import them. For traits behind `dyn` this needs that they are in the same crate and not renamed, for
aliases that their parameters are not also names of items. -/
theorem C63_sound_partial (hu : ir.Unique) (hr : ir.RootsModules) (ho : ir.OnlyPaths) (hc : FullReach ir c)
    (hp : Canon ir p) {ty : Ty} (ht : TraitsLocal ir p ty) (hf : ParamsFresh ir p ty) {n : Nat} {t : STy}
    (h : (resolveType ir n p ty c).1 = .ok t) : Means ir [] p ty t :=
  (resolveTy_sound hu hr ho n p ty [] [] ⟨hp, ht, hf⟩ nofun c hc).2.1 t h

/-- The caches stay such that the theorems apply again. -/
theorem C63_reach (hu : ir.Unique) (hr : ir.RootsModules) (ho : ir.OnlyPaths) (hc : FullReach ir c)
    (hp : Canon ir p) {ty : Ty} (ht : TraitsLocal ir p ty) (hf : ParamsFresh ir p ty) {n : Nat} :
    FullReach ir (resolveType ir n p ty c).2 :=
  (resolveTy_sound hu hr ho n p ty [] [] ⟨hp, ht, hf⟩ nofun c hc).1

example : Means demo [] [root] (ty "Pairs" [ty "O"])
    (.hashMap (.object "demo::api" "O") (.vec .uint8)) :=
  C63_sound_partial demo_unique demo_modules demo_only demo_reach demo_root demo_traits (demo_params demo_root) (n := 9)
    (by decide +kernel)
example : Means demo [] [root] (ty "Result" [ty "Pairs" [ty "Url", .path ⟨false, ["api", "A"]⟩ []], .unit])
    (.result (.hashMap (.custom "demo" "Url" .string) (.record "demo::api" "Alpha")) .unit) :=
  C63_sound_partial demo_unique demo_modules demo_only demo_reach demo_root demo_traits (demo_params demo_root) (n := 9)
    (by decide +kernel)
example : Means demo [] [root] (ty "Arc" [.dyn [⟨false, ["Tr"]⟩]]) (.arc (.trait "demo" "Tr" (.traitInterface .both))) :=
  C63_sound_partial demo_unique demo_modules demo_only demo_reach demo_root demo_traits (demo_params demo_root) (n := 9)
    (by decide +kernel)

/-- Aliases that go round in a circle are reported. -/
theorem C63_cycle_reported : (resolveType demo 9 [root] (ty "B1") {}).1 = .error .cycleDetected ∧
    (resolveType demo 9 [root] (ty "Option" [ty "B2"]) {}).1 = .error .cycleDetected := by decide +kernel

end

/-! ### C63: the same types as in the macros -/

section
variable {self : Option RTy}

/-- A type that can cross the boundary is written into the metadata as the macros do it. -/
theorem C63_meta (hs : self ≠ some .u8) {t : STy} {r : RTy} (h : Crosses self t r) :
    t.toMeta (self.map RTy.toMeta) = .ok r.toMeta := crosses_meta hs h

/-- Only such types are accepted. -/
theorem C63_meta_only (hs : self ≠ some .u8) {t : STy} (hn : t.noUdl = true) {m : MTy}
    (h : t.toMeta (self.map RTy.toMeta) = .ok m) : ∃ r, Crosses self t r ∧ m = r.toMeta := by
  obtain ⟨r, hr⟩ := meta_crosses t hn h
  rw [crosses_meta hs hr] at h
  exact ⟨r, hr, by cases h; rfl⟩

/-- The same for arguments and how they are passed. -/
theorem C63_arg (hs : self ≠ some .u8) {t : STy} {r : RTy} {by' : PassBy} (h : ArgCrosses self t r by') :
    argMeta (self.map RTy.toMeta) t = .ok (r.toMeta, by') := arg_meta hs h

theorem C63_arg_only (hs : self ≠ some .u8) {t : STy} (hn : t.noUdl = true) {m : MTy} {by' : PassBy}
    (h : argMeta (self.map RTy.toMeta) t = .ok (m, by')) : ∃ r, ArgCrosses self t r by' ∧ m = r.toMeta := by
  obtain ⟨r, b, hr⟩ := meta_arg hn h
  rw [arg_meta hs hr] at h
  cases h
  exact ⟨r, hr, rfl⟩

/-- The same for results. -/
theorem C63_return (hs : self ≠ some .u8) {t : STy} {r : RetSrc} (h : RetCrosses self t r) :
    returnMeta (self.map RTy.toMeta) t = .ok (r.returns, r.throws) := return_meta hs h

theorem C63_return_only (hs : self ≠ some .u8) {t : STy} (hn : t.noUdl = true) {m : Option MTy × Option MTy}
    (h : returnMeta (self.map RTy.toMeta) t = .ok m) : ∃ r, RetCrosses self t r ∧ m = (r.returns, r.throws) := by
  obtain ⟨r, hr⟩ := meta_return hn h
  rw [return_meta hs hr] at h
  cases h
  exact ⟨r, hr, rfl⟩

example : Crosses (some (.object "m" "O")) (.hashMap .string (.option (.arc .selfTy)))
    (.hashMap .string (.option (.object "m" "O"))) := .hashMap .string (.option (.arcSelf rfl))
example : (STy.hashMap .string (.option (.arc .selfTy))).toMeta (some (RTy.object "m" "O").toMeta) =
    .ok (.map .string (.optional (.object "m" "O" .struct))) := C63_meta (self := some (.object "m" "O")) nofun (.hashMap .string (.option (.arcSelf rfl)))
example : ArgCrosses none (.ref true (.slice .uint8)) .byteSlice .mutRef ∧
    ArgCrosses none (.ref false (.slice .string)) (.vec .string) .ref := ⟨.mutBytes, .slice nofun .string⟩
example : RetCrosses none (.result .unit (.enum "m" "E")) (.result none (some (.enum "m" "E"))) := .resultUnit .enum
/-- Not accepted: a shared record, a bare trait, a reference in a list. -/
example : (STy.arc (.record "m" "R")).toMeta none = .error .invalidType ∧
    (STy.trait "m" "T" .callbackInterface).toMeta none = .error .invalidType ∧
    (STy.vec (.ref false .string)).toMeta none = .error .invalidType := ⟨rfl, rfl, rfl⟩
end

/-! ### C63: from the source to the metadata -/

section
variable {ir : Ir} {c : FullCache} {p : RPath} {self : Option RTy}

theorem bind_res {α β : Type} {m : M α} {f : α → Res β} {b : β} (h : (m.bind fun a => .ofRes (f a)) c = (.ok b, c')) :
    ∃ a, (m c).1 = .ok a ∧ f a = .ok b := by
  unfold M.bind at h
  split at h
  · rename_i a _ hm
    exact ⟨a, by rw [hm], (Prod.mk.inj h).1⟩
  · cases h

/-- An argument of a function: if it is accepted, its type in the source stands for a type that can cross the
boundary, and what is recorded is what the macros record for that type. -/
theorem C63_argument_partial (hu : ir.Unique) (hr : ir.RootsModules) (ho : ir.OnlyPaths) (hc : FullReach ir c)
    (hp : Canon ir p) {ty : Ty} (ht : TraitsLocal ir p ty) (hf : ParamsFresh ir p ty) (hs : self ≠ some .u8) {n : Nat}
    {m : MTy} {by' : PassBy} (h : (resolveArgType ir n p ty (self.map RTy.toMeta) c).1 = .ok (m, by')) :
    ∃ t, Means ir [] p ty t ∧ (t.noUdl = true → ∃ r, ArgCrosses self t r by' ∧ m = r.toMeta) := by
  obtain ⟨t, h1, h2⟩ := bind_res (c := c) (c' := _) (Prod.ext h rfl)
  exact ⟨t, C63_sound_partial hu hr ho hc hp ht hf h1, fun hn => C63_arg_only hs hn h2⟩

/-- The result of a function. -/
theorem C63_result_partial (hu : ir.Unique) (hr : ir.RootsModules) (ho : ir.OnlyPaths) (hc : FullReach ir c)
    (hp : Canon ir p) {ty : Ty} (ht : TraitsLocal ir p ty) (hf : ParamsFresh ir p ty) (hs : self ≠ some .u8) {n : Nat}
    {m : Option MTy × Option MTy} (h : (resolveReturn ir n p ty (self.map RTy.toMeta) c).1 = .ok m) :
    ∃ t, Means ir [] p ty t ∧ (t.noUdl = true → ∃ r, RetCrosses self t r ∧ m = (r.returns, r.throws)) := by
  obtain ⟨t, h1, h2⟩ := bind_res (c := c) (c' := _) (Prod.ext h rfl)
  exact ⟨t, C63_sound_partial hu hr ho hc hp ht hf h1, fun hn => C63_return_only hs hn h2⟩

/-- The receiver of a method is `&self` or a shared pointer to it. -/
theorem C63_receiver_partial (hu : ir.Unique) (hr : ir.RootsModules) (ho : ir.OnlyPaths) (hc : FullReach ir c)
    (hp : Canon ir p) {ty : Ty} (ht : TraitsLocal ir p ty) (hf : ParamsFresh ir p ty) {n : Nat} {b : Bool}
    (h : (resolveSelf ir n p ty c).1 = .ok b) :
    Means ir [] p ty (if b then .arc .selfTy else .ref false .selfTy) := by
  obtain ⟨t, h1, h2⟩ := bind_res (c := c) (c' := _) (Prod.ext h rfl)
  have := C63_sound_partial hu hr ho hc hp ht hf h1
  unfold selfByArc at h2
  split at h2
  · cases h2; exact this
  · cases h2; exact this
  · exact nomatch h2

example : (resolveArgType demo 9 [root] (.reference false (.slice (ty "Url"))) none demoCache).1 =
    .ok (.sequence (.custom "demo" "Url" .string), .ref) := by decide +kernel
example : (resolveReturn demo 9 [root] (ty "Result" [.unit, ty "O"]) none demoCache).1 =
    .ok (none, some (.object "demo::api" "O" .struct)) := by decide +kernel
example : (resolveSelf demo 9 [root] (ty "Arc" [ty "Self"]) demoCache).1 = .ok true := by decide +kernel

end

/-! ### Where it goes wrong -/

/-- `type A = Option<A>;`: the search never ends (in the program, the stack overflows). -/
def loopA : Item := .decl 1 (.alias [] (ty "Option" [ty "A"])) "A" .pub none false
def loopRoot : Item := .module 0 "l" .pub [loopA]
def loop : Ir := ⟨[("l", loopRoot)]⟩
theorem loop_unique : loop.Unique := unique_of_check (by decide +kernel)
theorem loop_root : Canon loop [loopRoot] := .root (crate := "l") rfl

theorem lookup_is {ir : Ir} (hu : ir.Unique) {c : FullCache} (hc : FullReach ir c) {p q : RPath} (hp : Canon ir p) {path : Path}
    {k : Nat} (h : resolveRef ir k p path .type = .ok q) :
    ∃ c', FullReach ir c' ∧ M.resolve ir p path c = (.ok q, c') := by
  refine ⟨(M.resolve ir p path c).2, (resolve_sat hu path hp (E := fun _ => True) (fun _ _ => trivial) c hc).1, ?_⟩
  refine Prod.ext ?_ rfl
  exact ((resolve_main hu path .type hp (fullReach_good hu hc).1).2.2 k (by rw [Ends, h]; nofun)).trans h

theorem loop_fuel : ∀ n c seen, FullReach loop c → pathString [loopRoot, loopA] ∉ seen →
    (resolveTy loop n [loopRoot] (ty "A") seen [] c).1 = .error .fuel := by
  intro n
  induction n using Nat.strongRecOn with
  | ind n ih =>
    intro c seen hc hs
    match n with
    | 0 => rfl
    | n + 1 =>
      obtain ⟨c1, hc1, h1⟩ := lookup_is loop_unique hc loop_root (path := ⟨false, ["A"]⟩) (k := 3) (q := [loopRoot, loopA]) rfl
      have e1 : resolveTy loop (n + 1) [loopRoot] (ty "A") seen [] c =
          resolveTy loop n [loopRoot] (ty "Option" [ty "A"]) (pathString [loopRoot, loopA] :: seen) [] c1 := by
        show (M.bind (M.resolve loop [loopRoot] ⟨false, ["A"]⟩) _) c = _
        rw [M.bind, h1]
        dsimp only [resolveItem, List.getLast?, loopA]
        show (if pathString [loopRoot, loopA] ∈ seen then _ else _ : M STy) c1 = _
        rw [if_neg hs]
        rfl
      rw [e1]
      match n with
      | 0 => rfl
      | n + 1 =>
        obtain ⟨c2, hc2, h2⟩ := lookup_is loop_unique hc1 loop_root (path := ⟨false, ["Option"]⟩) (k := 3) (q := [.builtin .option]) rfl
        have e2 : resolveTy loop (n + 1) [loopRoot] (ty "Option" [ty "A"]) (pathString [loopRoot, loopA] :: seen) [] c1 =
            (resolveTy loop n [loopRoot] (ty "A") [] []).bind (fun t => .pure (.option t)) c2 := by
          show (M.bind (M.resolve loop [loopRoot] ⟨false, ["Option"]⟩) _) c1 = _
          rw [M.bind, h2]
          rfl
        rw [e2, M.bind]
        have := ih n (by omega) c2 [] hc2 nofun
        revert this
        cases resolveTy loop n [loopRoot] (ty "A") [] [] c2 with
        | mk r c => intro h; cases h; rfl

theorem C63_alias_loops : loop.Unique ∧ ∀ n, (resolveType loop n [loopRoot] (ty "A") {}).1 = .error .fuel :=
  ⟨loop_unique, fun n => loop_fuel n {} [] .empty nofun⟩

/-- `custom_type!(C, C)`: the search never ends. -/
def selfC : Item := .decl 1 (.custom (ty "C")) "C" .pub none false
def selfRoot : Item := .module 0 "l" .pub [selfC]
def selfIr : Ir := ⟨[("l", selfRoot)]⟩
theorem self_unique : selfIr.Unique := unique_of_check (by decide +kernel)

theorem self_fuel : ∀ n c, FullReach selfIr c → (resolveTy selfIr n [selfRoot] (ty "C") [] [] c).1 = .error .fuel := by
  intro n
  induction n with
  | zero => intros; rfl
  | succ n ih =>
    intro c hc
    obtain ⟨c1, hc1, h1⟩ := lookup_is self_unique hc (p := [selfRoot]) (.root (crate := "l") rfl) (path := ⟨false, ["C"]⟩)
      (k := 3) (q := [selfRoot, selfC]) rfl
    have e1 : resolveTy selfIr (n + 1) [selfRoot] (ty "C") [] [] c =
        (resolveTy selfIr n [selfRoot] (ty "C") [] []).bind (fun t => .pure (.custom (pathString [selfRoot]) "C" t)) c1 := by
      show (M.bind (M.resolve selfIr [selfRoot] ⟨false, ["C"]⟩) _) c = _
      rw [M.bind, h1]
      rfl
    rw [e1, M.bind]
    have := ih c1 hc1
    revert this
    cases resolveTy selfIr n [selfRoot] (ty "C") [] [] c1 with
    | mk r c => intro h; cases h; rfl

theorem C63_custom_loops : selfIr.Unique ∧ ∀ n, (resolveType selfIr n [selfRoot] (ty "C") {}).1 = .error .fuel :=
  ⟨self_unique, fun n => self_fuel n {} .empty⟩

/-- ```
type Id<T> = T;                        // the parameter is not found
type Both<A, B = A> = HashMap<A, B>;   // the default is not found
struct T;
type Lists<T> = Vec<Vec<T>>;           // the parameter is taken for the record
``` -/
def genId : Item := .decl 1 (.alias [("X", none)] (ty "X")) "Id" .pub none false
def genBoth : Item := .decl 2 (.alias [("X", none), ("Y", some (ty "X"))] (ty "HashMap" [ty "X", ty "Y"])) "Both" .pub none false
def genT : Item := .decl 3 .record "T" .pub none false
def genLists : Item := .decl 4 (.alias [("T", none)] (ty "Vec" [ty "Vec" [ty "T"]])) "Lists" .pub none false
def genRoot : Item := .module 0 "g" .pub
  [.useItem 5 .priv ⟨false, ["std", "collections", "HashMap"]⟩ "HashMap", genId, genBoth, genT, genLists]
def gen : Ir := ⟨[("g", genRoot)]⟩
theorem C63_parameters_broken : gen.Unique ∧
    (resolveType gen 9 [genRoot] (ty "Id" [ty "u8"]) {}).1 = .error .notFound ∧
    (resolveType gen 9 [genRoot] (ty "Both" [ty "u8"]) {}).1 = .error .notFound ∧
    (resolveType gen 9 [genRoot] (ty "Lists" [ty "u8"]) {}).1 = .ok (.vec (.vec (.record "g" "T"))) :=
  ⟨unique_of_check (by decide +kernel), by decide +kernel, by decide +kernel, by decide +kernel⟩

/-- What the last type stands for. -/
example : Means gen [] [genRoot] (ty "Lists" [ty "u8"]) (.vec (.vec .uint8)) := by
  have hroot : Canon gen [genRoot] := .root (crate := "g") rfl
  have hu : gen.Unique := unique_of_check (by decide +kernel)
  have den : ∀ {path q}, resolveRef gen 3 [genRoot] path .type = .ok q → Denotes gen [genRoot] path .type q := by
    intro path q h
    obtain ⟨c', _, h'⟩ := lookup_is hu .empty hroot h
    exact ((resolve_sat hu path hroot (E := fun _ => True) (fun _ _ => trivial) {} .empty).2.1 q (by rw [h'])).2
  have np : ∀ {t path args}, path ≠ ⟨false, ["T"]⟩ → NotParam [("T", t)] path args := by
    intro t path args hne x t' hm ⟨he, _⟩
    cases List.mem_singleton.1 hm
    exact hne he
  refine .alias (q := [genRoot]) (env' := [("T", .uint8)]) nofun (den (q := [genRoot, genLists]) rfl)
    (.arg (.plain (b := .uint8) nofun (den rfl) rfl) .nil)
    (.one (b := .vec) (np (by decide)) (den rfl) rfl (.one (b := .vec) (np (by decide)) (den rfl) rfl (.param ?_)))
  rfl

/-- Crate `a` has `#[uniffi(name = "Listen")] pub trait Tr {}`, crate `b` uses `Arc<dyn a::Tr>`: the type gets
the module of the use and the old name. -/
def dynTr : Item := .decl 1 (.trait (.traitInterface .both)) "Tr" .pub (some "Listen") false
def dynA : Item := .module 0 "a" .pub [dynTr]
def dynB : Item := .module 2 "b" .pub [.useItem 3 .priv ⟨false, ["std", "sync", "Arc"]⟩ "Arc"]
def dynIr : Ir := ⟨[("a", dynA), ("b", dynB)]⟩
theorem C63_trait_broken : dynIr.Unique ∧
    (resolveMeta dynIr 9 [dynB] (ty "Arc" [.dyn [⟨false, ["a", "Tr"]⟩]]) none {}).1 =
      .ok (.object "b" "Tr" (.trait .both)) :=
  ⟨unique_of_check (by decide +kernel), by decide +kernel⟩

/-- `type Byte = u8;` and an argument `&mut [Byte]`: here it is passed as bytes that can be changed; the macros,
which look at the text `u8`, pass it by an ordinary reference. -/
def byteRoot : Item := .module 0 "m" .pub [.decl 1 (.alias [] (ty "u8")) "Byte" .pub none false]
theorem C63_bytes_broken : (⟨[("m", byteRoot)]⟩ : Ir).Unique ∧
    (resolveArgType ⟨[("m", byteRoot)]⟩ 9 [byteRoot] (.reference true (.slice (ty "Byte"))) none {}).1 =
      .ok (.bytes, .mutRef) :=
  ⟨unique_of_check (by decide +kernel), by decide +kernel⟩

end Verif.Props.SrcTypes
