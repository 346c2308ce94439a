import Verif.Src.EmitProgram
import Verif.Src.MacroLemmas
import Verif.Src.MacroCheck
import Verif.Props.Paths
/-
C65: the metadata made from Rust sources says what is written in the sources.
-/
namespace Verif.Props.Emit
open Verif.Src
open Verif.Props.Paths (C61_sound C61_order_partial)
open Verif.Meta (FnSrc FnKind MMethod MTy MLit MDef MArg MFn MField MVariant Metadata RTy DefSrc PassBy Shape Impl)

deriving instance DecidableEq for Except

/-! ### An example program -/

def linux : CompileEnv := ⟨"x86_64", "linux", "gnu", "unknown", some false, some 64, ["fast"]⟩
def path (l : List String) : Path := ⟨false, l.map fun s => ⟨false, s⟩⟩
def ty (x : String) (args : List Ty := []) : Ty := .path (path [x]) args
def derive (s : String) : Meta := .list (path ["derive"]) (some [.path (path ["uniffi", s])])
def exported (as : List Meta) : Meta := .list (path ["uniffi", "export"]) (some as)
def doc (s : String) : Meta := .nameValue (path ["doc"]) (.str s)
def attr (as : List Meta) : Meta := .list (path ["uniffi"]) (some as)

/-- ```
use std::sync::Arc;
/// Adds a number.
/// Slowly.
#[uniffi::export(default(n = 3, s = Some("x")))]
pub async fn add(n: u64, s: Option<String>, p: &Point) -> Result<u64, Failure> { .. }
#[derive(uniffi::Record)] #[uniffi(name = "Pt")]
pub struct Point { #[uniffi(default = 1.5)] x: f64, #[cfg(feature = "slow")] y: u8 }
#[derive(uniffi::Enum)] #[repr(u8)] pub enum Color { Red = 1, #[uniffi(name = "Azure")] Blue = 5 }
#[derive(uniffi::Error)] #[uniffi(flat_error)] pub enum Failure { Bad { why: String } }
impl From<uniffi::UnexpectedUniFFICallbackError> for Failure { .. }
#[derive(uniffi::Object)] #[uniffi::export(Debug, Eq)] pub struct Counter;
#[uniffi::export] impl Counter {
  #[uniffi::constructor(name = "make")] fn new(c: Color) -> Arc<Self> { .. }
  fn next(self: Arc<Self>, by: inner::Url) -> u8 { .. }
  #[cfg(feature = "slow")] fn left_out(&self) {}
}
#[uniffi::export(with_foreign)] pub trait Logger { fn log(&self, other: Arc<dyn Logger>); }
pub mod inner { use uniffi::custom_type; pub struct Url; custom_type!(Url, String); }
fn not_exported() {}
``` -/
def demoItems : List (SItem Meta) :=
  [.use [] [.useItem 1 .priv (path ["std", "sync", "Arc"]) "Arc"],
   .fn 2 .pub ⟨[doc " Adds a number.", doc " Slowly.",
     exported [.list (path ["default"]) (some [.nameValue (path ["n"]) (.int 3 false), .nameValue (path ["s"]) (.optSome (.str "x"))])]],
     true, "add", [.typed (some "n") (ty "u64"), .typed (some "s") (ty "Option" [ty "String"]), .typed (some "p") (.reference false (ty "Point"))],
     some (ty "Result" [ty "u64", ty "Failure"])⟩,
   .struct 3 [derive "Record", attr [.nameValue (path ["name"]) (.str "Pt")]] .pub "Point"
     [⟨[attr [.nameValue (path ["default"]) (.float "1.5" false)]], some "x", ty "f64"⟩,
      ⟨[.list (path ["cfg"]) (some [.nameValue (path ["feature"]) (.str "slow")])], some "y", ty "u8"⟩],
   .enum 4 [derive "Enum", .list (path ["repr"]) (some [.path (path ["u8"])])] .pub "Color"
     [⟨[], "Red", some (.int 1), []⟩, ⟨[attr [.nameValue (path ["name"]) (.str "Azure")]], "Blue", some (.int 5), []⟩],
   .enum 5 [derive "Error", attr [.path (path ["flat_error"])]] .pub "Failure" [⟨[], "Bad", none, [⟨[], some "why", ty "String"⟩]⟩],
   .impl 6 [] (some (path ["From"], [.path (path ["uniffi", "UnexpectedUniFFICallbackError"]) []])) (ty "Failure") [],
   .struct 7 [derive "Object", exported [.path (path ["Debug"]), .path (path ["Eq"])]] .pub "Counter" [],
   .impl 8 [.path (path ["uniffi", "export"])] none (ty "Counter")
     [⟨[.list (path ["uniffi", "constructor"]) (some [.nameValue (path ["name"]) (.str "make")])], false, "new",
        [.typed (some "c") (ty "Color")], some (ty "Arc" [ty "Self"])⟩,
      ⟨[], false, "next", [.receiver (ty "Arc" [ty "Self"]), .typed (some "by") (.path (path ["inner", "Url"]) [])], some (ty "u8")⟩,
      ⟨[.list (path ["cfg"]) (some [.nameValue (path ["feature"]) (.str "slow")])], false, "left_out",
        [.receiver (.reference false (ty "Self"))], none⟩],
   .trait 9 [exported [.path (path ["with_foreign"])]] .pub "Logger"
     [⟨[], false, "log", [.receiver (.reference false (ty "Self")), .typed (some "other") (ty "Arc" [.dyn [path ["Logger"]]])], none⟩],
   .mod 10 [] .pub "inner"
     [.use [] [.useItem 11 .priv (path ["uniffi", "custom_type"]) "custom_type"],
      .struct 12 [] .pub "Url" [], .macro 13 [] (path ["custom_type"]) (.custom [] "Url" (ty "String"))],
   .fn 14 .pub ⟨[], false, "not_exported", [], none⟩]
def demo : List (SCrate Meta) := [⟨0, "demo", linux, [], demoItems⟩]

/-- The metadata of the program. -/
def demoOut : List (String × List Out) :=
  let pt : MTy := .record "demo" "Pt"
  let failure : MTy := .enum "demo" "Failure"
  let counter : MTy := .object "demo" "Counter" .struct
  let other : MArg := ⟨"other", counter, .ref, false, none⟩
  let utrait (name : String) (args : List MArg) (ret : MTy) : MMethod :=
    ⟨"Counter", ⟨"demo", name, none, false, args, some ret, none, none, none⟩⟩
  [("demo",
    [.data false (.customType "demo::inner" "Url" none .string none),
     .data false (.func ⟨"demo", "add", none, true,
       [⟨"n", .uint64, .value, false, some (.literal (.uint 3 .decimal .uint64))⟩,
        ⟨"s", .optional .string, .value, false, some (.literal (.optSome (.literal (.string "x"))))⟩,
        ⟨"p", pt, .ref, false, none⟩], some .uint64, some failure, none, some "Adds a number.\nSlowly."⟩),
     .data false (.record "demo" "Pt" (some "Point") [⟨"x", none, .float64, some (.literal (.float "1.5" .float64)), none⟩] none),
     .data false (.enum "demo" "Color" none .enum (some .uint8)
       [⟨"Red", none, some (.uint 1 .decimal .uint8), [], none⟩,
        ⟨"Azure", some "Blue", some (.uint 5 .decimal .uint8), [], none⟩] false none),
     .data false (.enum "demo" "Failure" none (.error true) none [⟨"Bad", none, none, [], none⟩] false none),
     .fromUnexpected failure,
     .data false (.uniffiTrait (.debug (utrait "uniffi_trait_debug" [] .string))),
     .data false (.uniffiTrait (.eq (utrait "uniffi_trait_eq_eq" [other] .boolean) (utrait "uniffi_trait_eq_ne" [other] .boolean))),
     .data false (.object "demo" "Counter" none .struct none),
     .data false (.constructor ⟨"demo", "Counter", "make", some "new", false,
       [⟨"c", .enum "demo" "Color", .value, false, none⟩], none, none, none⟩),
     .data true (.method ⟨"Counter", ⟨"demo", "next", none, false,
       [⟨"by", .custom "demo::inner" "Url" .string, .value, false, none⟩], some .uint8, none, none, none⟩⟩),
     .data false (.object "demo" "Logger" none (.trait .both) none),
     .data false (.traitMethod "Logger" 0 ⟨"demo", "log", none, false,
       [⟨"other", .object "demo" "Logger" (.trait .both), .value, false, none⟩], none, none, none, none⟩)])]

def demoRead : List (Ident × PItem) := match read demo with | .ok x => x | .error _ => []
theorem demo_read : read demo = .ok demoRead := rfl
theorem demo_unique : (eraseCrates demoRead).Unique := unique_of_check (by decide +kernel)
theorem demo_only : (eraseCrates demoRead).OnlyPaths := fun _ hp hd => only_of_check (by decide +kernel) hp hd
def demoRoot : Item := match (eraseCrates demoRead).root "demo" with
  | some r => r
  | none => .builtin (.uniffiMacro "")
theorem demo_canon : Canon (eraseCrates demoRead) [demoRoot] := .root (crate := "demo") rfl
theorem demo_attr_ends : Ends (eraseCrates demoRead) 5 [demoRoot] (path ["uniffi", "export"]) .macro := by
  intro h
  revert h
  generalize hx : resolveRef (eraseCrates demoRead) 5 [demoRoot] (path ["uniffi", "export"]) .macro = x
  have : x.toOption.isSome = true := by rw [← hx]; decide +kernel
  rintro rfl
  exact nomatch this
theorem demo_metadata : metadataOf 20 demo = .ok (.ok demoOut) := by decide +kernel

/-! ### C65: attributes -/

/-- A path is taken for a macro of UniFFI exactly if looking it up gives that macro, whatever was looked up before; and
then there are imports in the sources that lead to it. The same holds for derives. -/
theorem C65_attributes {ir : Ir} (hu : ir.Unique) {p : RPath} (hp : Canon ir p) {pth : Path} {n : String} :
    ((lookIn ir p).macroOf pth = some n → ∃ q, q.getLast? = some (.builtin (.uniffiMacro n)) ∧ Denotes ir p pth .macro q) ∧
    ((lookIn ir p).deriveOf pth = some n → ∃ q, q.getLast? = some (.builtin (.uniffiDerive n)) ∧ Denotes ir p pth .macro q) ∧
    ∀ k c, Ends ir k p pth .macro → Reach ir c →
      ((lookIn ir p).macroOf pth = some n ↔
        ∃ q, (resolveTop ir p pth .macro c).1 = .ok q ∧ q.getLast? = some (.builtin (.uniffiMacro n))) ∧
      ((lookIn ir p).deriveOf pth = some n ↔
        ∃ q, (resolveTop ir p pth .macro c).1 = .ok q ∧ q.getLast? = some (.builtin (.uniffiDerive n))) := by
  have hm : (lookIn ir p).macroOf pth = some n ↔
      ∃ q, (resolveTop ir p pth .macro {}).1 = .ok q ∧ q.getLast? = some (.builtin (.uniffiMacro n)) := by
    dsimp only [lookIn]
    constructor
    · intro h
      split at h
      · rename_i q hq
        split at h
        · rename_i hl; cases h; exact ⟨q, hq, hl⟩
        · exact nomatch h
      · exact nomatch h
    · rintro ⟨q, h1, h2⟩
      rw [h1]; dsimp only; rw [h2]
  have hd : (lookIn ir p).deriveOf pth = some n ↔
      ∃ q, (resolveTop ir p pth .macro {}).1 = .ok q ∧ q.getLast? = some (.builtin (.uniffiDerive n)) := by
    dsimp only [lookIn]
    constructor
    · intro h
      split at h
      · rename_i q hq
        split at h
        · rename_i hl; cases h; exact ⟨q, hq, hl⟩
        · exact nomatch h
      · exact nomatch h
    · rintro ⟨q, h1, h2⟩
      rw [h1]; dsimp only; rw [h2]
  refine ⟨fun h => ?_, fun h => ?_, fun k c hk hc => ?_⟩
  · obtain ⟨q, h1, h2⟩ := hm.1 h
    exact ⟨q, h2, (C61_sound hu .empty hp h1).2⟩
  · obtain ⟨q, h1, h2⟩ := hd.1 h
    exact ⟨q, h2, (C61_sound hu .empty hp h1).2⟩
  · rw [hm, hd, C61_order_partial hu hc .empty hp hk]
    exact ⟨.rfl, .rfl⟩

example : (lookIn (eraseCrates demoRead) [demoRoot]).macroOf (path ["uniffi", "export"]) = some "export" := by decide +kernel
example : (lookIn (eraseCrates demoRead) [demoRoot]).macroOf (path ["export"]) = none := by decide +kernel
example : (lookIn (eraseCrates demoRead) [demoRoot]).deriveOf (path ["uniffi", "Record"]) = some "Record" := by decide +kernel
example : Canon (eraseCrates demoRead) [demoRoot] := demo_canon
example : Ends (eraseCrates demoRead) 5 [demoRoot] (path ["uniffi", "export"]) .macro := demo_attr_ends

/-- A line of documentation is stored without the white space around it, and with everything else. -/
theorem C65_trim (s : String) : ∃ a b : List Char, s.toList = a ++ (trim s).toList ++ b ∧
    (∀ c ∈ a ++ b, isWhite c = true) ∧ (∀ c, (trim s).toList.head? = some c → isWhite c = false) ∧
    (∀ c, (trim s).toList.getLast? = some c → isWhite c = false) := by
  have h1 : ∀ l : List Char, ∃ a, l = a ++ l.dropWhile isWhite ∧ ∀ c ∈ a, isWhite c = true := fun l =>
    ⟨l.takeWhile isWhite, (List.takeWhile_append_dropWhile).symm, fun c hc => by
      have := List.all_takeWhile (p := isWhite) (l := l)
      exact List.all_eq_true.1 this c hc⟩
  have h2 : ∀ (l : List Char) c, (l.dropWhile isWhite).head? = some c → isWhite c = false := by
    intro l c h
    have := List.head?_dropWhile_not isWhite l
    rw [h] at this
    simpa using this
  obtain ⟨a, ha, ha'⟩ := h1 s.toList
  obtain ⟨b, hb, hb'⟩ := h1 (s.toList.dropWhile isWhite).reverse
  have hb2 : s.toList.dropWhile isWhite = ((s.toList.dropWhile isWhite).reverse.dropWhile isWhite).reverse ++ b.reverse := by
    have := congrArg List.reverse hb
    simpa using this
  have ht : (trim s).toList = ((s.toList.dropWhile isWhite).reverse.dropWhile isWhite).reverse := by simp [trim]
  refine ⟨a, b.reverse, ?_, ?_, ?_, ?_⟩
  · rw [ht, List.append_assoc, ← hb2]; exact ha
  · intro c hc
    rcases List.mem_append.1 hc with h | h
    · exact ha' c h
    · exact hb' c (List.mem_reverse.1 h)
  · intro c hc
    rw [ht] at hc
    refine h2 s.toList c ?_
    rw [hb2]
    cases hx : ((s.toList.dropWhile isWhite).reverse.dropWhile isWhite).reverse with
    | nil => rw [hx] at hc; exact nomatch hc
    | cons y ys => rw [hx] at hc; exact hc
  · intro c hc
    rw [ht, List.getLast?_reverse] at hc
    exact h2 _ c hc

example : trim "  a b\t" = "a b" := by decide +kernel

/-! ### C65 -/

/-- If metadata is made from a program, then it is that of its items, as `CrateIs` says: each exported function, record,
enum, error, object, trait, `impl` and custom type that the compiler does not leave out is there once, with its name, its
place, its documentation, its arguments, fields, variants and methods in order, their types and their defaults; and there
is nothing else.

The full property has two more parts. Types are left open (see `Shown`) if a trait or a type parameter in them is not
where it seems to be, for which the claim is false (`C63_trait_broken`, `C63_parameters_broken`), and if they come from a
UDL file. An `impl` of `From` may be missed. `hu` is that items have different places in the source, `ho` that no two
items that can be exported have the same path (a function and a type may have, see C62). -/
theorem C65_program_partial {cs : List (SCrate Meta)} {items : List (Ident × PItem)} (hread : read cs = .ok items)
    (hn : (cs.map (·.ident)).Nodup) (hu : (eraseCrates items).Unique) (ho : (eraseCrates items).OnlyPaths) {n : Nat}
    {out : List (String × List Out)} (h : metadataOf n cs = .ok (.ok out)) :
    ∃ before, cratesSkeleton cs = .ok before ∧ Each (CrateIs ⟨before⟩ (eraseCrates items)) cs out := by
  refine emit_is (n := n) hread hn hu ho ?_
  rw [metadataOf, hread] at h
  exact Except.ok.inj h

example : ∃ before, cratesSkeleton demo = .ok before ∧ Each (CrateIs ⟨before⟩ (eraseCrates demoRead)) demo demoOut :=
  C65_program_partial demo_read (by decide) demo_unique demo_only demo_metadata

def isMod : Item → Bool
  | .module _ _ _ _ => true
  | _ => false
theorem demo_modules : (eraseCrates demoRead).RootsModules := by
  intro crate m h
  have := root_mem h
  simp only [eraseCrates, List.map_map, List.mem_map] at this
  obtain ⟨x, hx, rfl⟩ := this
  have : demoRead.all (fun x => isMod x.2.erase) = true := by decide +kernel
  have := List.all_eq_true.1 this x hx
  revert this
  generalize he : x.2.erase = i
  have : (((fun x => x.snd) ∘ fun c : Ident × PItem => (c.fst, c.snd.erase)) x) = i := he
  rw [this]
  cases i <;> simp [isMod]
theorem demo_keeps : (eraseCrates demoRead).KeepsNames := keeps_of_check (by decide +kernel)

/-- No type of the example is left open because of traits or type parameters. -/
example {p : RPath} (hp : Canon (eraseCrates demoRead) p) (hl : ∃ id mi vis items, p.getLast? = some (.module id mi vis items))
    (t : Ty) : ParamsFresh (eraseCrates demoRead) p t ∧ TraitsLocal (eraseCrates demoRead) p t :=
  ⟨params_of_check demo_modules demo_keeps (by decide +kernel) hp,
   traits_of_check demo_modules demo_keeps (by decide +kernel) hp hl⟩

/-! ### C65: the same metadata as from the macros -/

/-- For every function, method and constructor with this metadata there is a view of the macros: the same arguments and
defaults, with the types that those in the source stand for. If the macros accept the defaults, the metadata that they
put into the library is the same, except for the checksum.

The full property has no condition on the documentation (see `C65_doc_broken`) and no types left open. That the macros
accept the defaults is needed, see `C65_default_broken`. -/
theorem C65_function_partial {ir : Ir} {p : RPath} {selfArg selfRet : Option RTy} {metas as : List Meta} {f : SFn Meta}
    {inputs : List SArg} {m : MFn} (h : FnIs ir p selfArg selfRet metas as f inputs m)
    (hi : ∀ x ty, SArg.typed x ty ∈ inputs → Settled ir p ty) (ho : ∀ ty, f.output = some ty → Settled ir p ty)
    (hd : NotEmptyDoc metas) (kind : FnKind) :
    ∃ src : FnSrc, FnSeen ir p selfArg selfRet metas as f inputs src ∧ src.kind = kind ∧ src.modulePath = m.modulePath ∧
      src.name = m.name ∧ src.origName = m.origName ∧
      ∀ c m', src.meaning c = some m' → m' = { m with checksum := some c } :=
  fn_agrees h hi ho hd kind

/-- The same for records. Fields of tuples may not be given names, see `FieldPlain`. -/
theorem C65_record_partial {env : CompileEnv} {l : Look} {ir : Ir} {p : RPath} {id : Nat} {vis : Vis} {ident : Ident}
    {fields : List (SField Meta)} {metas : List Meta} {remote : Bool} {os : List Out}
    (h : RecordIs env l ir p id vis ident fields metas remote os)
    (hp : ∀ f ∈ fields, Settled ir p f.ty ∧ FieldPlain env f) (hd : NotEmptyDoc metas) :
    ∃ m name orig src ts, Each (FieldSeen env ir p) (fields.filter fun f => isActive env f.attrs) src ∧
      ∀ c c1 c2 out, (Verif.Meta.Item.record m name orig src ((docText metas).getD "")).meaning c c1 c2 = some out →
        os = ts ++ [.data remote out] := by
  obtain ⟨m, name, orig, fs, ts, rfl, _, hf, _⟩ := h
  obtain ⟨src, hs, hm⟩ := fields_agree hf hp
  refine ⟨m, name, orig, src, ts, hs, fun c c1 c2 out h => ?_⟩
  simp only [Verif.Meta.Item.meaning, Option.map_eq_some_iff] at h
  obtain ⟨xs, hxs, rfl⟩ := h
  rw [hm _ hxs, docOf_agrees hd]

/-- The same for enums without explicit values; with them it is false, see `C65_discriminant_broken`. -/
theorem C65_enum_partial {env : CompileEnv} {l : Look} {ir : Ir} {p : RPath} {id : Nat} {vis : Vis} {ident : Ident}
    {variants : List (SVariant Meta)} {metas : List Meta} {remote : Bool} {os : List Out}
    (h : EnumIs env l ir p id vis ident variants metas .enum remote os) (hn : ∀ v ∈ variants, v.discr = none)
    (hp : ∀ v ∈ variants, DocsNotEmpty env v.attrs ∧ ∀ f ∈ v.fields, Settled ir p f.ty ∧ FieldPlain env f)
    (hd : NotEmptyDoc metas) :
    ∃ m name orig src ts, Each (VariantSeen env ir p) (variants.filter fun v => isActive env v.attrs) src ∧
      ∀ repr c c1 c2 out, repr.map RTy.toMeta = reprOf metas →
        (Verif.Meta.Item.enum m name orig repr src (wordArg "non_exhaustive" metas) ((docText metas).getD "")).meaning c c1 c2 =
          some out → os = ts ++ [.data remote out] := by
  obtain ⟨m, name, orig, vs, ts, rfl, _, hv, _⟩ := h
  obtain ⟨src, hs, hm⟩ := each_agrees hv fun v hv b hb =>
    have hv := (List.mem_filter.1 hv).1
    variant_agrees hb (hn v hv) (hp v hv).2 (hp v hv).1
  refine ⟨m, name, orig, src, ts, hs, fun repr c c1 c2 out hr h => ?_⟩
  simp only [Verif.Meta.Item.meaning, Option.map_eq_some_iff] at h
  obtain ⟨xs, hxs, rfl⟩ := h
  rw [hm _ hxs, docOf_agrees hd, hr]

/-- Which attributes of the example are those of UniFFI. -/
def demoBefore : Ir := match cratesSkeleton demo with
  | .ok b => ⟨b⟩
  | .error _ => ⟨[]⟩
def demoInner : List Item := match skeletons linux demoItems with
  | .ok x => x
  | .error _ => []
def demoLook : Look := lookIn demoBefore [.module 0 "demo" .pub demoInner]

/-- The items of the example have metadata as the theorems ask for. -/
theorem demo_items : ∃ items p, p = [.module 0 "demo" .pub items] ∧ Canon (eraseCrates demoRead) p ∧
    ∀ i ∈ demoItems, ∃ os, ItemIs linux (lookIn demoBefore) (eraseCrates demoRead) [.module 0 "demo" .pub demoInner] p i os := by
  obtain ⟨before, hb, h⟩ := C65_program_partial demo_read (by decide) demo_unique demo_only demo_metadata
  have hb : ⟨before⟩ = demoBefore := by rw [demoBefore, hb]
  rw [hb] at h
  unfold demo at h
  cases h with
  | cons h1 h2 =>
    obtain ⟨_, inner, items, hi', hc, hi⟩ := h1
    have hi' : inner ++ [] = demoInner := by
      rw [demoInner, show skeletons linux demoItems = .ok inner from hi', List.append_nil]
    rw [hi'] at hi
    exact ⟨items, _, rfl, hc, fun i hm => (items_mem hi i hm).imp fun _ h => h.1⟩

theorem demo_settled {p : RPath} {items : List Item} (hp : p = [.module 0 "demo" .pub items]) (hc : Canon (eraseCrates demoRead) p)
    (t : Ty) : Settled (eraseCrates demoRead) p t :=
  settled_of_check demo_modules demo_keeps (by decide +kernel) (by decide +kernel) (by decide +kernel) hc
    ⟨_, _, _, _, by rw [hp]; rfl⟩ t

/-- The function `add` of the example. -/
def addFn : SFn Meta :=
  ⟨[doc " Adds a number.", doc " Slowly.",
     exported [.list (path ["default"]) (some [.nameValue (path ["n"]) (.int 3 false), .nameValue (path ["s"]) (.optSome (.str "x"))])]],
     true, "add", [.typed (some "n") (ty "u64"), .typed (some "s") (ty "Option" [ty "String"]), .typed (some "p") (.reference false (ty "Point"))],
     some (ty "Result" [ty "u64", ty "Failure"])⟩

example : ∃ p m, ∃ src : FnSrc,
    FnIs (eraseCrates demoRead) p none none (others demoLook addFn.attrs) (argsIn demoLook.isExport addFn.attrs) addFn addFn.inputs m ∧
    FnSeen (eraseCrates demoRead) p none none (others demoLook addFn.attrs) (argsIn demoLook.isExport addFn.attrs) addFn addFn.inputs src ∧
    ∀ c m', src.meaning c = some m' → m' = { m with checksum := some c } := by
  obtain ⟨items, p, hp, hc, h⟩ := demo_items
  obtain ⟨os, h⟩ := h (.fn 2 .pub addFn) (.tail _ (.head _))
  have active : ∀ {metas}, Active linux addFn.attrs metas → metas = addFn.attrs := fun h => by cases h; rfl
  have doc : docText (others demoLook addFn.attrs) = some "Adds a number.\nSlowly." := by decide +kernel
  cases h with
  | fn ha _ hf _ =>
    cases active ha
    obtain ⟨src, h1, _, _, _, _, h2⟩ := C65_function_partial hf (fun _ ty _ => demo_settled hp hc ty) (fun ty _ => demo_settled hp hc ty)
      (fun h => nomatch doc.symm.trans h) .function
    exact ⟨p, _, src, hf, h1, h2⟩
  | fnNot ha hx =>
    cases active ha
    have : addFn.attrs.any demoLook.isExport = true := by decide +kernel
    exact nomatch this.symm.trans hx
  | fnOff h => exact nomatch h

/-- The record: the hypotheses hold in the same way. -/
example : ∃ p os, RecordIs linux demoLook (eraseCrates demoRead) p 3 .pub "Point"
    [⟨[attr [.nameValue (path ["default"]) (.float "1.5" false)]], some "x", ty "f64"⟩,
      ⟨[.list (path ["cfg"]) (some [.nameValue (path ["feature"]) (.str "slow")])], some "y", ty "u8"⟩]
    [derive "Record", attr [.nameValue (path ["name"]) (.str "Pt")]] false os ∧ ∀ t, Settled (eraseCrates demoRead) p t := by
  obtain ⟨items, p, hp, hc, h⟩ := demo_items
  obtain ⟨os, h⟩ := h _ (.tail _ (.tail _ (.head _)))
  refine ⟨p, os, ?_, demo_settled hp hc⟩
  have e : [derive "Record", attr [.nameValue (path ["name"]) (.str "Pt")]].findSome? (findDerive demoLook "Record") = some false := by
    decide +kernel
  cases h with
  | struct ha hs =>
    cases ha
    cases hs with
    | record h1 h2 =>
      cases e.symm.trans h1
      exact h2
    | object h1 => exact nomatch e.symm.trans h1
    | nothing h1 => exact nomatch e.symm.trans h1
  | structOff h => exact nomatch h

/-! ### Where it is false -/

/-- The metadata of a crate `m` with these items. -/
def outs (items : List (SItem Meta)) : Option (Res (List Out)) :=
  match metadataOf 20 [⟨0, "m", linux, [], items⟩] with
  | .ok (.ok [(_, os)]) => some (.ok os)
  | .ok (.ok _) => none
  | .ok (.error e) => some (.error e)
  | .error _ => none

/-- Explicit values of variants: without `repr` they are lost, with it they have its type; the macros record them as
`u64` in both cases. -/
theorem C65_discriminant_broken :
    let variants : List (SVariant Meta) := [⟨[], "A", some (.int 5), []⟩]
    let src : List Verif.Meta.VariantSrc := [⟨"A", none, some 5, [], ""⟩]
    outs [.enum 1 [derive "Enum"] .pub "E" variants] =
      some (.ok [.data false (.enum "m" "E" none .enum none [⟨"A", none, none, [], none⟩] false none)]) ∧
    outs [.enum 1 [derive "Enum", .list (path ["repr"]) (some [.path (path ["u8"])])] .pub "E" variants] =
      some (.ok [.data false (.enum "m" "E" none .enum (some .uint8) [⟨"A", none, some (.uint 5 .decimal .uint8), [], none⟩] false none)]) ∧
    ∀ repr, (Verif.Meta.Item.enum "m" "E" none repr src false "").meaning 0 0 0 =
      some (.enum "m" "E" none .enum (repr.map RTy.toMeta) [⟨"A", none, some (.uint 5 .decimal .uint64), [], none⟩] false none) :=
  ⟨by decide +kernel, by decide +kernel, fun _ => rfl⟩

/-- An empty line of documentation. -/
theorem C65_doc_broken :
    outs [.struct 1 [derive "Record", doc ""] .pub "R" []] = some (.ok [.data false (.record "m" "R" none [] (some ""))]) ∧
    (Verif.Meta.Item.record "m" "R" none [] "").meaning 0 0 0 = some (.record "m" "R" none [] none) :=
  ⟨by decide +kernel, rfl⟩

/-- A function with one argument `x: u8` and a default for it. -/
def withDefault (d : DefSrc) : List (SItem Meta) :=
  [.fn 1 .pub ⟨[exported [.list (path ["default"]) (some [.nameValue (path ["x"]) d])]], false, "f", [.typed (some "x") (ty "u8")], none⟩]
/-- Its metadata. -/
def defaulted (d : MDef) : List Out :=
  [.data false (.func ⟨"m", "f", none, false, [⟨"x", .uint8, .value, false, some d⟩], none, none, none, none⟩)]

/-- Defaults that the type does not have are accepted: 300 and `None` for a `u8`. -/
theorem C65_default_broken :
    outs (withDefault (.int 300 false)) = some (.ok (defaulted (.literal (.uint 300 .decimal .uint8)))) ∧
    outs (withDefault .optNone) = some (.ok (defaulted (.literal .optNone))) ∧
    (DefSrc.int 300 false).meaning .uint8 = none ∧ DefSrc.optNone.meaning .uint8 = none :=
  ⟨by decide +kernel, by decide +kernel, by decide +kernel, by decide +kernel⟩

/-- An object with a constructor that takes the object. The macros accept it, since `Arc<Self>` can cross the
boundary. -/
theorem C65_constructor_broken :
    outs [.use [] [.useItem 1 .priv (path ["std", "sync", "Arc"]) "Arc"], .struct 2 [derive "Object"] .pub "O" [],
      .impl 3 [.path (path ["uniffi", "export"])] none (ty "O")
        [⟨[.path (path ["uniffi", "constructor"])], false, "copy", [.typed (some "other") (ty "Arc" [ty "Self"])],
          some (ty "Arc" [ty "Self"])⟩]] = some (.error .invalidType) ∧
    ArgCrosses (some (.object "m" "O")) (.arc .selfTy) (.object "m" "O") .value :=
  ⟨by decide +kernel, .value (.arcSelf rfl)⟩

/-- `#[uniffi::export] impl T for O {}` gives nothing; the macros record that `O` implements `T`. -/
theorem C65_trait_impl_broken :
    outs [.struct 1 [derive "Object"] .pub "O" [], .trait 2 [.path (path ["uniffi", "export"])] .pub "T" [],
      .impl 3 [.path (path ["uniffi", "export"])] (some (path ["T"], [])) (ty "O") []] =
      some (.ok [.data false (.object "m" "O" none .struct none), .data false (.object "m" "T" none (.trait .rustOnly) none)]) ∧
    (Verif.Meta.Item.objectTraitImpl "m" "O" (.traitObject "m" "T" .rustOnly)).meaning 0 0 0 =
      some (.objectTraitImpl (.object "m" "O" .struct) (.object "m" "T" (.trait .rustOnly))) :=
  ⟨by decide +kernel, rfl⟩

end Verif.Props.Emit
