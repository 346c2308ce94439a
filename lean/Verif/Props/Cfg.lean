import Verif.Src.StripLemmas
/-
C64: the sources are read with the conditional compilation that the compiler applies.
-/
namespace Verif.Props.Cfg
open Verif.Src
open Verif.Meta (DefSrc)

deriving instance DecidableEq for Except

/-- A Linux target with one feature. -/
def linux : CompileEnv := ⟨"x86_64", "linux", "gnu", "unknown", some false, some 64, ["fast"]⟩

/-- The options that rustc sets for this target; among others `unix`, which is not in the list of the code. -/
def linuxOptions : Options := fun n v =>
  match v with
  | some v =>
    if n = "feature" then decide (v = "fast") else if n = "target_arch" then decide (v = "x86_64")
    else if n = "target_os" then decide (v = "linux") else if n = "target_env" then decide (v = "gnu")
    else if n = "target_vendor" then decide (v = "unknown") else if n = "target_endian" then decide (v = "little")
    else if n = "target_pointer_width" then decide (v = "64") else if n = "target_family" then decide (v = "unix")
    else if n = "panic" then decide (v = "unwind") else false
  | none => decide (n = "unix") || decide (n = "debug_assertions")

theorem linux_describes : Describes linux linuxOptions where
  feature v := by rw [Bool.eq_iff_iff, decide_eq_true_iff]; simp [linuxOptions, linux]
  arch v := by rw [Bool.eq_iff_iff, decide_eq_true_iff]; simp [linuxOptions, linux]
  os v := by rw [Bool.eq_iff_iff, decide_eq_true_iff]; simp [linuxOptions, linux]
  env v := by rw [Bool.eq_iff_iff, decide_eq_true_iff]; simp [linuxOptions, linux]
  vendor v := by rw [Bool.eq_iff_iff, decide_eq_true_iff]; simp [linuxOptions, linux]
  endian v := by rw [Bool.eq_iff_iff, decide_eq_true_iff]; simp [linuxOptions, linux]
  pointerWidth v := by
    have : Nat.repr 64 = "64" := by decide +kernel
    rw [Bool.eq_iff_iff]
    simp [linuxOptions, linux, this]

/-! ### C64: predicates -/

/-- A condition is true for the code if and only if it is true for the compiler, if it is only about the target,
about features, and about options that are not set.

The full property has no such restriction; see `C64_unix_broken`. -/
theorem C64_predicate_partial {e : CompileEnv} {o : Options} (he : Describes e o) (p : Pred) (hp : p.Known o) :
    e.check p.written = .ok (p.holds o) := check_written he p hp

/-- `all(target_os = "linux", not(any(feature = "slow", windows)))` -/
def demoPred : Pred := .all [.option "target_os" (some "linux"), .not (.any [.option "feature" (some "slow"), .option "windows" none])]

theorem demoPred_known : demoPred.Known linuxOptions := by
  simp [demoPred, Pred.Known, PredsKnown, targetNames, linuxOptions]

example : linux.check demoPred.written = .ok true ∧ demoPred.holds linuxOptions = true :=
  ⟨by decide +kernel, by decide +kernel⟩

/-- `unix`, `debug_assertions`, `target_family = "unix"` and `panic = "unwind"` are set by the compiler but false
for the code, so their negations are true. -/
theorem C64_unix_broken : Describes linux linuxOptions ∧
    ∀ p ∈ [Pred.option "unix" none, .option "debug_assertions" none, .option "target_family" (some "unix"),
      .option "panic" (some "unwind")],
      p.holds linuxOptions = true ∧ linux.check p.written = .ok false ∧ linux.check (Pred.not p).written = .ok true :=
  ⟨linux_describes, by decide +kernel⟩

/-! ### C64: attributes -/

/-- An item is left out by the code if and only if the compiler leaves it out, and else the code sees the attributes
that the compiler sees. Conditions are as above, and there are no conditions inside a `cfg_attr`.

The full property has no such restriction; see `C64_unix_broken` and `C64_nested_broken`. -/
theorem C64_attributes_partial {e : CompileEnv} {o : Options} (he : Describes e o) (as : List Attr)
    (h : ∀ a ∈ as, a.Known o) : e.parseAttrs (attrsWritten as) = .ok (configured o as) := parse_attrs he as h

/-- `#[doc = "x"] #[cfg_attr(feature = "fast", uniffi::export)] #[cfg(not(feature = "slow"))]` -/
def exportMeta : Meta := .path ⟨false, [⟨false, "uniffi"⟩, ⟨false, "export"⟩]⟩
def demoAttrs : List Attr := [.plain (.nameValue (word "doc") (.str "x")),
  .cfgAttr (.option "feature" (some "fast")) [.plain exportMeta], .cfg (.not (.option "feature" (some "slow")))]

example : (∀ a ∈ demoAttrs, a.Known linuxOptions) ∧
    configured linuxOptions demoAttrs = some [.nameValue (word "doc") (.str "x"), exportMeta] := by
  constructor
  · intro a ha
    simp only [demoAttrs, List.mem_cons, List.not_mem_nil, or_false] at ha
    rcases ha with rfl | rfl | rfl
    · exact ⟨by decide +kernel, by decide +kernel⟩
    · refine ⟨by simp [Pred.Known, targetNames], fun a ha => ?_⟩
      simp only [List.mem_singleton] at ha
      exact ⟨_, ha, by decide +kernel, by decide +kernel⟩
    · simp [Attr.Known, Pred.Known, targetNames]
  · rfl

/-- A condition inside a `cfg_attr` is not looked at: `#[cfg_attr(feature = "fast", cfg(feature = "slow"))]` leaves
out the item, but not for the code. -/
theorem C64_nested_broken :
    let as := [Attr.cfgAttr (.option "feature" (some "fast")) [.cfg (.option "feature" (some "slow"))]]
    Describes linux linuxOptions ∧ configured linuxOptions as = none ∧
      ∃ ms, linux.parseAttrs (attrsWritten as) = .ok (some ms) :=
  ⟨linux_describes, rfl, _, rfl⟩

/-! ### C64: programs -/

/-- Reading a program gives the same items as reading the program that the compiler goes on with: items, fields,
variants and functions that it leaves out are left out, everything else is kept, with the attributes that remain.
This includes that the one is refused if and only if the other is. The items are compared without every `impl` that
is neither exported nor of a trait.

The full property has no restriction on the conditions (see `C64_unix_broken`, `C64_nested_broken`), and none on the
items that are left out (see `C64_use_broken`, `C64_struct_broken`, `C64_impl_broken`). -/
theorem C64_program_partial {o : Nat → Options} {cs : List (SCrate Attr)} (he : ∀ c ∈ cs, Describes c.env (o c.id))
    (h : ∀ c ∈ cs, ItemsKnown (o c.id) c.items) :
    (read (cs.map SCrate.written)).map pruneCrates = (read (cs.map (SCrate.kept o))).map pruneCrates :=
  read_kept he h

def fast : Attr := .cfg (.option "feature" (some "fast"))
def slow : Attr := .cfg (.option "feature" (some "slow"))
def uniffi (s : String) : Path := ⟨false, [⟨false, "uniffi"⟩, ⟨false, s⟩]⟩
def derive (s : String) : Attr := .plain (.list (word "derive") (some [.path (uniffi s)]))
def u8 : Ty := .path ⟨false, ["u8"]⟩ []

/-- ```
#[cfg(feature = "slow")] #[uniffi::export] fn f() -> u8 { .. }
#[cfg(feature = "fast")] #[uniffi::export] fn f() {}
#[derive(uniffi::Record)] struct R { #[cfg(feature = "slow")] a: u8, #[cfg(feature = "fast")] b: u8 }
#[derive(uniffi::Enum)] enum E { #[cfg(feature = "slow")] V, W { x: u8 } }
#[cfg(feature = "slow")] mod m { use uniffi::export; }
mod m { #[cfg(feature = "fast")] use uniffi::export as ex; #[ex] fn g(x: u8) {} }
``` -/
def demoItems : List (SItem Attr) :=
  [.fn 1 .pub ⟨[slow, .plain exportMeta], false, "f", [], some u8⟩,
   .fn 2 .pub ⟨[fast, .plain exportMeta], false, "f", [], none⟩,
   .struct 3 [derive "Record"] .pub "R" [⟨[slow], some "a", u8⟩, ⟨[fast], some "b", u8⟩],
   .enum 4 [derive "Enum"] .pub "E" [⟨[slow], "V", none, []⟩, ⟨[], "W", none, [⟨[], some "x", u8⟩]⟩],
   .mod 5 [slow] .pub "m" [.use [] [.useItem 6 .priv (uniffi "export") "export"]],
   .mod 7 [] .pub "m" [.use [fast] [.useItem 8 .priv (uniffi "export") "ex"],
     .fn 9 .pub ⟨[.plain (.path (word "ex"))], false, "g", [.typed (some "x") u8], none⟩]]
def demoCrate (items : List (SItem Attr)) : SCrate Attr := ⟨0, "demo", linux, [], items⟩

mutual
/-- The places of the items that were read; negative for a type that is not for the bindings. Fields and variants of
types are counted. -/
def shown : PItem → List (Int × Nat)
  | .module id _ _ items => ((id : Int), 0) :: shownAll items
  | .fn id _ _ => [(id, 0)]
  | .record id _ _ _ fields => [(id, fields.length)]
  | .enum id _ _ _ vs => [(id, vs.length)]
  | .object id _ _ _ => [(id, 0)]
  | .trait id _ _ _ _ ms => [(id, ms.length)]
  | .impl id _ _ cs ms => [(id, cs.length + ms.length)]
  | .unresolvedImpl id _ _ => [(-id, 0)]
  | .custom id _ _ _ => [(id, 0)]
  | .plain (.decl id .nonUniffi _ _ _ _) => [(-id, 0)]
  | .plain _ => []
def shownAll : List PItem → List (Int × Nat)
  | [] => []
  | i :: is => shown i ++ shownAll is
end

/-- What is read from a crate. -/
def readShown (c : SCrate Meta) : Option (List (Int × Nat)) :=
  match read [c] with
  | .ok cs => some (shownAll (cs.map (·.2)))
  | .error _ => none

theorem demo_known : ItemsKnown linuxOptions demoItems := by
  simp [demoItems, ItemsKnown, SItem.Known, SFn.Known, SField.Known, SVariant.Known, Attr.Known, slow, fast, derive,
    Pred.Known, targetNames, attrsActive, Attr.active, Pred.holds, linuxOptions, exportMeta, Meta.pathOf, Path.isIdent,
    word]

example : readShown (demoCrate demoItems).written = some [(0, 0), (7, 0), (9, 0), (2, 0), (3, 1), (4, 1)] := by
  decide +kernel

example : (read [(demoCrate demoItems).written]).map pruneCrates
    = (read [(demoCrate demoItems).kept fun _ => linuxOptions]).map pruneCrates :=
  C64_program_partial (o := fun _ => linuxOptions) (cs := [demoCrate demoItems])
    (by simp [demoCrate, linux_describes]) (by simp [demoCrate, demo_known])

/-- Conditions on imports are not looked at: with
`#[cfg(feature = "slow")] use uniffi::export;  #[export] fn f() {}` the compiler sees no export of UniFFI. -/
theorem C64_use_broken :
    let items := [SItem.use [slow] [.useItem 1 .priv (uniffi "export") "export"],
      .fn 2 .pub ⟨[.plain (.path (word "export"))], false, "f", [], none⟩]
    readShown (demoCrate items).written = some [(0, 0), (2, 0)] ∧
    readShown ((demoCrate items).kept fun _ => linuxOptions) = some [(0, 0)] := by decide +kernel

/-- A struct that is left out still takes its name:
`#[cfg(feature = "slow")] #[derive(uniffi::Record)] struct R { a: u8 }`. -/
theorem C64_struct_broken :
    let items := [SItem.struct 1 [slow, derive "Record"] .pub "R" [⟨[], some "a", u8⟩]]
    readShown (demoCrate items).written = some [(0, 0), (-1, 0)] ∧
    readShown ((demoCrate items).kept fun _ => linuxOptions) = some [(0, 0)] := by decide +kernel

/-- An `impl` of a trait that is left out is still there:
`#[cfg(feature = "slow")] impl From<uniffi::UnexpectedUniFFICallbackError> for E { .. }`. -/
theorem C64_impl_broken :
    let items := [SItem.impl 1 [slow] (some (⟨false, ["From"]⟩, [.path (uniffi "UnexpectedUniFFICallbackError") []]))
      (.path ⟨false, ["E"]⟩ []) []]
    readShown (demoCrate items).written = some [(0, 0), (-1, 0)] ∧
    readShown ((demoCrate items).kept fun _ => linuxOptions) = some [(0, 0)] := by decide +kernel

end Verif.Props.Cfg
