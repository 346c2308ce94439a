import Verif.Abi.Scaffold
import Verif.Abi.Generator
import Verif.Meta.Group
/-
The methods of a callback or trait interface: in which order the generators see them, and how the
foreign code fills the table of callbacks.
-/
namespace Verif.Abi
open Verif.Meta

/-- A trait method as the generators keep it: its index and the rest. -/
abbrev Indexed := UInt32 × MFn

/-! ### The generators other than Python -/

/-- The trait methods of the interface `tr` among the items of a group: uniffi_bindgen/src/
interface/mod.rs:1133-1134, 1160-1163 look the interface up by name. -/
def traitMethodsOf (tr : String) (items : List Metadata) : List Indexed :=
  items.filterMap fun
    | .traitMethod t i f => if t = tr then some (i, f) else none
    | _ => none

/-- `BTreeSet::insert` with the derived `Ord` of `TraitMethodMetadata` (uniffi_meta/src/lib.rs:
217-234), for the methods of one trait of one module: the index is compared first, `tie` stands for
the fields that follow. -/
def setInsert (tie : MFn → MFn → Bool) (x : Indexed) : List Indexed → List Indexed
  | [] => [x]
  | y :: ys =>
    if x = y then y :: ys
    else if x.1 < y.1 ∨ (x.1 = y.1 ∧ tie x.2 y.2) then x :: y :: ys
    else y :: setInsert tie x ys

/-- The methods in the order of the `BTreeSet` of the group: uniffi_meta/src/group.rs:62-72. -/
def setOrder (tie : MFn → MFn → Bool) (l : List Indexed) : List Indexed :=
  l.foldl (fun s x => setInsert tie x s) []

/-- `add_trait_method_meta`: interface/mod.rs:1133-1166. The index is only checked for callback
interfaces; `none` is the error. -/
def addTraitMethods (callback : Bool) : List MFn → List Indexed → Option (List MFn)
  | acc, [] => some acc
  | acc, (i, f) :: rest =>
    if callback ∧ acc.length ≠ i.toNat then none
    else addTraitMethods callback (acc ++ [f]) rest

/-- The methods of the interface `tr`. -/
def legacyMethods (tie : MFn → MFn → Bool) (callback : Bool) (tr : String) (items : List Metadata) :
    Option (List MFn) :=
  addTraitMethods callback [] (setOrder tie (traitMethodsOf tr items))

/-! ### Python -/

/-- The trait methods of interface `tr` of a crate: pipeline/initial/from_uniffi_meta.rs:178-186. -/
def crateTraitMethods (crate tr : String) (items : List Metadata) : List Indexed :=
  items.filterMap fun
    | .traitMethod t i f => if t = tr ∧ crateName f.modulePath = crate then some (i, f) else none
    | _ => none

/-- `insert_unique` on the map from names to methods: from_uniffi_meta.rs:55-71. `none` is the
error. -/
def insertUnique (m : List (String × Indexed)) (x : Indexed) : Option (List (String × Indexed)) :=
  match m.find? (·.1 = x.2.name) with
  | none => some (m ++ [(x.2.name, x)])
  | some e => if e.2 = x then some m else none

/-- The map after all items: from_uniffi_meta.rs:76-186. The order of the map, by name, is left out. -/
def insertAll : List (String × Indexed) → List Indexed → Option (List (String × Indexed))
  | m, [] => some m
  | m, x :: xs => (insertUnique m x).bind fun m => insertAll m xs

/-- `sort_by_key(|tm| tm.index)`, as an insertion sort: context.rs:84-85. -/
def insertByIndex (x : Indexed) : List Indexed → List Indexed
  | [] => [x]
  | y :: ys => if x.1 ≤ y.1 then x :: y :: ys else y :: insertByIndex x ys

/-- The sorted list. -/
def sortByIndex : List Indexed → List Indexed
  | [] => []
  | x :: xs => insertByIndex x (sortByIndex xs)

/-- `methods_for_type`: pipeline/initial/context.rs:68-93, for a type with trait methods only. -/
def pipelineMethods (crate tr : String) (items : List Metadata) : Option (List MFn) :=
  (insertAll [] (crateTraitMethods crate tr items)).map fun m =>
    (sortByIndex (m.map (·.2))).map (·.2)

/-! ### Filling the table -/

/-- A function the foreign code defines: one that frees a handle, one that clones it, or one that
calls the method with a given position in the list of methods. -/
inductive Slot where
  | free | clone | method (i : Nat)
  deriving DecidableEq, Repr

/-- The value of a name after a sequence of definitions: the last one. -/
def lookupLast (env : List (String × Slot)) (n : String) : Option Slot :=
  (env.reverse.find? (·.1 = n)).map (·.2)

/-- Python: the callbacks are defined in the body of a class, methods first
(CallbackInterfaceImpl.py:4-101), then the table is filled in the order of its fields with the
values of their names (104-110). `names` are the names of the methods in Python. -/
def pythonTable (names : List String) : Option (List Slot) :=
  let env := (names.mapIdx fun i n => (n, Slot.method i)) ++
    [("_uniffi_free", .free), ("_uniffi_clone", .clone)]
  ("_uniffi_free" :: "_uniffi_clone" :: names).mapM (lookupLast env)

/-- Kotlin: objects of the enclosing object, CallbackInterfaceImpl.kt:5-102; the table is filled in
the order of its fields, 104-110. `names` are the names of the methods in Kotlin. -/
def kotlinTable (names : List String) : Option (List Slot) :=
  let env := (names.mapIdx fun i n => (n, Slot.method i)) ++
    [("uniffiFree", .free), ("uniffiClone", .clone)]
  ("uniffiFree" :: "uniffiClone" :: names).mapM (lookupLast env)

/-- Swift: closures given in the order of the fields, CallbackInterfaceImpl.swift:10-25. -/
def swiftTable (names : List String) : List Slot :=
  .free :: .clone :: (List.range names.length).map .method

/-- Ruby: the fields are assigned by name, CallbackInterfaceImpl.rb:50-55, and read in the order of
the layout, NamespaceLibraryTemplate.rb:22-29. -/
def rubyTable (names : List String) : Option (List Slot) :=
  let assigned := ("uniffi_free", Slot.free) :: ("uniffi_clone", .clone) ::
    names.mapIdx fun i n => (n, Slot.method i)
  ("uniffi_free" :: "uniffi_clone" :: names).mapM (lookupLast assigned)

/-! ### One call -/

/-- The Rust name of a function: `name` is the foreign name, `origName` the Rust one where they
differ, uniffi_macros/src/fnsig.rs. -/
def rustIdent (f : FnSrc) : String :=
  match f.origName with
  | some n => n
  | none => f.name

/-- The position of the field the implementation of `f` calls: callback_interface.rs:99-103 and
250, 260. -/
def rustSlot (methods : List FnSrc) (f : FnSrc) : Option Nat :=
  ("uniffi_free" :: "uniffi_clone" :: methods.map rustIdent).findIdx? (· = rustIdent f)

/-- What Rust passes to the function of a field: callback_interface.rs:250 and 260-266. `tail` is the
return pointer and the call status, or what an async call gets. -/
def rustFrame {α : Type} (handle : α) (args tail : List α) : List α := handle :: args ++ tail

/-- The parameters of the foreign function: CallbackInterfaceImpl.py:8-21, and likewise in the other
templates. -/
def foreignParams (handle : String) (args tail : List String) : List String := handle :: args ++ tail

/-- The values the foreign function passes on to the method, by name: CallbackInterfaceImpl.py:24,
CallbackInterfaceImpl.kt:20-24, CallbackInterfaceImpl.swift:48-52. -/
def passedOn {α : Type} (params : List String) (frame : List α) (args : List String) :
    Option (List α) :=
  args.mapM fun n => ((params.zip frame).find? (·.1 = n)).map (·.2)

end Verif.Abi
