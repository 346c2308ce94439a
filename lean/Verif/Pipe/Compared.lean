import Verif.Gen.Assemble
import Verif.Gen.AssembleSpec
import Verif.Pipe.Initial
import Verif.Meta.Names

/-!
What bindings compare when they are loaded, and what comes of it.
-/
namespace Verif.Pipe

open Verif.Gen.Assemble Verif.Meta

/-- `checksum_symbol_name`: uniffi_meta/src/lib.rs:158-160, 182-184, 212-214, 241-243. -/
def checksumName : Metadata → Option String
  | .func f => some (fnChecksumSymbol f.modulePath f.name)
  | .constructor c => some (constructorChecksumSymbol c.modulePath c.selfName c.name)
  | .method m => some (methodChecksumSymbol m.fn.modulePath m.selfName m.fn.name)
  | .traitMethod t _ f => some (methodChecksumSymbol f.modulePath t f.name)
  | _ => none

/-- The forced checksum of an item. -/
def forced : Metadata → Option UInt16
  | .func f => f.checksum
  | .constructor c => c.checksum
  | .method m => m.fn.checksum
  | .traitMethod _ _ f => f.checksum
  | _ => none

/-- `checksum`: uniffi_bindgen/src/interface/function.rs:106-108, object.rs:420-422, 572-574.  `hash` is
`uniffi_meta::checksum` of the item (C41, C42). -/
def expected (hash : Metadata → UInt16) (i : Metadata) : UInt16 :=
  match forced i with
  | some c => c
  | none => hash i

/-- One entry of `iter_checksums`. -/
def entry (hash : Metadata → UInt16) (i : Metadata) : Option (String × UInt16) :=
  (checksumName i).map fun n => (n, expected hash i)

/-- The items that `iter_checksums` goes through: uniffi_bindgen/src/interface/mod.rs:882-907.  It skips
methods of callback interfaces whose checksum function has no name.  There are none: every name is made
by `checksum_symbol_name` (object.rs:613) and starts with `uniffi_`. -/
def compared (ci : Ci) : List Metadata :=
  ci.functions ++ ci.objects.flatMap (·.methods) ++ ci.objects.flatMap (·.ctors) ++
    ci.callbacks.flatMap (·.methods)

/-- `ComponentInterface::iter_checksums`: interface/mod.rs:882-912. -/
def iterChecksums (hash : Metadata → UInt16) (ci : Ci) : List (String × UInt16) :=
  (compared ci).filterMap (entry hash)

/-- What comes of loading bindings. -/
inductive Loaded
  | ok
  | contractVersion
  | apiChecksum
  | missing
deriving DecidableEq, Repr

/-- The comparisons one after the other: kotlin/templates/NamespaceLibraryTemplate.kt:126-131,
swift/templates/wrapper.swift:53-57, python/templates/ChecksumsLegacy.py:11-14.  `lib` are the exported
functions with what they return.  Simplified: a function that is not exported is found missing when its
turn comes; Python and Kotlin look up all of them before, and Swift when it links. -/
def compareAll (lib : String → Option UInt16) : List (String × UInt16) → Loaded
  | [] => .ok
  | (n, c) :: l =>
    match lib n with
    | none => .missing
    | some d => if d ≠ c then .apiChecksum else compareAll lib l

/-- Loading in Kotlin and Swift: NamespaceLibraryTemplate.kt:76-84, 112-133,
wrapper.swift:42-65.  `skip` is
`config.omit_checksums || ci.skip_checksum_checks`. -/
def loadLegacy (mine theirs : UInt32) (skip : Bool) (checks : List (String × UInt16))
    (lib : String → Option UInt16) : Loaded :=
  if mine ≠ theirs then .contractVersion else if skip then .ok else compareAll lib checks

/-- Loading in Python: python/templates/NamespaceLibraryTemplate.py:80-85, ChecksumsLegacy.py:1-20.
`skip` is `ChecksumMode::Skip`, set when bindings are made from sources (loader.rs:277-279). -/
def loadPython (mine theirs : UInt32) (skip : Bool) (checks : List (String × UInt16))
    (lib : String → Option UInt16) : Loaded :=
  if skip then .ok else if mine ≠ theirs then .contractVersion else compareAll lib checks

end Verif.Pipe
