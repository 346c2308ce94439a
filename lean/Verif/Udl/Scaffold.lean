import Verif.Udl.Collect
import Verif.Abi.Scaffold
import Verif.Meta.Names
/-
The Rust code generated from an interface definition file: uniffi_bindgen/src/scaffolding/mod.rs and
templates/*.rs, and what the macros export for it. The file is read by Udl/Collect.lean.

The templates write placeholder Rust items and hand them to the macros in their UDL mode, in which
they emit the same functions as for a Rust item but no metadata and no checksum functions. So what is
modelled here is which items are written, and the exported functions are those of Abi/Scaffold.lean.

Names in the templates refer to what is in scope in the user's crate; the model takes them to be the
types the file declares.
-/
namespace Verif.Udl.File
open Verif Verif.Meta Verif.Udl Verif.Abi

/-! ### Rust types: scaffolding/mod.rs -/

/-- `type_rs_inner`: mod.rs:51-98; `ObjectImpl::rust_name_for`, uniffi_meta/src/types.rs:47-53. -/
def typeRs : MTy → RTy
  | .uint8 => .u8
  | .int8 => .i8
  | .uint16 => .u16
  | .int16 => .i16
  | .uint32 => .u32
  | .int32 => .i32
  | .uint64 => .u64
  | .int64 => .i64
  | .float32 => .f32
  | .float64 => .f64
  | .boolean => .bool
  | .string => .string
  | .bytes => .vec .u8
  | .timestamp => .systemTime
  | .duration => .duration
  | .object m n .struct => .object m n
  | .object m n (.trait k) => .traitObject m n k
  | .record m n => .record m n
  | .enum m n => .enum m n
  | .callbackInterface m n => .callbackInterface m n
  | .optional t => .option (typeRs t)
  | .box t => .box (typeRs t)
  | .sequence t => .vec (typeRs t)
  | .set t => .hashSet (typeRs t)
  | .map k v => .hashMap (typeRs k) (typeRs v)
  | .custom m n b => .custom m n (typeRs b)

/-- `arg_rs`: mod.rs:36-49. A mutable reference to anything but bytes is written `&T`. -/
def argRs (a : UArg) : ArgSrc :=
  match a.passBy, a.ty with
  | .mutRef, .bytes => { name := a.name, ty := .byteSlice, passBy := .mutRef, default := none }
  | .ref, .bytes => { name := a.name, ty := .byteSlice, passBy := .ref, default := none }
  | .value, t => { name := a.name, ty := typeRs t, passBy := .value, default := none }
  | _, t => { name := a.name, ty := typeRs t, passBy := .ref, default := none }

/-- An argument of a method of a callback interface: CallbackInterfaceTemplate.rs:6. -/
def callbackArgRs (a : UArg) : ArgSrc :=
  { name := a.name, ty := typeRs a.ty, passBy := if a.passBy = .value then .value else .ref
    default := none }

/-- The return type: TopLevelFunctionTemplate.rs:10-15, ObjectTemplate.rs:21-26, 62-67, 83-88,
CallbackInterfaceTemplate.rs:9-14. -/
def retRs (ret throws : Option MTy) : RetSrc :=
  match throws with
  | none => .plain (ret.map typeRs)
  | some e => .result (ret.map typeRs) (some (typeRs e))

/-- TopLevelFunctionTemplate.rs:4-18. -/
def functionRs (f : UFn) : FnSrc :=
  { kind := .function, modulePath := f.modulePath, name := f.name, origName := none
    isAsync := f.isAsync, args := f.inputs.map argRs, ret := retRs f.ret f.throws, docstring := "" }

/-- ObjectTemplate.rs:13-28, 74-93. -/
def methodRs (self : String) (f : UFn) : FnSrc :=
  { kind := .method self, modulePath := f.modulePath, name := f.name, origName := none
    isAsync := f.isAsync, args := f.inputs.map argRs, ret := retRs f.ret f.throws, docstring := "" }

/-- ObjectTemplate.rs:53-72. `return_type` of a constructor is the type of the object:
interface/object.rs:415-427. -/
def constructorRs (self : String) (selfTy : MTy) (f : UFn) : FnSrc :=
  { kind := .constructor self, modulePath := f.modulePath, name := f.name, origName := none
    isAsync := f.isAsync, args := f.inputs.map argRs, ret := retRs (some selfTy) f.throws
    docstring := "" }

/-- CallbackInterfaceTemplate.rs:1-17, which never writes `async`. -/
def callbackMethodRs (self : String) (f : UFn) : FnSrc :=
  { kind := .method self, modulePath := f.modulePath, name := f.name, origName := none
    isAsync := false, args := f.inputs.map callbackArgRs, ret := retRs f.ret f.throws
    docstring := "" }

/-! ### Built-in traits: uniffi_macros/src/export/utrait.rs -/

/-- The names a trait can have in `export_for_udl_derive`: utrait.rs:29-200. -/
inductive Builtin where
  | debug | display | eq | hash | ord
  deriving DecidableEq

/-- A method generated for a built-in trait of the type `self`. -/
def helper (crate self name : String) (args : List ArgSrc) (ret : RTy) : FnSrc :=
  { kind := .method self, modulePath := crate, name := name, origName := none, isAsync := false
    args := args, ret := .plain (some ret), docstring := "" }

/-- `other: &Self`: utrait.rs:75-131, 155-180. -/
def otherRs (selfTy : RTy) : List ArgSrc :=
  [{ name := "other", ty := selfTy, passBy := .ref, default := none }]

/-- The methods generated for a trait: utrait.rs:29-200. -/
def helpers (crate self : String) (selfTy : RTy) : Builtin → List FnSrc
  | .debug => [helper crate self "uniffi_trait_debug" [] .string]
  | .display => [helper crate self "uniffi_trait_display" [] .string]
  | .eq =>
    [helper crate self "uniffi_trait_eq_eq" (otherRs selfTy) .bool,
     helper crate self "uniffi_trait_eq_ne" (otherRs selfTy) .bool]
  | .hash => [helper crate self "uniffi_trait_hash" [] .u64]
  | .ord => [helper crate self "uniffi_trait_ord_cmp" (otherRs selfTy) .i8]

/-! ### The component interface -/

/-- `throws_name`: interface/mod.rs:1414-1426. `none` is the panic. -/
def throwsName : Option MTy → Option (List String)
  | none => some []
  | some (.enum _ n) => some [n]
  | some (.object _ n _) => some [n]
  | some (.custom _ n (.enum _ _)) => some [n]
  | some (.custom _ n (.object _ _ _)) => some [n]
  | some _ => none

/-- The names an item adds to the set of errors: interface/mod.rs:928-945 (enums), 982-1069
(functions, constructors, methods), 1154-1156 (methods of callback interfaces). -/
def itemErrors : UItem → Option (List String)
  | .func f => throwsName f.throws
  | .method _ f => throwsName f.throws
  | .traitMethod _ _ f => throwsName f.throws
  | .constructor _ f => throwsName f.throws
  | .enum _ n (.error _) _ _ _ _ => some [n]
  | _ => some []

/-- `ComponentInterface::errors` after all items are added; `none` if one of them panics. Other
checks of `add_metadata` are in Gen/Assemble.lean and left out here. -/
def errorNames : List UItem → Option (List String)
  | [] => some []
  | i :: is =>
    match itemErrors i, errorNames is with
    | some a, some b => some (a ++ b)
    | _, _ => none

/-- The constructors of an object: interface/mod.rs:1001-1011. -/
def ctorsOf (items : List UItem) (n : String) : List UFn :=
  items.filterMap fun
    | .constructor self f => if self = n then some f else none
    | _ => none

/-- The methods of an object: interface/mod.rs:1035-1046. -/
def methodsOf (items : List UItem) (n : String) : List UFn :=
  items.filterMap fun
    | .method self f => if self = n then some f else none
    | _ => none

/-- The built-in traits of a type: interface/mod.rs:1071-1094. -/
def builtinsOf (items : List UItem) (n : String) : List UTrait :=
  items.filterMap fun
    | .uniffiTrait self t => if self = n then some t else none
    | _ => none

/-- The methods of a callback interface with their positions. -/
def callbacksOf (items : List UItem) (n : String) : List (Nat × UFn) :=
  items.filterMap fun
    | .traitMethod self i f => if self = n then some (i, f) else none
    | _ => none

/-- Inserting before the first element that comes after. -/
def insertSorted {α : Type} (le : α → α → Bool) (x : α) : List α → List α
  | [] => [x]
  | y :: ys => if le x y then x :: y :: ys else y :: insertSorted le x ys

/-- Iterating a `BTreeSet` or `BTreeMap`. -/
def sorted {α : Type} (le : α → α → Bool) (l : List α) : List α := l.foldr (insertSorted le) []

/-- The order of names. -/
def nameLe (f g : UFn) : Bool := decide (f.name ≤ g.name)

/-- The order of positions. -/
def indexLe (a b : Nat × UFn) : Bool := decide (a.1 ≤ b.1)

/-- The kind of a packed trait. -/
def UTrait.builtin : UTrait → Builtin
  | .debug _ => .debug
  | .display _ => .display
  | .eq _ _ => .eq
  | .hash _ => .hash
  | .ord _ => .ord

/-- `uniffi_trait_methods().…is_some()`: interface/object.rs:187-210, enum_.rs:293-312,
record.rs:117-136, with `from_iter` of `UniffiTraitMethods`, interface/mod.rs:1275-1310. -/
def hasTrait (items : List UItem) (n : String) (b : Builtin) : Bool :=
  (builtinsOf items n).any (·.builtin = b)

/-! ### What is exported -/

/-- A function a library exports: one to call, one that takes a table of callbacks, one that returns
a checksum. -/
inductive Entry where
  | call (symbol : String) (sig : CSig)
  | init (symbol : String) (table : List CTy)
  | checksum (symbol : String) (value : UInt16)

/-- `gen_ffi_function`: uniffi_macros/src/export/scaffolding.rs:214-320. -/
def exportFn (crate : String) (recv : RTy) (f : FnSrc) : Entry :=
  .call (f.scaffoldingSymbol crate) (scaffoldSig recv f)

/-- The functions that clone and free a handle: uniffi_macros/src/object.rs:84-126 and
export/trait_interface.rs:40-90. -/
def exportHandle (crate n : String) : List Entry :=
  [.call (cloneSymbol crate n)
      { params := [Rust.handle, .ptr (some Rust.rustCallStatus)], ret := some Rust.handle },
   .call (freeSymbol crate n)
      { params := [Rust.handle, .ptr (some Rust.rustCallStatus)], ret := none }]

/-- One `export_for_udl_derive`. -/
def exportTrait (crate self : String) (selfTy : RTy) (b : Builtin) : List Entry :=
  (helpers crate self selfTy b).map (exportFn crate selfTy)

/-- RecordTemplate.rs:4-20 and ObjectTemplate.rs:30-45. -/
def exportTraits (crate n : String) (selfTy : RTy) (items : List UItem) : List Entry :=
  (if hasTrait items n .debug then exportTrait crate n selfTy .debug else []) ++
  (if hasTrait items n .display then exportTrait crate n selfTy .display else []) ++
  (if hasTrait items n .hash then exportTrait crate n selfTy .hash else []) ++
  (if hasTrait items n .ord then exportTrait crate n selfTy .ord else []) ++
  (if hasTrait items n .eq then exportTrait crate n selfTy .eq else [])

/-- EnumTemplate.rs:5-20, which asks for `Debug` twice. -/
def exportEnumTraits (crate n : String) (selfTy : RTy) (items : List UItem) : List Entry :=
  (if hasTrait items n .debug then exportTrait crate n selfTy .debug else []) ++
  (if hasTrait items n .debug then exportTrait crate n selfTy .display else []) ++
  (if hasTrait items n .hash then exportTrait crate n selfTy .hash else []) ++
  (if hasTrait items n .ord then exportTrait crate n selfTy .ord else []) ++
  (if hasTrait items n .eq then exportTrait crate n selfTy .eq else [])

/-- The methods of an object in the order of the component interface, which is the order of the set
of metadata: by name, names being distinct. -/
def objectMethods (items : List UItem) (n : String) : List UFn := sorted nameLe (methodsOf items n)

/-- The methods of a callback interface in the order of the set of metadata: by position. -/
def callbackMethods (items : List UItem) (n : String) : List UFn :=
  (sorted indexLe (callbacksOf items n)).map (·.2)

/-- ObjectTemplate.rs; for a trait with foreign implementations also the function that takes the
table, uniffi_macros/src/export/trait_interface.rs:32-35. -/
def exportObject (crate : String) (items : List UItem) (m n : String) (imp : Impl) : List Entry :=
  let recv := typeRs (.object m n imp)
  exportHandle crate n ++
  match imp with
  | .struct =>
    exportTraits crate n recv items ++
    (ctorsOf items n).map (fun f => exportFn crate recv (constructorRs n (.object m n imp) f)) ++
    (objectMethods items n).map (fun f => exportFn crate recv (methodRs n f))
  | .trait k =>
    (objectMethods items n).map (fun f => exportFn crate recv (methodRs n f)) ++
    if k = .rustOnly then []
    else [.init (initVtableSymbol crate n) (rustVtable ((objectMethods items n).map (methodRs n)))]

/-- What is written for an item, without the checksums: scaffolding_template.rs:18-48. `errors` are
the names used as errors. -/
def exportItem (crate : String) (errors : List String) (items : List UItem) : UItem → List Entry
  | .func f => [exportFn crate (.record "" "") (functionRs f)]
  | .record m n _ _ _ => exportTraits crate n (.record m n) items
  | .enum m n _ _ _ _ _ =>
    if n ∈ errors then [] else exportEnumTraits crate n (.enum m n) items
  | .object m n _ imp _ => exportObject crate items m n imp
  | .callback _ n _ =>
    [.init (initVtableSymbol crate n)
      (rustVtable ((callbackMethods items n).map (callbackMethodRs n)))]
  | _ => []

/-- What a checksum is computed from. -/
inductive Hashed where
  | func (f : UFn)
  | method (self : String) (f : UFn)
  | constructor (self : String) (f : UFn)

/-- `iter_checksums`: interface/mod.rs:882-912, on a component interface made from a file, where no
checksum is stored. `hash` is `uniffi_meta::checksum`, C42. -/
def exportChecksums (crate : String) (hash : Hashed → UInt16) (items : List UItem) : UItem → List Entry
  | .func f => [.checksum (fnChecksumSymbol crate f.name) (hash (.func f))]
  | .object _ n _ _ _ =>
    (objectMethods items n).map (fun f =>
      .checksum (methodChecksumSymbol crate n f.name) (hash (.method n f))) ++
    (ctorsOf items n).map (fun f =>
      .checksum (constructorChecksumSymbol crate n f.name) (hash (.constructor n f)))
  | .callback _ n _ =>
    (callbackMethods items n).map fun f =>
      .checksum (methodChecksumSymbol crate n f.name) (hash (.method n f))
  | _ => []

/-- `generate_component_scaffolding`: the functions the generated Rust code exports, apart from those
every library has; `none` is a panic. -/
def scaffolding (hash : Hashed → UInt16) (g : UGroup) : Option (List Entry) :=
  (errorNames g.items).map fun errors =>
    g.items.flatMap (exportItem g.crate errors g.items) ++
    g.items.flatMap (exportChecksums g.crate hash g.items)

end Verif.Udl.File
