import Verif.Udl.Scaffold
import Verif.Abi.Generator
/-
What the bindings generators look up in the library, for the items of an interface definition file:
the functions they call, the functions they hand tables of callbacks to and the checksums they
compare. Defaults and documentation play no part in this and are dropped.
-/
namespace Verif.Udl.File
open Verif Verif.Meta Verif.Udl Verif.Abi

/-- An argument as metadata: uniffi_meta/src/lib.rs:265-276. -/
def UArg.toM (a : UArg) : MArg :=
  { name := a.name, ty := a.ty, passBy := a.passBy, optional := a.optional, default := none }

/-- A function or method as metadata: lib.rs:140-156, 192-244. -/
def UFn.toM (f : UFn) : MFn :=
  { modulePath := f.modulePath, name := f.name, origName := none, isAsync := f.isAsync
    inputs := f.inputs.map UArg.toM, returnType := f.ret, throws := f.throws, checksum := none
    docstring := none }

/-- A constructor as metadata: lib.rs:164-179. -/
def UFn.toCons (self : String) (f : UFn) : MCons :=
  { modulePath := f.modulePath, selfName := self, name := f.name, origName := none
    isAsync := f.isAsync, inputs := f.inputs.map UArg.toM, throws := f.throws, checksum := none
    docstring := none }

/-- A generator: the crate a symbol is named after, for the module path in the metadata; what is
declared for a callable and for a table of callbacks; how that is written down. -/
structure Gen where
  lib : String → String
  decl : MTy → Metadata → Option Decl
  handle : FTy
  table : List MFn → List (String × FTy)
  sig : Decl → CSig
  ctype : FTy → CTy

/-- The pipeline, with the Python templates. Symbols are named after the crate of the group:
pipeline/general/callable.rs:46-49, 76-80, 110-114. -/
def python (ctx : Ctx) (crate : String) : Gen :=
  { lib := fun _ => crate, decl := pipelineDecl ctx, handle := .handle, table := pipelineVtable ctx
    sig := Python.sig, ctype := Python.ctype }

/-- The component interface, with the Swift templates. Symbols are named after the module path of the
item: uniffi_meta/src/lib.rs:146-243. -/
def swift : Gen :=
  { lib := id, decl := legacyDecl, handle := .handle, table := legacyVtable
    sig := Swift.sig, ctype := Swift.ctype }

/-- With the Kotlin templates. -/
def kotlin : Gen :=
  { lib := id, decl := legacyDecl, handle := .handle, table := legacyVtable
    sig := Kotlin.sig, ctype := Kotlin.ctype }

/-- With the Ruby templates, which know no tables of callbacks. -/
def ruby : Gen :=
  { lib := id, decl := legacyDecl, handle := .handle, table := legacyVtable
    sig := Ruby.sig, ctype := Ruby.ctype }

/-- The function looked up for a callable. -/
def Gen.look (G : Gen) (symbol : String) (recv : MTy) (m : Metadata) : List Entry :=
  (G.decl recv m).toList.map fun d => .call symbol (G.sig d)

/-- The functions called for functions, constructors, methods and handles: pipeline
ffi_functions.rs:9-113, objects.rs:21-85; interface/mod.rs:809-832, object.rs:215-271. Methods of
callback interfaces are not called. -/
def Gen.calls (G : Gen) (items : List UItem) : UItem → List Entry
  | .func f => G.look (fnSymbol (G.lib f.modulePath) f.name) (.record "" "") (.func f.toM)
  | .object m n _ imp _ =>
    [.call (cloneSymbol (G.lib m) n)
        (G.sig { args := [G.handle], status := true, ret := some G.handle }),
     .call (freeSymbol (G.lib m) n) (G.sig { args := [G.handle], status := true, ret := none })] ++
    (ctorsOf items n).flatMap (fun f =>
      G.look (constructorSymbol (G.lib f.modulePath) n f.name) (.object m n imp)
        (.constructor (f.toCons n))) ++
    (objectMethods items n).flatMap (fun f =>
      G.look (methodSymbol (G.lib f.modulePath) n f.name) (.object m n imp) (.method ⟨n, f.toM⟩))
  | _ => []

/-- The methods of a built-in trait: interface/mod.rs:1240-1270. -/
def UTrait.methods : UTrait → List UFn
  | .debug f => [f]
  | .display f => [f]
  | .eq e n => [e, n]
  | .hash f => [f]
  | .ord f => [f]

/-- The type an item defines, when it can have built-in traits. -/
def ownerType : UItem → Option (String × MTy)
  | .object m n _ imp _ => some (n, .object m n imp)
  | .record m n _ _ _ => some (n, .record m n)
  | .enum m n _ _ _ _ _ => some (n, .enum m n)
  | _ => none

/-- The functions called for a built-in trait of a type: pipeline ffi_functions.rs:38-79, which
visits every method in an object, a record or an enum; interface/object.rs:224-235,
enum_.rs:319-330, record.rs:143-154. -/
def Gen.helpers (G : Gen) (n : String) (ty : MTy) (t : UTrait) : List Entry :=
  t.methods.flatMap fun f =>
    G.look (methodSymbol (G.lib f.modulePath) n f.name) ty (.method ⟨n, f.toM⟩)

/-- The function a table of callbacks is handed to, and the table: pipeline
callback_interfaces.rs:15-60, interface/object.rs:246-252, callbacks.rs:88-96. -/
def Gen.tables (G : Gen) (items : List UItem) : UItem → List Entry
  | .object m n _ (.trait k) _ =>
    if k = .rustOnly then []
    else [.init (initVtableSymbol (G.lib m) n)
      ((G.table ((objectMethods items n).map UFn.toM)).map fun x => G.ctype x.2)]
  | .callback m n _ =>
    [.init (initVtableSymbol (G.lib m) n)
      ((G.table ((callbackMethods items n).map UFn.toM)).map fun x => G.ctype x.2)]
  | _ => []

/-- The checksums compared, when they were stored while the file was read again for the bindings:
`add_checksums_to_udl_group`, loader.rs:127-149; pipeline checksums.rs:9-60 and the functions, methods
and constructors of `iter_checksums`, interface/mod.rs:882-912. -/
def Gen.checksums (G : Gen) (hash : Hashed → UInt16) (items : List UItem) : UItem → List Entry
  | .func f => [.checksum (fnChecksumSymbol (G.lib f.modulePath) f.name) (hash (.func f))]
  | .object _ n _ _ _ =>
    (objectMethods items n).map (fun f =>
      .checksum (methodChecksumSymbol (G.lib f.modulePath) n f.name) (hash (.method n f))) ++
    (ctorsOf items n).map (fun f =>
      .checksum (constructorChecksumSymbol (G.lib f.modulePath) n f.name) (hash (.constructor n f)))
  | _ => []

/-- The checksums of methods of callback interfaces, which only Kotlin and Swift compare. None is
stored, so it is computed from the method as it is then, which is after `rename`, the renaming in
the configuration: interface/mod.rs:899-908, visit_mut.rs:112-126,
object.rs:572-574. -/
def Gen.callbackChecksums (G : Gen) (hash : Hashed → UInt16) (rename : UFn → UFn)
    (items : List UItem) : UItem → List Entry
  | .callback _ n _ =>
    (callbackMethods items n).map fun f =>
      .checksum (methodChecksumSymbol (G.lib f.modulePath) n f.name) (hash (.method n (rename f)))
  | _ => []

end Verif.Udl.File
