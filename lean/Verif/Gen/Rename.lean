import Verif.Gen.Api
import Verif.Gen.TypeWalk
/-
Leaving out and renaming items by configuration.
`Legacy` is the way of the Kotlin, Swift and Ruby generators: uniffi_bindgen/src/interface/exclude.rs,
interface/visit_mut.rs, interface/rename.rs. `Pipeline` is the way of the Python generator:
uniffi_bindgen/src/pipeline/general.
The TOML tables are functions; a value that is not a string counts as absent, as in the code.
Documentation, default values and checksums are left out.
-/
namespace Verif.Gen.Legacy
open Verif Verif.Meta Verif.Gen Verif.Gen.Api

/-! interface/exclude.rs -/

/-- `remove_constructors`, `remove_methods`: exclude.rs:70-80. -/
def removeMembers (out : List String) (typeName : String) (ms : List Member) : List Member :=
  ms.filter fun m => !out.contains (typeName ++ "." ++ m.sig.name)

/-- The names that `remove_type_definitions` collects: exclude.rs:46-59. -/
def removedNames (out : List String) (names : List String) : List String :=
  names.filter fun n => out.contains n

/-- `types.all_known_types.retain(..)`: exclude.rs:63-66. -/
def retainKnown (removed : List String) (known : List MTy) : List MTy :=
  known.filter fun t =>
    match tyName t with
    | none => true
    | some n => !removed.contains n

/-- `apply_exclusions`: exclude.rs:11-35. -/
def applyExclusions (out : List String) (api : Api) : Api :=
  let records := api.records.filter fun r => !out.contains r.name
  let enums := api.enums.filter fun e => !out.contains e.name
  let objects := api.objects.filter fun o => !out.contains o.name
  let callbacks := api.callbacks.filter fun c => !out.contains c.name
  { crate := api.crate
    functions := api.functions.filter fun f => !out.contains f.name
    records := records.map fun r =>
      { r with ctors := removeMembers out r.name r.ctors, methods := removeMembers out r.name r.methods }
    enums := enums.map fun e =>
      { e with ctors := removeMembers out e.name e.ctors, methods := removeMembers out e.name e.methods }
    objects := objects.map fun o =>
      { o with ctors := removeMembers out o.name o.ctors, methods := removeMembers out o.name o.methods }
    callbacks := callbacks.map fun c => { c with methods := removeMembers out c.name c.methods }
    known :=
      retainKnown (removedNames out (api.callbacks.map (·.name)))
        (retainKnown (removedNames out (api.objects.map (·.name)))
          (retainKnown (removedNames out (api.enums.map (·.name)))
            (retainKnown (removedNames out (api.records.map (·.name))) api.known))) }

/-! interface/rename.rs -/

/-- `Type::module_path`: uniffi_meta/src/types.rs:183-197. -/
def tyPath : MTy → Option String
  | .object m _ _ | .record m _ | .enum m _ | .custom m _ _ | .callbackInterface m _ => some m
  | _ => none

/-- `TomlRenamer::new_name`, and the assignment of the new name if there is one: rename.rs:25-32. -/
def rename (R : Renames) (modulePath key : String) (name : String) : String :=
  match R (crateName modulePath) key with
  | some new => new
  | none => name

/-- `visit_type`: rename.rs:91-103. -/
def visitType (R : Renames) (this : String) (t : MTy) : MTy :=
  let modulePath := match tyPath t with
    | some m => m
    | none => this
  renameRecursive (fun n => match R (crateName modulePath) n with | some new => new | none => n) t

/-- The names of the fields in `visit_record` and `visit_enum`: rename.rs:40-45, 76-81. -/
def fieldNames (R : Renames) (modulePath path : String) (fs : List Slot) : List Slot :=
  fs.map fun f => { f with name := rename R modulePath (path ++ "." ++ f.name) f.name }

/-- `visit_record`: rename.rs:36-50. -/
def visitRecord (R : Renames) (r : Rec) : Rec :=
  { r with
    fields := fieldNames R r.path r.name r.fields
    name := rename R r.path r.name r.name }

/-- `visit_object`: rename.rs:52-57. -/
def visitObject (R : Renames) (o : Obj) : Obj := { o with name := rename R o.path o.name o.name }

/-- `visit_callback_interface`: rename.rs:59-64. -/
def visitCallback (R : Renames) (c : Cb) : Cb := { c with name := rename R c.path c.name c.name }

/-- `visit_enum`: rename.rs:66-89. -/
def visitEnum (R : Renames) (e : Enum) : Enum :=
  { e with
    variants := e.variants.map fun v =>
      { v with
        fields := fieldNames R e.path (e.name ++ "." ++ v.name) v.fields
        name := rename R e.path (e.name ++ "." ++ v.name) v.name }
    name := rename R e.path e.name e.name }

/-- `visit_method`, `visit_constructor`: rename.rs:105-135. -/
def visitMember (R : Renames) (this objectName : String) (m : Member) : Member :=
  let methodName := objectName ++ "." ++ m.sig.name
  { m with sig := { m.sig with
      name := rename R this methodName m.sig.name
      args := m.sig.args.map fun a => { a with name := rename R this (methodName ++ "." ++ a.name) a.name } } }

/-- `visit_function`: rename.rs:137-150. -/
def visitFunction (R : Renames) (this : String) (f : Sig) : Sig :=
  { f with
    name := rename R this f.name f.name
    args := f.args.map fun a => { a with name := rename R this (f.name ++ "." ++ a.name) a.name } }

/-! interface/visit_mut.rs -/

/-- The types of a list of fields or arguments. -/
def visitSlotTypes (R : Renames) (this : String) (ss : List Slot) : List Slot :=
  ss.map fun s => { s with ty := visitType R this s.ty }

/-- The types of arguments, result and error of a function or method: visit_mut.rs:56-75, 86-104. -/
def visitSigTypes (R : Renames) (this : String) (f : Sig) : Sig :=
  { f with
    args := visitSlotTypes R this f.args
    ret := f.ret.map (visitType R this)
    throws := f.throws.map (visitType R this) }

/-- Only the types of the arguments: constructors and methods of callback interfaces,
visit_mut.rs:107-115, 119-127. -/
def visitArgTypes (R : Renames) (this : String) (f : Sig) : Sig :=
  { f with args := visitSlotTypes R this f.args }

/-- The loop over the objects: visit_mut.rs:78-116. -/
def walkObject (R : Renames) (this : String) (o : Obj) : Obj :=
  let objectName := o.name
  let o := visitObject R o
  { o with
    methods := o.methods.map fun m =>
      let m := visitMember R this objectName m
      { m with sig := visitSigTypes R this m.sig }
    ctors := o.ctors.map fun m =>
      let m := visitMember R this objectName m
      { m with sig := visitArgTypes R this m.sig } }

/-- The loop over the callback interfaces: visit_mut.rs:118-131. The methods are visited under the
name the interface has by then. -/
def walkCallback (R : Renames) (this : String) (c : Cb) : Cb :=
  let c := visitCallback R c
  { c with
    methods := c.methods.map fun m =>
      let m := visitMember R this c.name m
      { m with sig := visitArgTypes R this m.sig } }

/-- `ComponentInterface::visit_mut` with the `TomlRenamer`: visit_mut.rs:18-158, rename.rs:12-18. Not
modelled: `type_definitions`, `callback_interface_throws_types` and `errors`, which hold types and
names that are in the interface elsewhere. -/
def visitMut (R : Renames) (api : Api) : Api :=
  let this := api.crate
  { crate := api.crate
    functions := api.functions.map fun f => visitSigTypes R this (visitFunction R this f)
    records := api.records.map fun r =>
      let r := visitRecord R r
      { r with fields := visitSlotTypes R this r.fields }
    enums := api.enums.map fun e =>
      let e := visitEnum R e
      { e with variants := e.variants.map fun v => { v with fields := visitSlotTypes R this v.fields } }
    objects := api.objects.map (walkObject R this)
    callbacks := api.callbacks.map (walkCallback R this)
    known := api.known.map (visitType R this) }

/-- `has_callback_interface`: uniffi_meta/src/types.rs:59-61. -/
def hasCallbackInterface : Impl → Bool
  | .trait .both | .trait .foreignOnly => true
  | _ => false

/-- `derive_ffi_funcs` as far as names go, and the callback tables as the templates get them:
object.rs:251-257, 294-305, callbacks.rs:79-107. -/
def deriveFfi (api : Api) : Api :=
  { api with
    objects := api.objects.map fun o =>
      { o with
        table := if hasCallbackInterface o.imp then some (Table.mk (initVtableSymbol o.path o.name) o.methods)
          else none }
    callbacks := api.callbacks.map fun c =>
      { c with table := ⟨initVtableSymbol c.path c.name, c.methods⟩ } }

/-- `apply_renames` and the call of `derive_ffi_funcs` after it: bindings/kotlin/mod.rs:50-53, 107-127,
bindings/swift/mod.rs:75-79, 248-268, bindings/ruby/mod.rs:29-32, 79-97. -/
def configure (R : Renames) (out : List String) (api : Api) : Api :=
  deriveFfi (visitMut R (applyExclusions out api))

end Verif.Gen.Legacy

namespace Verif.Gen.Pipeline
open Verif Verif.Meta Verif.Gen Verif.Gen.Api

/-- `new_name_from_rename_table(..).unwrap_or(name)`: context.rs:87-100. The pipeline finds tables by
namespace; here the crate stands for its namespace. A table that is missing altogether (an error in
the code) does not occur, since every loaded crate has one. -/
def rename (R : Renames) (crate key name : String) : String :=
  match R crate key with
  | some new => new
  | none => name

/-- `map_type`: types.rs:67-112. -/
def mapType (R : Renames) : MTy → MTy
  | .record m n => .record m (rename R (crateName m) n n)
  | .enum m n => .enum m (rename R (crateName m) n n)
  | .object m n i => .object m (rename R (crateName m) n n) i
  | .callbackInterface m n => .callbackInterface m (rename R (crateName m) n n)
  | .custom m n b => .custom m (rename R (crateName m) n n) b
  | .optional t => .optional (mapType R t)
  | .sequence t => .sequence (mapType R t)
  | .map k v => .map (mapType R k) (mapType R v)
  | .set t => .set (mapType R t)
  | t => t

/-- `rename::field` with `current_variant` not set: rename.rs:37-51, nodes.rs:274-284. -/
def mapField (R : Renames) (crate typeName : String) (f : Slot) : Slot :=
  ⟨rename R crate (typeName ++ "." ++ f.name) f.name, mapType R f.ty⟩

/-- `rename::field` with `current_variant` set. -/
def mapVariantField (R : Renames) (crate typeName variantName : String) (f : Slot) : Slot :=
  ⟨rename R crate (typeName ++ "." ++ variantName ++ "." ++ f.name) f.name, mapType R f.ty⟩

/-- `map_func_args`: callable.rs:142-165. -/
def mapFuncArg (R : Renames) (crate fnName : String) (a : Slot) : Slot :=
  ⟨rename R crate (fnName ++ "." ++ a.name) a.name, mapType R a.ty⟩

/-- `map_method_args`: callable.rs:167-190. -/
def mapMethodArg (R : Renames) (crate typeName methodName : String) (a : Slot) : Slot :=
  ⟨rename R crate (typeName ++ "." ++ methodName ++ "." ++ a.name) a.name, mapType R a.ty⟩

/-- `function_callable`: callable.rs:28-56. -/
def functionCallable (R : Renames) (crate : String) (f : Sig) : Sig :=
  { name := rename R crate f.name f.name
    args := f.args.map (mapFuncArg R crate f.name)
    ret := f.ret.map (mapType R)
    throws := f.throws.map (mapType R)
    symbol := fnSymbol crate f.name }

/-- `method_callable_with_kind`: callable.rs:70-104. `selfType` is `context.self_type()`. -/
def methodCallable (R : Renames) (crate typeName : String) (selfType : MTy) (m : Sig) : Member :=
  ⟨selfType,
    { name := rename R crate (typeName ++ "." ++ m.name) m.name
      args := m.args.map (mapMethodArg R crate typeName m.name)
      ret := m.ret.map (mapType R)
      throws := m.throws.map (mapType R)
      symbol := methodSymbol crate typeName m.name }⟩

/-- `constructor_callable`: callable.rs:106-140. Constructors of records and enums, which are refused
there, are treated like those of objects. -/
def constructorCallable (R : Renames) (crate typeName : String) (selfType : MTy) (m : Sig) : Member :=
  ⟨selfType,
    { name := rename R crate (typeName ++ "." ++ m.name) m.name
      args := m.args.map (mapMethodArg R crate typeName m.name)
      ret := m.ret.map (mapType R)
      throws := m.throws.map (mapType R)
      symbol := constructorSymbol crate typeName m.name }⟩

/-- `should_exclude_method`: exclude.rs:43-49. -/
def excludeMethod (out : List String) (typeName methodName : String) : Bool :=
  out.contains (typeName ++ "." ++ methodName)

/-- `constructors`: objects.rs:86-101. -/
def constructors (R : Renames) (out : List String) (crate typeName : String) (selfType : MTy)
    (ms : List Member) : List Member :=
  ms.filterMap fun m =>
    if excludeMethod out typeName m.sig.name then none
    else some (constructorCallable R crate typeName selfType m.sig)

/-- `methods_with_kind`: objects.rs:103-120. -/
def methods (R : Renames) (out : List String) (crate typeName : String) (selfType : MTy)
    (ms : List Member) : List Member :=
  ms.filterMap fun m =>
    if excludeMethod out typeName m.sig.name then none
    else some (methodCallable R crate typeName selfType m.sig)

/-- `map_trait_vec`: uniffi_traits.rs:7-32. -/
def traitMethods (R : Renames) (crate typeName : String) (selfType : MTy) (ms : List Member) :
    List Member :=
  ms.map fun m => methodCallable R crate typeName selfType m.sig

/-- `vtable`: callback_interfaces.rs:10-57. -/
def vtable (R : Renames) (crate typeName : String) (selfType : MTy) (ms : List Member) : Table :=
  ⟨initVtableSymbol crate typeName, ms.map fun m => methodCallable R crate typeName selfType m.sig⟩

/-- `Record`: nodes.rs:242-264. `type_for_record` names the type in the current namespace
(types.rs:114-120); here its path stands for it, as in all types. -/
def mapRecord (R : Renames) (out : List String) (crate : String) (r : Rec) : Rec :=
  let selfType := mapType R (.record r.path r.name)
  { path := r.path
    name := rename R crate r.name r.name
    fields := r.fields.map (mapField R crate r.name)
    ctors := constructors R out crate r.name selfType r.ctors
    methods := methods R out crate r.name selfType r.methods
    traits := traitMethods R crate r.name selfType r.traits }

/-- `Enum` and `map_variants`: nodes.rs:286-318, enums.rs:9-38. -/
def mapEnum (R : Renames) (out : List String) (crate : String) (e : Enum) : Enum :=
  let selfType := mapType R (.enum e.path e.name)
  { path := e.path
    name := rename R crate e.name e.name
    variants := e.variants.map fun v =>
      ⟨rename R crate (e.name ++ "." ++ v.name) v.name,
        v.fields.map (mapVariantField R crate e.name v.name)⟩
    ctors := constructors R out crate e.name selfType e.ctors
    methods := methods R out crate e.name selfType e.methods
    traits := traitMethods R crate e.name selfType e.traits }

/-- `Interface`: nodes.rs:332-360, objects.rs:7-19, callback_interfaces.rs:59-65. -/
def mapInterface (R : Renames) (out : List String) (crate : String) (o : Obj) : Obj :=
  let selfType := mapType R (.object o.path o.name o.imp)
  { path := o.path
    imp := o.imp
    name := rename R crate o.name o.name
    ctors := constructors R out crate o.name selfType o.ctors
    methods := methods R out crate o.name selfType o.methods
    traits := traitMethods R crate o.name selfType o.traits
    cloneSymbol := Meta.cloneSymbol crate o.name
    freeSymbol := Meta.freeSymbol crate o.name
    table := if Legacy.hasCallbackInterface o.imp then some (vtable R crate o.name selfType o.methods)
      else none }

/-- `CallbackInterface`: nodes.rs:362-377. -/
def mapCallbackInterface (R : Renames) (out : List String) (crate : String) (c : Cb) : Cb :=
  let selfType := mapType R (.callbackInterface c.path c.name)
  { path := c.path
    name := rename R crate c.name c.name
    methods := methods R out crate c.name selfType c.methods
    table := vtable R crate c.name selfType c.methods }

/-- Whether a type definition is left out: namespaces.rs:32-43. Types of other crates and compound
types are not among the definitions that are looked up. -/
def excludeType (crate : String) (out : List String) (t : MTy) : Bool :=
  match Legacy.tyPath t, tyName t with
  | some m, some n => crateName m == crate && out.contains n
  | _, _ => false

/-- `map_namespace`: namespaces.rs:8-82. The definition of a custom type (nodes.rs:407-420) is treated
like a reference to it, although its builtin type is mapped too. -/
def mapNamespace (R : Renames) (out : List String) (api : Api) : Api :=
  let crate := api.crate
  { crate := crate
    functions := api.functions.filterMap fun f =>
      if out.contains f.name then none else some (functionCallable R crate f)
    records := api.records.filterMap fun r =>
      if out.contains r.name then none else some (mapRecord R out crate r)
    enums := api.enums.filterMap fun e =>
      if out.contains e.name then none else some (mapEnum R out crate e)
    objects := api.objects.filterMap fun o =>
      if out.contains o.name then none else some (mapInterface R out crate o)
    callbacks := api.callbacks.filterMap fun c =>
      if out.contains c.name then none else some (mapCallbackInterface R out crate c)
    known := api.known.filterMap fun t =>
      if excludeType crate out t then none else some (mapType R t) }

end Verif.Gen.Pipeline
