/-!
# What `#[uniffi::export]` makes of an item

The model of `ExportItem::new` and of the decisions of `expand_export`: which arguments of the
attribute are taken, which items are refused, and what is exported under which name, with which
default values and which async runtime. Rust's syntax is modelled after parsing by `syn`: an attribute
argument is a word, `word = "text"` or `default(...)`; documentation, spans, generic arguments in the
path of an attribute and the tokens of the generated code are left out. `udl_mode` is false throughout.
-/

namespace Verif.Export

/-- The errors of the macro, one for each message: item.rs, attributes.rs, fnsig.rs, scaffolding.rs and
util.rs of uniffi_macros. Messages are not modelled. -/
inductive Err
  | unknownArgument | unknownRuntime | redundant | newWithLegacy | exclusive | badDefault
  | unsupportedPath | unknownAttribute | duplicateConstructor | confused
  | remoteForeign | generic | notFn | defaultBody | constructorInTrait | selfType | noBuiltinTrait
  | argumentName | unexpectedReceiver | unknownDefault | mutBytesAsync | notAsync | noAsync
  | selfParam | constructorSelf | noSelf
  deriving DecidableEq, Repr

/-- One entry of `default(...)`: `name = value`, or the name alone: attributes.rs:443-470. Values are
opaque texts. -/
structure DefaultEntry where
  name : String
  value : Option String
  deriving DecidableEq, Repr

/-- One argument of an attribute, between commas. -/
inductive Argument
  | word (w : String)
  | assign (key value : String)
  | defaults (entries : List DefaultEntry) (trailingComma : Bool)
  deriving DecidableEq, Repr

/-- `AsyncRuntime`: attributes.rs:279-282. -/
inductive Runtime
  | tokio
  deriving DecidableEq, Repr

/-- `DefaultValue`: uniffi_macros/src/default.rs. `implicit` is `DefaultValue::Default`, the default of
the type; other values are not taken apart. -/
inductive Value
  | implicit
  | given (text : String)
  deriving DecidableEq, Repr

/-- `AsyncRuntime::parse`: attributes.rs:284-295. -/
def parseRuntime (s : String) : Except Err Runtime :=
  if s = "tokio" then .ok .tokio else .error .unknownRuntime

/-- `either_attribute_arg`: util.rs:211-221. -/
def either {α : Type} : Option α → Option α → Except Err (Option α)
  | none, none => .ok none
  | some a, none => .ok (some a)
  | none, some b => .ok (some b)
  | some _, some _ => .error .redundant

/-! ### Traits -/

/-- `ExportTraitArgs`: attributes.rs:30-43. -/
structure TraitArgs where
  asyncRuntime : Option Runtime := none
  callbackInterface : Option Unit := none
  withForeign : Option Unit := none
  rust : Option Unit := none
  foreign : Option Unit := none
  remote : Option Unit := none
  deriving DecidableEq, Repr

/-- `ExportTraitArgs::parse_one`: attributes.rs:52-89. -/
def TraitArgs.parseOne : Argument → Except Err TraitArgs
  | .assign key value =>
    if key = "async_runtime" then do
      let r ← parseRuntime value
      .ok { asyncRuntime := some r }
    else .error .unknownArgument
  | .word w =>
    if w = "callback_interface" then .ok { callbackInterface := some () }
    else if w = "with_foreign" then .ok { withForeign := some () }
    else if w = "rust" then .ok { rust := some () }
    else if w = "foreign" then .ok { foreign := some () }
    else if w = "remote" then .ok { remote := some () }
    else .error .unknownArgument
  | .defaults _ _ => .error .unknownArgument

/-- `ExportTraitArgs::merge`: attributes.rs:91-118. -/
def TraitArgs.merge (a b : TraitArgs) : Except Err TraitArgs := do
  let asyncRuntime ← either a.asyncRuntime b.asyncRuntime
  let callbackInterface ← either a.callbackInterface b.callbackInterface
  let withForeign ← either a.withForeign b.withForeign
  let rust ← either a.rust b.rust
  let foreign ← either a.foreign b.foreign
  let remote ← either a.remote b.remote
  if (rust.isSome || foreign.isSome) && (callbackInterface.isSome || withForeign.isSome) then
    .error .newWithLegacy
  else if callbackInterface.isSome && withForeign.isSome then .error .exclusive
  else .ok { asyncRuntime, callbackInterface, withForeign, rust, foreign, remote }

/-- `parse_comma_separated` for `ExportTraitArgs`: util.rs:171-174. All arguments are parsed before the
first two are merged. -/
def TraitArgs.parse (l : List Argument) : Except Err TraitArgs := do
  let parts ← l.mapM TraitArgs.parseOne
  parts.foldlM TraitArgs.merge {}

/-- `TraitKind`: uniffi_meta/src/types.rs. -/
inductive TraitKind
  | rustOnly | foreignOnly | both
  deriving DecidableEq, Repr

/-- `TraitKind::has_foreign`: uniffi_meta/src/types.rs. -/
def TraitKind.hasForeign : TraitKind → Bool
  | .rustOnly => false
  | .foreignOnly => true
  | .both => true

/-- The kind of a trait and `callback_interface_only`: item.rs:157-176. -/
def TraitArgs.kind (a : TraitArgs) : TraitKind × Bool :=
  if a.rust.isSome || a.foreign.isSome then
    match a.rust.isSome, a.foreign.isSome with
    | true, true => (.both, false)
    | true, false => (.rustOnly, false)
    | false, _ => (.foreignOnly, false)
  else if a.withForeign.isSome || a.callbackInterface.isSome then (.both, a.callbackInterface.isSome)
  else (.rustOnly, a.callbackInterface.isSome)

/-! ### Functions, methods and constructors -/

/-- `ExportFnArgs`: attributes.rs:124-129. The hash map of default values is a list of pairs without two
for the same name. -/
structure FnArgs where
  asyncRuntime : Option Runtime := none
  name : Option String := none
  defaults : List (String × Value) := []
  deriving DecidableEq, Repr

/-- `HashMap::insert`. -/
def insert (m : List (String × Value)) (e : String × Value) : List (String × Value) :=
  m.filter (fun x => x.1 ≠ e.1) ++ [e]

/-- `HashMap::extend` and `collect`: attributes.rs:416-420, 437-439. -/
def extend (m es : List (String × Value)) : List (String × Value) := es.foldl insert m

/-- The entries of `default(...)`, `DefaultPair::parse` under `parse_terminated`: attributes.rs:436,
448-470. A name alone is taken only when nothing follows it, not even a comma. -/
def parseEntries (trailing : Bool) : List DefaultEntry → Except Err (List (String × Value))
  | [] => .ok []
  | [⟨n, none⟩] => if trailing then .error .badDefault else .ok [(n, .implicit)]
  | ⟨_, none⟩ :: _ :: _ => .error .badDefault
  | ⟨n, some v⟩ :: rest => do
    let tail ← parseEntries trailing rest
    .ok ((n, .given v) :: tail)

/-- `ExportFnArgs::parse_one`: attributes.rs:138-166. -/
def FnArgs.parseOne : Argument → Except Err FnArgs
  | .assign key value =>
    if key = "async_runtime" then do
      let r ← parseRuntime value
      .ok { asyncRuntime := some r }
    else if key = "name" then .ok { name := some value }
    else .error .unknownArgument
  | .defaults entries trailing => do
    let pairs ← parseEntries trailing entries
    .ok { defaults := extend [] pairs }
  | .word _ => .error .unknownArgument

/-- `ExportFnArgs::merge`: attributes.rs:168-174. -/
def FnArgs.merge (a b : FnArgs) : Except Err FnArgs := do
  let asyncRuntime ← either a.asyncRuntime b.asyncRuntime
  let name ← either a.name b.name
  .ok { asyncRuntime, name, defaults := extend a.defaults b.defaults }

/-- `parse_comma_separated` for `ExportFnArgs`: util.rs:171-174. -/
def FnArgs.parse (l : List Argument) : Except Err FnArgs := do
  let parts ← l.mapM FnArgs.parseOne
  parts.foldlM FnArgs.merge {}

/-! ### The attributes of a method -/

/-- What stands after the path of an attribute: nothing, arguments in brackets, or `= value`. -/
inductive Body
  | path
  | list (args : List Argument)
  | nameValue
  deriving DecidableEq, Repr

/-- `syn::Meta`: a path and its body. Generic arguments in the path are left out, so
`ensure_no_path_args` (attributes.rs:401-407) always succeeds. -/
structure Meta where
  path : List String
  body : Body
  deriving DecidableEq, Repr

/-- An attribute of a method: one that is written out, or `cfg_attr` with its condition and the
attributes it stands for, all of them as `syn` parses them; `cfgAttr none` is one that `syn` cannot
parse that way: attributes.rs:394-399, 320-322. -/
inductive Attribute
  | plain (m : Meta)
  | cfgAttr (nested : Option (List Meta))
  deriving DecidableEq, Repr

/-- `ExportedImplFnAttributes`: attributes.rs:305-309. -/
structure FnAttributes where
  constructor_ : Bool := false
  args : FnArgs := {}
  deriving DecidableEq, Repr

/-- The arguments `process_path` reads: attributes.rs:347-350. -/
def bodyArgs : Body → Except Err FnArgs
  | .list args => FnArgs.parse args
  | _ => .ok {}

/-- `ExportedImplFnAttributes::process_path`: attributes.rs:335-384. -/
def processPath (this : FnAttributes) (m : Meta) : Except Err FnAttributes :=
  if m.path.head? = some "uniffi" then do
    let args ← bodyArgs m.body
    match m.path with
    | [_, snd] =>
      if snd = "constructor" then
        if this.constructor_ then .error .duplicateConstructor else .ok ⟨true, args⟩
      else if snd = "method" then
        if this.constructor_ then .error .confused else .ok ⟨this.constructor_, args⟩
      else .error .unknownAttribute
    | _ => .error .unsupportedPath
  else .ok this

/-- One turn of the loop of `ExportedImplFnAttributes::new`: attributes.rs:314-330. Under `cfg_attr`
only bare paths are looked at. -/
def processAttribute (this : FnAttributes) : Attribute → Except Err FnAttributes
  | .plain m => if m.path.head? = some "uniffi" then processPath this m else .ok this
  | .cfgAttr none => .ok this
  | .cfgAttr (some nested) => (nested.filter (fun m => m.body = .path)).foldlM processPath this

/-- `ExportedImplFnAttributes::new`: attributes.rs:312-333. -/
def FnAttributes.parse (attrs : List Attribute) : Except Err FnAttributes :=
  attrs.foldlM processAttribute {}

/-! ### Types -/

/-- Rust types as far as `Self` and references matter. Generic arguments are applied one at a time;
tuples are built from pairs. -/
inductive Ty
  | name (segments : List String)
  | app (f a : Ty)
  | ref (mut_ : Bool) (t : Ty)
  | slice (t : Ty)
  | unit
  | pair (a b : Ty)
  deriving DecidableEq, Repr

/-- The path a generic argument is applied to is no type of its own, so only its arguments are visited:
export.rs:213-222 with `syn::visit_mut::visit_type_mut`. -/
def Ty.rewriteAs (self : Ty) : (head : Bool) → Ty → Ty
  | head, .name s => if head = false && s = ["Self"] then self else .name s
  | _, .app f a => .app (Ty.rewriteAs self true f) (Ty.rewriteAs self false a)
  | _, .ref m t => .ref m (Ty.rewriteAs self false t)
  | _, .slice t => .slice (Ty.rewriteAs self false t)
  | _, .unit => .unit
  | _, .pair a b => .pair (Ty.rewriteAs self false a) (Ty.rewriteAs self false b)

/-- `RewriteSelfVisitor`: export.rs:211-222. -/
def Ty.rewriteSelf (t self : Ty) : Ty := Ty.rewriteAs self false t

/-! ### Signatures -/

/-- `syn::FnArg`: a receiver, a named argument, or an argument with a pattern that is no name. The
receiver is given by its type: fnsig.rs:500-513. -/
inductive Input
  | receiver (ty : Ty)
  | named (name : String) (ty : Ty)
  | pattern (ty : Ty)
  deriving DecidableEq, Repr

/-- `syn::Signature`. -/
structure Sig where
  ident : String
  isAsync : Bool := false
  inputs : List Input := []
  output : Option Ty := none
  deriving DecidableEq, Repr

/-- `PassBy`: uniffi_meta. -/
inductive PassBy
  | value | ref | mutRef
  deriving DecidableEq, Repr

/-- `is_u8_slice` and the choice of `pass_by` in `NamedArg::new`: fnsig.rs:23-30, 528-560. -/
def passBy : Ty → PassBy
  | .ref true (.slice (.name ["u8"])) => .mutRef
  | .ref _ _ => .ref
  | _ => .value

/-- `NamedArg`: fnsig.rs:516-525. -/
structure NamedArg where
  name : String
  ty : Ty
  passBy : PassBy
  default_ : Option Value
  deriving DecidableEq, Repr

/-- The last segment of the path of a type. -/
def Ty.lastSegment : Ty → Option String
  | .name s => s.getLast?
  | .app f _ => Ty.lastSegment f
  | _ => none

/-- `ReceiverArg`: fnsig.rs:495-513. -/
inductive ReceiverArg
  | ref | arc
  deriving DecidableEq, Repr

/-- `From<Receiver>`: fnsig.rs:500-513. -/
def receiverOf (ty : Ty) : ReceiverArg :=
  if ty.lastSegment = some "Arc" then .arc else .ref

/-- `FnKind`: fnsig.rs:603-617. -/
inductive FnKind
  | function
  | constructor_ (self foreignSelf : String)
  | method (self foreignSelf : String)
  | traitMethod (self : String) (index : Nat)
  deriving DecidableEq, Repr

/-- `FnSignature`: fnsig.rs:32-52. -/
structure FnSignature where
  kind : FnKind
  ident : String
  name : String
  isAsync : Bool
  asyncRuntime : Option Runtime
  receiver : Option ReceiverArg
  args : List NamedArg
  returnTy : Ty
  deriving DecidableEq, Repr

/-- `HashMap::remove`: the value found and what is left. -/
def remove (m : List (String × Value)) (n : String) : Option Value × List (String × Value) :=
  ((m.find? (fun x => x.1 = n)).map Prod.snd, m.filter (fun x => x.1 ≠ n))

/-- The arguments after the receiver, taking their default values out of the map: fnsig.rs:144-153,
475-488 and 527-563. -/
def namedArgs (m : List (String × Value)) :
    List Input → Except Err (List NamedArg × List (String × Value))
  | [] => .ok ([], m)
  | .receiver _ :: _ => .error .unexpectedReceiver
  | .pattern _ :: _ => .error .argumentName
  | .named n ty :: rest => do
    let (d, m') := remove m n
    let (args, m'') ← namedArgs m' rest
    .ok (⟨n, ty, passBy ty, d⟩ :: args, m'')

/-- The receiver, if the first argument is one, and the other arguments: fnsig.rs:129-144. -/
def splitReceiver : List Input → Option ReceiverArg × List Input
  | .receiver ty :: rest => (some (receiverOf ty), rest)
  | l => (none, l)

/-- `FnSignature::new`: fnsig.rs:114-196. Raw identifiers are given without their prefix. -/
def FnSignature.new (kind : FnKind) (sig : Sig) (a : FnArgs) : Except Err FnSignature := do
  let named ← namedArgs a.defaults (splitReceiver sig.inputs).2
  if named.2 ≠ [] then .error .unknownDefault
  else if sig.isAsync && named.1.any (fun x => x.passBy = .mutRef) then .error .mutBytesAsync
  else if !sig.isAsync && a.asyncRuntime.isSome then .error .notAsync
  else .ok {
    kind, ident := sig.ident, name := a.name.getD sig.ident, isAsync := sig.isAsync
    asyncRuntime := a.asyncRuntime, receiver := (splitReceiver sig.inputs).1, args := named.1
    returnTy := sig.output.getD .unit }

/-! ### Items -/

/-- A callable that is exported: its signature and the async runtime its future is wrapped for. A call
that is not async is not wrapped: scaffolding.rs:248-291. -/
structure Callable where
  sig : FnSignature
  wrapped : Option Runtime
  deriving DecidableEq, Repr

/-- `gen_ffi_function` as far as the runtime goes: scaffolding.rs:248-291. -/
def callable (sig : FnSignature) (ar : Option Runtime) : Callable :=
  ⟨sig, if sig.isAsync then ar else none⟩

/-- A function under `#[uniffi::export]`: item.rs:56-61 and `gen_fn_scaffolding`,
scaffolding.rs:15-42. -/
def exportFn (args : List Argument) (sig : Sig) : Except Err Callable := do
  let a ← FnArgs.parse args
  let s ← FnSignature.new .function sig a
  if s.receiver.isSome then .error .selfParam
  else if !s.isAsync && a.asyncRuntime.isSome then .error .notAsync
  else .ok (callable s a.asyncRuntime)

/-- An item of an `impl` block or of a trait: a function with its attributes, or something else.
`hasBody` matters in a trait only. -/
inductive Member
  | fn (attrs : List Attribute) (sig : Sig) (hasBody : Bool)
  | other
  deriving DecidableEq, Repr

/-- `ExportImplArgs`: attributes.rs:177-181. -/
structure ImplArgs where
  asyncRuntime : Option Runtime := none
  name : Option String := none
  deriving DecidableEq, Repr

/-- `ExportImplArgs::parse_one`: attributes.rs:190-213. -/
def ImplArgs.parseOne : Argument → Except Err ImplArgs
  | .assign key value =>
    if key = "async_runtime" then do
      let r ← parseRuntime value
      .ok { asyncRuntime := some r }
    else if key = "name" then .ok { name := some value }
    else .error .unknownArgument
  | _ => .error .unknownArgument

/-- `ExportImplArgs::merge`: attributes.rs:215-220. -/
def ImplArgs.merge (a b : ImplArgs) : Except Err ImplArgs := do
  let asyncRuntime ← either a.asyncRuntime b.asyncRuntime
  let name ← either a.name b.name
  .ok { asyncRuntime, name }

/-- `parse_comma_separated` for `ExportImplArgs`: util.rs:171-174. -/
def ImplArgs.parse (l : List Argument) : Except Err ImplArgs := do
  let parts ← l.mapM ImplArgs.parseOne
  parts.foldlM ImplArgs.merge {}

/-- An `impl` block: `generic` says that it has parameters or a where clause; `trait_` is the path of
the trait it implements, its last segment apart. Brackets around the type are left out. -/
structure ImplBlock where
  generic : Bool := false
  selfTy : Ty
  trait_ : Option (List String × String) := none
  members : List Member := []
  deriving DecidableEq, Repr

/-- `Input` with `Self` replaced: export.rs:224-227. -/
def Input.rewriteSelf (self : Ty) : Input → Input
  | .receiver ty => .receiver (ty.rewriteSelf self)
  | .named n ty => .named n (ty.rewriteSelf self)
  | .pattern ty => .pattern (ty.rewriteSelf self)

/-- `rewrite_self_type` for a signature: export.rs:205-228. Bodies are not exported. -/
def Sig.rewriteSelf (self : Ty) (s : Sig) : Sig :=
  { s with
    inputs := s.inputs.map (Input.rewriteSelf self)
    output := s.output.map (fun t => t.rewriteSelf self) }

/-- `rewrite_self_type` for an item of an `impl` block: export.rs:225-227. -/
def Member.rewriteSelf (self : Ty) : Member → Member
  | .fn attrs sig b => .fn attrs (sig.rewriteSelf self) b
  | .other => .other

/-- The name of the type of an `impl` block: item.rs:83-100 and 285-292. -/
def selfIdent : Ty → Except Err String
  | .name [s] => .ok s
  | _ => .error .selfType

/-- An item of an `impl` block becomes a constructor or a method: item.rs:105-144. -/
def implItem (self foreignSelf : String) : Member → Except Err FnSignature
  | .other => .error .notFn
  | .fn attrs sig _ => do
    let at_ ← FnAttributes.parse attrs
    FnSignature.new (if at_.constructor_ then .constructor_ self foreignSelf else .method self foreignSelf)
      sig at_.args

/-- The scaffolding of a constructor or a method of an `impl` block: export.rs:73-89,
scaffolding.rs:44-55 and 67-77. -/
def implScaffolding (blockRuntime : Option Runtime) (s : FnSignature) : Except Err Callable :=
  let ar := s.asyncRuntime.or blockRuntime
  match s.kind with
  | .constructor_ _ _ => if s.receiver.isSome then .error .constructorSelf else .ok (callable s ar)
  | _ => if s.receiver.isSome then .ok (callable s ar) else .error .noSelf

/-- What an `impl` block exports: its callables, and the record that the type implements a trait, by
the name of the type and the last segment of the path of the trait: export.rs:91-111. -/
structure ExportedImpl where
  items : List Callable
  traitImpl : Option (String × String)
  deriving DecidableEq, Repr

/-- An `impl` block under `#[uniffi::export]`: export.rs:40-112, item.rs:74-153. -/
def exportImpl (args : List Argument) (block : ImplBlock) : Except Err ExportedImpl := do
  let members := block.members.map (Member.rewriteSelf block.selfTy)
  let a ← ImplArgs.parse args
  if block.generic then .error .generic
  else do
    let self ← selfIdent block.selfTy
    let sigs ← members.mapM (implItem self (a.name.getD self))
    if a.asyncRuntime.isSome && !sigs.any (fun s => s.isAsync) then .error .noAsync
    else do
      let items ← sigs.mapM (implScaffolding a.asyncRuntime)
      .ok ⟨items, block.trait_.map (fun t => (self, t.2))⟩

/-- A trait. -/
structure TraitDef where
  ident : String
  generic : Bool := false
  members : List Member := []
  deriving DecidableEq, Repr

/-- An item of a trait: item.rs:201-236. -/
def traitItem (self : String) (index : Nat) : Member → Except Err FnSignature
  | .other => .error .notFn
  | .fn attrs sig hasBody =>
    if hasBody then .error .defaultBody
    else do
      let at_ ← FnAttributes.parse attrs
      if at_.constructor_ then .error .constructorInTrait
      else FnSignature.new (.traitMethod self index) sig at_.args

/-- `enumerate` and `map`: item.rs:197-237. -/
def traitItems (self : String) : Nat → List Member → Except Err (List FnSignature)
  | _, [] => .ok []
  | i, m :: ms => do
    let s ← traitItem self i m
    let rest ← traitItems self (i + 1) ms
    .ok (s :: rest)

/-- What a trait exports. `calls` are the functions by which foreign code calls implementations in
Rust; a callback interface has none. `vtable` are the methods foreign code implements. -/
structure ExportedTrait where
  kind : TraitKind
  callbackInterface : Bool
  calls : List Callable
  vtable : List FnSignature
  deriving DecidableEq, Repr

/-- `gen_method_scaffolding` for the methods of a trait, with the runtime of the trait:
trait_interface.rs:90-98 and scaffolding.rs:67-77. -/
def traitScaffolding (ar : Option Runtime) (s : FnSignature) : Except Err Callable :=
  if s.receiver.isSome then .ok (callable s ar) else .error .noSelf

/-- `gen_method_impl`'s check that there is a receiver: callback_interface.rs:223-233. -/
def vtableMethod (s : FnSignature) : Except Err FnSignature :=
  if s.receiver.isSome then .ok s else .error .noSelf

/-- A trait under `#[uniffi::export]`: item.rs:155-247, export.rs:114-150 and
`gen_trait_scaffolding`, trait_interface.rs:20-118. -/
def exportTrait (args : List Argument) (t : TraitDef) : Except Err ExportedTrait := do
  let a ← TraitArgs.parse args
  if a.remote.isSome && a.kind.1.hasForeign then .error .remoteForeign
  else if t.generic then .error .generic
  else do
    let sigs ← traitItems t.ident 0 t.members
    let vtable ← (if a.kind.1.hasForeign then sigs.mapM vtableMethod else .ok [])
    let calls ← (if a.kind.2 then .ok [] else sigs.mapM (traitScaffolding a.asyncRuntime))
    .ok ⟨a.kind.1, a.kind.2, calls, vtable⟩

/-! ### Structs and enums -/

/-- `UniffiTraitDiscriminants`: uniffi_meta/src/lib.rs:503-509. -/
inductive Builtin
  | debug | display | eq | hash | ord
  deriving DecidableEq, Repr

/-- The number of a built-in trait: uniffi_meta/src/lib.rs:503-509. -/
def Builtin.discr : Builtin → Nat
  | .debug => 0
  | .display => 1
  | .eq => 2
  | .hash => 3
  | .ord => 4

/-- `ExportStructArgs::parse_one`: attributes.rs:235-270. -/
def parseBuiltin : Argument → Except Err Builtin
  | .word w =>
    if w = "Debug" then .ok .debug
    else if w = "Display" then .ok .display
    else if w = "Hash" then .ok .hash
    else if w = "Eq" then .ok .eq
    else if w = "Ord" then .ok .ord
    else .error .unknownArgument
  | _ => .error .unknownArgument

/-- `HashSet::extend` with one element: attributes.rs:272-276. -/
def addBuiltin (s : List Builtin) (t : Builtin) : List Builtin := if t ∈ s then s else s ++ [t]

/-- `sorted_traits`: item.rs:18-22. `order` is the order in which the hash set gives its elements. -/
def sortedTraits (order : List Builtin → List Builtin) (s : List Builtin) : List Builtin :=
  (order s).mergeSort (fun a b => a.discr ≤ b.discr)

/-- A struct or an enum under `#[uniffi::export]`: item.rs:249-277. -/
def exportStruct (order : List Builtin → List Builtin) (args : List Argument) : Except Err (List Builtin) := do
  let parts ← args.mapM parseBuiltin
  let traits := sortedTraits order (parts.foldl addBuiltin [])
  if traits.isEmpty then .error .noBuiltinTrait else .ok traits

end Verif.Export
