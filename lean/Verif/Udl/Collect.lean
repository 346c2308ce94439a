import Verif.Udl.Syntax
/-
How an interface definition file is turned into metadata: uniffi_udl/src.

The collector is mutated while the file is read. The type definitions do not change after the first
pass, and items are only ever added, so here each conversion returns the items it adds.
-/
namespace Verif.Udl.File
open Verif.Meta Verif.Udl

/-- How reading fails: an error that is reported, or a panic. -/
inductive Bad where
  | error | panic
  deriving DecidableEq

abbrev Res (α : Type) := Except Bad α

/-- `bail!`. -/
def bail {α : Type} : Res α := .error .error

/-- `bail!` unless a condition holds. -/
def check (b : Bool) : Res Unit := if b then .ok () else bail

/-- `bail!` on `None`. -/
def need {α : Type} : Option α → Res α
  | some a => .ok a
  | none => bail

/-- `.map(..).collect::<Result<_>>()`. -/
def mapR {α β : Type} (f : α → Res β) : List α → Res (List β)
  | [] => .ok []
  | a :: as => do
    let b ← f a
    let bs ← mapR f as
    .ok (b :: bs)

/-! ### Attributes -/

/-- `Attribute`: attributes.rs:26-46. -/
inductive Attribute where
  | byRef | byMutRef | enum | error
  | name (n : String)
  | selfByArc
  | throws (n : String)
  | traits (ns : List String)
  | external (crate : String)
  | remote
  | custom (crate : Option String)
  | trait | withForeign | async | nonExhaustive
  deriving DecidableEq

/-- `TryFrom<&ExtendedAttribute> for Attribute`: attributes.rs:59-117, with `SelfType::try_from`,
584-597. -/
def toAttribute : Attr → Res Attribute
  | .noArgs n =>
    if n = "ByRef" then .ok .byRef
    else if n = "ByMutRef" then .ok .byMutRef
    else if n = "Enum" then .ok .enum
    else if n = "Error" then .ok .error
    else if n = "Custom" then .ok (.custom none)
    else if n = "Trait" then .ok .trait
    else if n = "WithForeign" then .ok .withForeign
    else if n = "Async" then .ok .async
    else if n = "NonExhaustive" then .ok .nonExhaustive
    else if n = "Remote" then .ok .remote
    else bail
  | .ident l quoted r =>
    if l = "Name" then .ok (.name r)
    else if l = "Throws" then .ok (.throws r)
    else if l = "Self" then (if r = "ByArc" ∧ quoted = false then .ok .selfByArc else bail)
    else if l = "External" then .ok (.external r)
    else if l = "Custom" then .ok (.custom (some r))
    else bail
  | .identList n list => if n = "Traits" then .ok (.traits list) else bail
  | .other _ => bail

/-- The check for duplicates with a hash set: attributes.rs:137-142. -/
def noDuplicates : List Attr → List Attr → Bool
  | _, [] => true
  | seen, a :: as => !(seen.contains a) && noDuplicates (a :: seen) as

/-- `parse_attributes`: attributes.rs:128-154. -/
def parseAttributes (valid : Attribute → Bool) (l : List Attr) : Res (List Attribute) := do
  check (noDuplicates [] l)
  let attrs ← mapR toAttribute l
  check (attrs.all valid)
  .ok attrs

/-- `TryFrom<Option<T>>`: attributes.rs:190-200 and the same for the other kinds. -/
def optAttributes (f : List Attr → Res (List Attribute)) : Attrs → Res (List Attribute)
  | none => .ok []
  | some l => f l

/-- `DictionaryAttributes`: attributes.rs:176-188. -/
def dictionaryAttributes : List Attr → Res (List Attribute) :=
  parseAttributes fun
    | .remote => true
    | .traits _ => true
    | _ => false

/-- `EnumAttributes`: attributes.rs:232-249. -/
def enumAttributes : List Attr → Res (List Attribute) :=
  parseAttributes fun
    | .error => true
    | .nonExhaustive => true
    | .remote => true
    | .enum => true
    | .traits _ => true
    | _ => false

/-- `FunctionAttributes`: attributes.rs:290-301. -/
def functionAttributes : List Attr → Res (List Attribute) :=
  parseAttributes fun
    | .throws _ => true
    | .async => true
    | _ => false

/-- `ArgumentAttributes`: attributes.rs:344-360. -/
def argumentAttributes (l : List Attr) : Res (List Attribute) := do
  let attrs ← parseAttributes (fun
    | .byRef => true
    | .byMutRef => true
    | _ => false) l
  check !(attrs.contains .byRef && attrs.contains .byMutRef)
  .ok attrs

/-- `ok_for_enum`'s exception: attributes.rs:438-440. -/
def traitsOrRemote : Attribute → Bool
  | .traits _ => true
  | .remote => true
  | _ => false

/-- `InterfaceAttributes`: attributes.rs:422-453. -/
def interfaceAttributes (l : List Attr) : Res (List Attribute) := do
  let attrs ← parseAttributes (fun
    | .enum => true
    | .error => true
    | .trait => true
    | .withForeign => true
    | .traits _ => true
    | .remote => true
    | _ => false) l
  check !(attrs.contains .enum && !(attrs.length == 1 || attrs.any traitsOrRemote))
  check !(attrs.contains .remote && attrs.contains .withForeign)
  .ok attrs

/-- `ConstructorAttributes`: attributes.rs:502-515. -/
def constructorAttributes : List Attr → Res (List Attribute) :=
  parseAttributes fun
    | .throws _ => true
    | .name _ => true
    | .async => true
    | _ => false

/-- `MethodAttributes`: attributes.rs:551-562. -/
def methodAttributes : List Attr → Res (List Attribute) :=
  parseAttributes fun
    | .selfByArc => true
    | .throws _ => true
    | .async => true
    | _ => false

/-- `TypedefAttributes`: attributes.rs:624-637. -/
def typedefAttributes (l : List Attr) : Res (List Attribute) := do
  let attrs ← parseAttributes (fun
    | .external _ => true
    | .custom _ => true
    | _ => false) l
  check !(attrs.length > 1)
  .ok attrs

/-- `get_throws_err`: attributes.rs:270-277, 481-488, 525-532. -/
def throwsErr (attrs : List Attribute) : Option String :=
  attrs.findSome? fun
    | .throws n => some n
    | _ => none

/-- `get_name`: attributes.rs:490-495. -/
def ctorName (attrs : List Attribute) : Option String :=
  attrs.findSome? fun
    | .name n => some n
    | _ => none

/-- The name of a constructor: callables.rs:142. -/
def ctorNameOrNew (attrs : List Attribute) : String :=
  match ctorName attrs with
  | some n => n
  | none => "new"

/-- The match in `get_uniffi_traits` and `get_traits`: attributes.rs:168-171, 224-227, 414-417. -/
def traitsOf : Attribute → Option (List String)
  | .traits ns => some ns
  | _ => none

/-- `get_uniffi_traits` and `get_traits`: attributes.rs:165-173, 221-229, 411-419. -/
def traitNames (attrs : List Attribute) : List String :=
  match attrs.findSome? traitsOf with
  | some ns => ns
  | none => []

/-- `pass_by`: attributes.rs:333-341. -/
def passByOf (attrs : List Attribute) : PassBy :=
  if attrs.contains .byMutRef then .mutRef
  else if attrs.contains .byRef then .ref
  else .value

/-- `object_impl`: attributes.rs:401-410. -/
def objectImpl (attrs : List Attribute) : Res Impl :=
  match attrs.contains .trait, attrs.contains .withForeign with
  | true, true => .ok (.trait .both)
  | true, false => .ok (.trait .rustOnly)
  | false, false => .ok .struct
  | false, true => bail

/-- `get_crate_name`: attributes.rs:606-615. -/
def typedefCrate (attrs : List Attribute) : Option String :=
  attrs.findSome? fun
    | .external c => some c
    | .custom (some c) => some c
    | _ => none

/-- `is_custom`: attributes.rs:617-621. -/
def isCustom (attrs : List Attribute) : Bool :=
  attrs.any fun
    | .custom _ => true
    | _ => false

/-! ### Type expressions -/

/-- `type_definitions`: collectors.rs:231. -/
abbrev Types := List (String × MTy)

/-- `get_type_definition`: collectors.rs:277-279. -/
def Types.get (types : Types) (n : String) : Option MTy :=
  (types.find? (·.1 = n)).map (·.2)

/-- `resolve_builtin_type`: resolver.rs:196-214. -/
def builtinType (n : String) : Option MTy :=
  if n = "string" then some .string
  else if n = "bytes" then some .bytes
  else if n = "u8" then some .uint8
  else if n = "i8" then some .int8
  else if n = "u16" then some .uint16
  else if n = "i16" then some .int16
  else if n = "u32" then some .uint32
  else if n = "i32" then some .int32
  else if n = "u64" then some .uint64
  else if n = "i64" then some .int64
  else if n = "f32" then some .float32
  else if n = "f64" then some .float64
  else if n = "timestamp" then some .timestamp
  else if n = "duration" then some .duration
  else none

/-- `TypeResolver for Identifier`: resolver.rs:156-166. -/
def resolveName (types : Types) (n : String) : Res MTy :=
  match builtinType n with
  | some t => .ok t
  | none => need (types.get n)

/-- `TypeResolver for MayBeNull`: resolver.rs:87-100. -/
def mayBeNull (q : Bool) (t : MTy) : MTy := if q then .optional t else t

mutual
  /-- `TypeResolver` for `Type` and `NonAnyType`: resolver.rs:43-67, and the parts 102-154,
  168-190. -/
  def resolve (types : Types) : WTy → Res MTy
    | .any => bail
    | .union => bail
    | .boolean q => .ok (mayBeNull q .boolean)
    | .identifier n q => do
      let t ← resolveName types n
      .ok (mayBeNull q t)
    | .integer _ => bail
    | .float unrestricted q => if unrestricted then bail else .ok (mayBeNull q .float32)
    | .double unrestricted q => if unrestricted then bail else .ok (mayBeNull q .float64)
    | .sequence inner q => do
      let t ← resolve types inner
      .ok (mayBeNull q (.sequence t))
    | .record key value q => do
      let k ← resolveKey types key
      let v ← resolve types value
      .ok (mayBeNull q (.map k v))
    | .error _ => bail
    | .other _ => bail
  /-- `TypeResolver for RecordKeyType`: resolver.rs:130-142. -/
  def resolveKey (types : Types) : WKey → Res MTy
    | .byte => bail
    | .dom => .ok .string
    | .ty t => resolve types t
end

/-- `TypeResolver for AttributedType`: resolver.rs:78-85. -/
def resolveAttributed (types : Types) (tyAttrs : Bool) (t : WTy) : Res MTy := do
  check !tyAttrs
  resolve types t

/-- `resolve_return_type_expression`: collectors.rs:109-126. -/
def resolveReturn (types : Types) : WRet → Res (Option MTy)
  | .undefined => .ok none
  | .ty (.identifier n q) =>
    if n = "void" then .ok none
    else do
      let t ← resolve types (.identifier n q)
      .ok (some t)
  | .ty w => do
    let t ← resolve types w
    .ok (some t)

/-! ### The first pass: the names of types -/

/-- The types that may be defined again: collectors.rs:254-256. -/
def mayRepeat : MTy → Bool
  | .record _ _ => true
  | .enum _ _ => true
  | _ => false

/-- `add_type_definition`: collectors.rs:250-274. -/
def addType (types : Types) (n : String) (t : MTy) : Res Types :=
  match types.get n with
  | some old =>
    if t = old ∧ mayRepeat t = true then .ok types
    else bail
  | none => .ok (types ++ [(n, t)])

/-- The types a typedef without `[Custom]` names: finder.rs:167-194. -/
def typedefType (m n keyword : String) : Res MTy :=
  if keyword = "dictionary" ∨ keyword = "record" ∨ keyword = "struct" then .ok (.record m n)
  else if keyword = "enum" then .ok (.enum m n)
  else if keyword = "interface" ∨ keyword = "impl" then .ok (.object m n .struct)
  else if keyword = "trait" then .ok (.object m n (.trait .rustOnly))
  else if keyword = "callback" ∨ keyword = "trait_with_foreign" then
    .ok (.object m n (.trait .both))
  else bail

/-- The crate a typedef belongs to: finder.rs:145-147, 164-166. -/
def typedefPath (crate : String) (attrs : List Attribute) : String :=
  match typedefCrate attrs with
  | some c => c
  | none => crate

/-- `TypeFinder for Definition`: finder.rs:72-214. -/
def findType (crate : String) (types : Types) : Def → Res Types
  | .interface _ attrs n _ _ => do
    let attrs ← optAttributes interfaceAttributes attrs
    if attrs.contains .enum || attrs.contains .error then addType types n (.enum crate n)
    else do
      let imp ← objectImpl attrs
      addType types n (.object crate n imp)
  | .dictionary _ _ n _ _ => addType types n (.record crate n)
  | .enum_ _ _ n _ => addType types n (.enum crate n)
  | .typedef attrs tyAttrs ty n => do
    let attrs ← optAttributes typedefAttributes attrs
    if isCustom attrs then do
      let builtin ← resolveAttributed types tyAttrs ty
      addType types n (.custom (typedefPath crate attrs) n builtin)
    else
      match ty with
      | .identifier keyword _ => do
        let t ← typedefType (typedefPath crate attrs) n keyword
        addType types n t
      | _ => bail
  | .callback _ attrs n _ _ => do
    check attrs.isNone
    addType types n (.callbackInterface crate n)
  | _ => .ok types

/-- `TypeFinder for &[T]`: finder.rs:63-70. -/
def findTypes (crate : String) (types : Types) : List Def → Res Types
  | [] => .ok types
  | d :: ds => do
    let types ← findType crate types d
    findTypes crate types ds

/-! ### The second pass: the items -/

/-- `convert_default_value`: literal.rs:12-101, with the variants of enums. -/
def convertDefault (l : Lit) : MTy → Res ULit
  | .enum m n =>
    match l with
    | .string s => .ok (.variant s (.enum m n))
    | _ => bail
  | .optional t =>
    match l with
    | .null => .ok (.plain .optNone)
    | l => do
      let v ← convertDefault l t
      .ok (.some v)
  | ty => do
    let v ← need (convert l ty)
    .ok (.plain v)

/-- A default that may be missing. -/
def optDefault (l : Option Lit) (t : MTy) : Res (Option ULit) :=
  match l with
  | none => .ok none
  | some l => do
    let v ← convertDefault l t
    .ok (some v)

/-- `APIConverter<FieldMetadata> for Argument`: callables.rs:29-55. -/
def argField (types : Types) : WArg → Res UField
  | .variadic => bail
  | .single attrs _ tyAttrs ty n d => do
    let t ← resolveAttributed types tyAttrs ty
    check d.isNone
    check attrs.isNone
    .ok { name := n, ty := t, default := none, doc := none }

/-- `APIConverter<FnParamMetadata> for Argument`: callables.rs:57-85. -/
def argParam (types : Types) : WArg → Res UArg
  | .variadic => bail
  | .single attrs optional tyAttrs ty n d => do
    let t ← resolveAttributed types tyAttrs ty
    let d ← optDefault d t
    let attrs ← optAttributes argumentAttributes attrs
    .ok { name := n, ty := t, passBy := passByOf attrs, optional := optional, default := d }

/-- `reject_async_by_mut_ref`: callables.rs:22-27. -/
def rejectAsyncByMutRef (isAsync : Bool) (inputs : List UArg) : Res Unit :=
  check !(isAsync && inputs.any (·.passBy = .mutRef))

/-- The error type of functions and methods: callables.rs:105-111, 168-174, 218-224. -/
def throwsType (types : Types) (attrs : List Attribute) : Res (Option MTy) :=
  match throwsErr attrs with
  | none => .ok none
  | some n => do
    let t ← need (types.get n)
    .ok (some t)

/-- The error type of constructors, which panics: callables.rs:134-136. -/
def ctorThrowsType (types : Types) (attrs : List Attribute) : Res (Option MTy) :=
  match throwsErr attrs with
  | none => .ok none
  | some n =>
    match types.get n with
    | some t => .ok (some t)
    | none => .error .panic

/-- `APIConverter<FnMetadata> for NamespaceMember`: callables.rs:87-126. -/
def convertFn (crate : String) (types : Types) : WNsMember → Res UFn
  | .other => bail
  | .op o => do
    let ret ← resolveReturn types o.ret
    let name ← need o.name
    let attrs ← optAttributes functionAttributes o.attrs
    let throws ← throwsType types attrs
    let inputs ← mapR (argParam types) o.args
    rejectAsyncByMutRef (attrs.contains .async) inputs
    .ok { modulePath := crate, name := name, isAsync := attrs.contains .async, inputs := inputs,
          ret := ret, throws := throws, byArc := false, doc := o.doc }

/-- `APIConverter<ConstructorMetadata>`: callables.rs:128-154. -/
def convertCtor (crate : String) (types : Types) (c : WCtor) : Res UFn := do
  let attrs ← optAttributes constructorAttributes c.attrs
  let throws ← ctorThrowsType types attrs
  let inputs ← mapR (argParam types) c.args
  rejectAsyncByMutRef (attrs.contains .async) inputs
  .ok { modulePath := crate, name := ctorNameOrNew attrs, isAsync := attrs.contains .async, inputs := inputs,
        ret := none, throws := throws, byArc := false, doc := c.doc }

/-- `APIConverter<MethodMetadata>` and `APIConverter<TraitMethodMetadata>`: callables.rs:156-254. -/
def convertMethod (crate : String) (types : Types) (o : WOp) : Res UFn := do
  check !o.special
  check o.modifier.isNone
  let ret ← resolveReturn types o.ret
  let attrs ← optAttributes methodAttributes o.attrs
  let throws ← throwsType types attrs
  let name ← need o.name
  check (name ≠ "new")
  let inputs ← mapR (argParam types) o.args
  rejectAsyncByMutRef (attrs.contains .async) inputs
  .ok { modulePath := crate, name := name, isAsync := attrs.contains .async, inputs := inputs,
        ret := ret, throws := throws, byArc := attrs.contains .selfByArc, doc := o.doc }

/-- The name of a variant: converters/mod.rs:61-78. -/
def variantName : WRet → Res String
  | .ty (.identifier n _) => .ok n
  | .ty (.error _) => .ok "Error"
  | _ => bail

/-- `APIConverter<VariantMetadata> for OperationInterfaceMember`: converters/mod.rs:46-93. -/
def convertVariant (types : Types) (o : WOp) : Res UVariant := do
  check !o.special
  check (o.modifier ≠ some .stringifier)
  check o.name.isNone
  let name ← variantName o.ret
  let fields ← mapR (argField types) o.args
  .ok { name := name, fields := fields, doc := o.doc }

/-- `APIConverter<FieldMetadata> for DictionaryMember`: converters/mod.rs:125-145. -/
def convertField (types : Types) (f : WField) : Res UField := do
  check f.attrs.isNone
  let t ← resolve types f.ty
  let d ← optDefault f.default t
  .ok { name := f.name, ty := t, default := d, doc := f.doc }

/-- `make_trait_method`: converters/mod.rs:192-209 and interface.rs:59-76. -/
def traitMethodFn (crate name : String) (inputs : List UArg) (ret : MTy) : UFn :=
  { modulePath := crate, name := name, isAsync := false, inputs := inputs, ret := some ret,
    throws := none, byArc := false, doc := none }

/-- The argument of `eq`, `ne` and `cmp`: converters/mod.rs:224-230. -/
def otherArg (other : MTy) : UArg :=
  { name := "other", ty := other, passBy := .ref, optional := false, default := none }

/-- One built-in trait: converters/mod.rs:214-262 and interface.rs:82-142. -/
def makeTrait (crate : String) (other : MTy) (n : String) : Res UTrait :=
  if n = "Debug" then .ok (.debug (traitMethodFn crate "uniffi_trait_debug" [] .string))
  else if n = "Display" then .ok (.display (traitMethodFn crate "uniffi_trait_display" [] .string))
  else if n = "Eq" then
    .ok (.eq (traitMethodFn crate "uniffi_trait_eq_eq" [otherArg other] .boolean)
      (traitMethodFn crate "uniffi_trait_eq_ne" [otherArg other] .boolean))
  else if n = "Hash" then .ok (.hash (traitMethodFn crate "uniffi_trait_hash" [] .uint64))
  else if n = "Ord" then
    .ok (.ord (traitMethodFn crate "uniffi_trait_ord_cmp" [otherArg other] .int8))
  else bail

/-- `make_uniffi_traits`: converters/mod.rs:185-265. -/
def makeTraits (crate self : String) (other : MTy) (names : List String) : Res (List UItem) :=
  mapR (fun n => do
    let t ← makeTrait crate other n
    .ok (.uniffiTrait self t)) names

/-- The members of an interface; `seen` is `member_names`: interface.rs:29-57. -/
def convertMembers (crate : String) (types : Types) (self : String) (imp : Impl)
    (seen : List String) : List WMember → Res (List UItem)
  | [] => .ok []
  | .ctor c :: ms => do
    let f ← convertCtor crate types c
    check (imp = .struct)
    check !(seen.contains f.name)
    let rest ← convertMembers crate types self imp (f.name :: seen) ms
    .ok (.constructor self f :: rest)
  | .op o :: ms => do
    let f ← convertMethod crate types o
    check !(seen.contains f.name)
    let rest ← convertMembers crate types self imp (f.name :: seen) ms
    .ok (.method self f :: rest)
  | .other :: _ => bail

/-- The members of a callback interface, from number `i` on: converters/mod.rs:156-176. The numbers
are 32 bit in the code. -/
def convertCallbacks (crate : String) (types : Types) (self : String) (i : Nat) :
    List WMember → Res (List UItem)
  | [] => .ok []
  | .op o :: ms => do
    let f ← convertMethod crate types o
    let rest ← convertCallbacks crate types self (i + 1) ms
    .ok (.traitMethod self i f :: rest)
  | _ :: _ => bail

/-- The variants of an enum interface: converters/enum_.rs:81-92. -/
def convertVariants (types : Types) : List WMember → Res (List UVariant) :=
  mapR fun
    | .op o => convertVariant types o
    | _ => bail

/-- `EnumDefinition::convert`: converters/enum_.rs:14-48. -/
def convertEnum (crate : String) (doc : Option String) (attrs : Attrs) (n : String)
    (values : List (Option String × String)) : Res (List UItem) := do
  let attrs ← optAttributes enumAttributes attrs
  .ok [.enum crate n (if attrs.contains .error then .error true else .enum)
    (attrs.contains .remote)
    (values.map fun v => { name := v.2, fields := [], doc := v.1 })
    (attrs.contains .nonExhaustive) doc]

/-- `DictionaryDefinition::convert`: converters/mod.rs:95-123. -/
def convertDictionary (crate : String) (types : Types) (doc : Option String) (attrs : Attrs)
    (n : String) (inherits : Bool) (members : List WField) : Res (List UItem) := do
  let attrs ← optAttributes dictionaryAttributes attrs
  check !inherits
  let traits ← makeTraits crate n (.record crate n) (traitNames attrs)
  let fields ← mapR (convertField types) members
  .ok (traits ++ [.record crate n (attrs.contains .remote) fields doc])

/-- `APIConverter<EnumMetadata> for InterfaceDefinition`: converters/enum_.rs:50-100. -/
def convertEnumInterface (crate : String) (types : Types) (doc : Option String) (attrs : Attrs)
    (n : String) (inherits : Bool) (members : List WMember) : Res (List UItem) := do
  check !inherits
  let attrs ← optAttributes enumAttributes attrs
  let traits ← makeTraits crate n (.enum crate n) (traitNames attrs)
  let variants ← convertVariants types members
  .ok (traits ++ [.enum crate n (if attrs.contains .error then .error false else .enum)
    (attrs.contains .remote) variants (attrs.contains .nonExhaustive) doc])

/-- `APIConverter<ObjectMetadata> for InterfaceDefinition`: converters/interface.rs:15-158. -/
def convertObject (crate : String) (types : Types) (doc : Option String) (attrs : Attrs)
    (n : String) (inherits : Bool) (members : List WMember) : Res (List UItem) := do
  check !inherits
  let attrs ← optAttributes interfaceAttributes attrs
  let imp ← objectImpl attrs
  let ms ← convertMembers crate types n imp [] members
  let traits ← makeTraits crate n (.object crate n imp) (traitNames attrs)
  .ok (ms ++ traits ++ [.object crate n (attrs.contains .remote) imp doc])

/-- `CallbackInterfaceDefinition::convert`: converters/mod.rs:147-183. -/
def convertCallback (crate : String) (types : Types) (doc : Option String) (attrs : Attrs)
    (n : String) (inherits : Bool) (members : List WMember) : Res (List UItem) := do
  check attrs.isNone
  check !inherits
  let ms ← convertCallbacks crate types n 0 members
  .ok (ms ++ [.callback crate n doc])

/-- `NamespaceDefinition::process`: collectors.rs:206-220, but for the documentation. -/
def processNamespace (crate ns : String) (types : Types) (attrs : Attrs) (n : String)
    (members : List WNsMember) : Res (List UItem) := do
  check attrs.isNone
  check (n = ns)
  let fs ← mapR (convertFn crate types) members
  .ok (fs.map .func)

/-- `APIBuilder for Definition`: collectors.rs:172-204. -/
def processDef (crate ns : String) (types : Types) : Def → Res (List UItem)
  | .namespace_ _ attrs n members => processNamespace crate ns types attrs n members
  | .enum_ doc attrs n values => convertEnum crate doc attrs n values
  | .dictionary doc attrs n inh members => convertDictionary crate types doc attrs n inh members
  | .interface doc attrs n inh members => do
    let as ← optAttributes interfaceAttributes attrs
    if as.contains .enum || as.contains .error then
      convertEnumInterface crate types doc attrs n inh members
    else convertObject crate types doc attrs n inh members
  | .callback doc attrs n inh members => convertCallback crate types doc attrs n inh members
  | .typedef _ _ _ _ => .ok []
  | .other => bail

/-- `items.insert`: collectors.rs:129-132. -/
def insertItem (items : List UItem) (i : UItem) : List UItem :=
  if i ∈ items then items else items ++ [i]

/-- `APIBuilder for Vec`: collectors.rs:160-167. -/
def processAll (crate ns : String) (types : Types) (items : List UItem) :
    List Def → Res (List UItem)
  | [] => .ok items
  | d :: ds => do
    let new ← processDef crate ns types d
    processAll crate ns types (new.foldl insertItem items) ds

/-- `namespace_docstring`, which each namespace definition sets: collectors.rs:214. -/
def namespaceDoc (doc : Option String) : List Def → Option String
  | [] => doc
  | .namespace_ d _ _ _ :: ds => namespaceDoc d ds
  | _ :: ds => namespaceDoc doc ds

/-- `find_namespace`: collectors.rs:76-83. -/
def findNamespace : List Def → Res String
  | [] => bail
  | .namespace_ _ _ n _ :: _ => .ok n
  | _ :: ds => findNamespace ds

/-- The items of the custom types: collectors.rs:54-72. -/
def customItems (types : Types) : List UItem :=
  types.filterMap fun
    | (_, .custom m n b) => some (.custom m n b)
    | _ => none

/-- `from_webidl`: collectors.rs:29-74, after the text was parsed, and
`From<InterfaceCollector> for MetadataGroup`, 136-147. -/
def fromDefinitions (crate : String) (file : List Def) : Res UGroup := do
  let ns ← findNamespace file
  let types ← findTypes crate [] file
  let items ← processAll crate ns types [] file
  .ok { crate := crate, ns := ns, doc := namespaceDoc none file,
        items := (customItems types).foldl insertItem items }

end Verif.Udl.File
