import Verif.Src.Emit
import Verif.Src.TypesSpec
import Verif.Src.CrossSpec
/-
Which metadata belongs to the items of a program, item by item, without the order in which the items are read.
-/
namespace Verif.Src
open Verif.Meta

/-- The elements of two lists belong together one by one. -/
inductive Each {α β : Type} (R : α → β → Prop) : List α → List β → Prop
  | nil : Each R [] []
  | cons {a b as bs} : R a b → Each R as bs → Each R (a :: as) (b :: bs)

/-! ### What attributes say -/

/-- A line of documentation. -/
def docLine : Meta → Option String
  | .nameValue p (.str s) => if p.isIdent "doc" then some (trim s) else none
  | _ => none

/-- The documentation: all its lines. -/
def docText (ms : List Meta) : Option String :=
  match ms.filterMap docLine with
  | [] => none
  | ls => some ("\n".intercalate ls)

/-- What is in the parentheses of the attributes with `own`. -/
def argsIn (own : Meta → Bool) (ms : List Meta) : List Meta :=
  (ms.filter own).flatMap fun m => match m with
    | .list _ (some as) => as
    | _ => []

/-- The attributes that are not `#[uniffi::export]`. -/
def others (l : Look) (ms : List Meta) : List Meta := ms.filter fun m => !l.isExport m

/-- What is in `#[uniffi(…)]`. -/
def uniffiArgs (ms : List Meta) : List Meta := argsIn (fun m => m.pathOf.isIdent "uniffi") ms

/-- The text after `key =`; the last one counts. -/
def textArg (key : String) (as : List Meta) : Option String :=
  (as.filterMap fun m => match m with
    | .nameValue p (.str s) => if p.isIdent key then some s else none
    | _ => none).getLast?

/-- Whether the word is there. -/
def wordArg (key : String) (as : List Meta) : Bool := as.any fun m => m.pathOf.isIdent key

/-- The default in `x = value` or in `x`. -/
def defaultIn (is : Path → Bool) : Meta → Option DefSrc
  | .nameValue p v => if is p then some v else none
  | .path p => if is p then some .default else none
  | .list _ _ => none

/-- The default of the argument `x`, from `default(x = value)`. -/
def argDefault (as : List Meta) (x : Ident) : Option DefSrc :=
  (argsIn (fun m => m.pathOf.isIdent "default") as).findSome? (defaultIn fun p => p.getIdent == some x)

/-- The default of a field, from `#[uniffi(default = value)]`. -/
def fieldDefault (as : List Meta) : Option DefSrc := as.findSome? (defaultIn fun p => p.isIdent "default")

/-- The names of the integer types. -/
def intNames : List (String × MTy) :=
  [("u8", .uint8), ("i8", .int8), ("u16", .uint16), ("i16", .int16), ("u32", .uint32), ("i32", .int32), ("u64", .uint64),
   ("i64", .int64)]

/-- The integer type in `#[repr(…)]`; the last one counts. -/
def reprOf (ms : List Meta) : Option MTy :=
  ((argsIn (fun m => m.pathOf.isIdent "repr") ms).filterMap fun m =>
    (intNames.find? fun x => m.pathOf.isIdent x.1).map (·.2)).getLast?

/-- `#[uniffi::name]`, with or without parentheses. -/
def isAttr (name : String) (m : Meta) : Bool := decide (m.pathOf.segs = [⟨false, "uniffi"⟩, ⟨false, name⟩])

/-- `some false` for `#[derive(uniffi::Name)]`, `some true` for `#[uniffi::remote(Name)]`. -/
def derivedBy (l : Look) (name : String) : Meta → Option Bool
  | .list p (some ms) =>
    if p.isIdent "derive" then (if ∃ m ∈ ms, l.deriveOf m.pathOf = some name then some false else none)
    else if l.macroOf p = some "remote" ∧ ∃ m ∈ ms, m.pathOf.isIdent name = true then some true else none
  | _ => none

/-- The first such attribute. -/
def derived (l : Look) (name : String) (metas : List Meta) : Option Bool := metas.findSome? (derivedBy l name)

/-- The name of a type of the program. -/
def TypeName (t : MTy) (n : String) : Prop :=
  ∃ m, (∃ imp, t = .object m n imp) ∨ t = .record m n ∨ t = .enum m n ∨ (∃ b, t = .custom m n b) ∨ t = .callbackInterface m n

/-! ### Parts of items -/

/-- The type `ty` stands for a type with `P`. Two kinds of types are left open: those for which the place of a trait
or the name of a type parameter leads astray (C63), and those that contain a type from a UDL file. -/
def Shown (ir : Ir) (p : RPath) (ty : Ty) (P : STy → Prop) : Prop :=
  TraitsLocal ir p ty → ParamsFresh ir p ty → ∃ t, Means ir [] p ty t ∧ (t.noUdl = true → P t)

/-- The type of a field. -/
def TypeIs (ir : Ir) (p : RPath) (ty : Ty) (m : MTy) : Prop :=
  Shown ir p ty fun t => ∃ r, Crosses none t r ∧ m = r.toMeta

/-- The result of a function and its error. -/
def ReturnIs (ir : Ir) (p : RPath) (self : Option RTy) (output : Option Ty) (ok err : Option MTy) : Prop :=
  match output with
  | none => ok = none ∧ err = none
  | some ty => Shown ir p ty fun t => ∃ r, RetCrosses self t r ∧ ok = r.returns ∧ err = r.throws

/-- `DefaultIs d t v`: the text `d` as a default for type `t` is `v`. A custom type has the defaults of the type it is
made of. -/
inductive DefaultIs : DefSrc → MTy → MDef → Prop
  | default {t} : DefaultIs .default t .default
  | emptySeq {t} : DefaultIs .emptySeq t (.literal .emptySequence)
  | optNone {t} : DefaultIs .optNone t (.literal .optNone)
  | optSome {d t v} : DefaultIs d t v → DefaultIs (.optSome d) (.optional t) (.literal (.optSome v))
  | str {s} : DefaultIs (.str s) .string (.literal (.string s))
  | bool {b} : DefaultIs (.bool b) .boolean (.literal (.boolean b))
  | float {d s t} : t = .float32 ∨ t = .float64 → DefaultIs (.float d s) t (.literal (.float d t))
  | int {z s t} : t = .int8 ∨ t = .int16 ∨ t = .int32 ∨ t = .int64 → DefaultIs (.int z s) t (.literal (.int z .decimal t))
  | uint {n : Nat} {s t} : t = .uint8 ∨ t = .uint16 ∨ t = .uint32 ∨ t = .uint64 →
      DefaultIs (.int n s) t (.literal (.uint n .decimal t))
  | custom {m n d t v} : DefaultIs d t v → DefaultIs d (.custom m n t) v

/-- The default of an argument or of a field. -/
def OptDefaultIs (d : Option DefSrc) (t : MTy) (v : Option MDef) : Prop :=
  match d with
  | none => v = none
  | some d => ∃ w, v = some w ∧ DefaultIs d t w

/-- The name in the attributes, or else the name of the item. -/
def NameIs (attr : Option String) (ident name : String) (orig : Option String) : Prop :=
  match attr with
  | none => name = ident ∧ orig = none
  | some s => name = s ∧ orig = some ident

/-- The name of the item at `q`: the one in the attributes or its own. Other crates can import it from the
public module `m`, under its original name if there is one. -/
def PlaceIs (ir : Ir) (q : RPath) (attr : Option String) (ident : Ident) (m name : String) (orig : Option String) : Prop :=
  ∃ target mp, q.getLast? = some target ∧ Public ir mp ∧ mp.head? = q.head? ∧ m = pathString mp ∧
    name = attr.getD ident.name ∧ Exports ir target.addr mp (orig.getD name)

/-- An argument; `as` are the arguments of the attribute. -/
def ArgIs (ir : Ir) (p : RPath) (self : Option RTy) (as : List Meta) : SArg → MArg → Prop
  | .typed (some x) ty, m =>
    m.name = x.name ∧ m.optional = false ∧
    Shown ir p ty (fun t => ∃ r, ArgCrosses self t r m.passBy ∧ m.ty = r.toMeta) ∧
    OptDefaultIs (argDefault as x) m.ty m.default
  | _, _ => False

/-- The signature of a function, with its documentation, which is in `metas`. -/
structure FnIs (ir : Ir) (p : RPath) (selfArg selfRet : Option RTy) (metas as : List Meta) (f : SFn Meta)
    (inputs : List SArg) (m : MFn) : Prop where
  isAsync : m.isAsync = f.isAsync
  inputs : Each (ArgIs ir p selfArg as) inputs m.inputs
  ret : ReturnIs ir p selfRet f.output m.returnType m.throws
  docstring : m.docstring = docText metas
  checksum : m.checksum = none

/-- The attributes of an item that is not left out, with conditional ones expanded. -/
def Active (env : CompileEnv) (attrs metas : List Meta) : Prop := env.parseAttrs attrs = .ok (some metas)

/-- Whether an item is not left out. -/
def isActive (env : CompileEnv) (attrs : List Meta) : Bool :=
  match env.parseAttrs attrs with
  | .ok (some _) => true
  | _ => false

/-- Whether a function is a constructor. -/
def isCons (env : CompileEnv) (f : SFn Meta) : Bool :=
  match env.parseAttrs f.attrs with
  | .ok (some ms) => ms.any (isAttr "constructor")
  | _ => false

/-- A method of an object or a trait. -/
def MethodIs (env : CompileEnv) (ir : Ir) (p : RPath) (self : RTy) (f : SFn Meta) (byArc : Bool) (m : MFn) : Prop :=
  ∃ metas as recv inputs, Active env f.attrs metas ∧ as = argsIn (isAttr "method") metas ∧
    f.inputs = .receiver recv :: inputs ∧
    (TraitsLocal ir p recv → ParamsFresh ir p recv → Means ir [] p recv (if byArc then .arc .selfTy else .ref false .selfTy)) ∧
    FnIs ir p (some self) (some self) metas as f inputs m ∧
    m.modulePath = pathString p ∧ NameIs (textArg "name" as) f.ident.name m.name m.origName

/-- A constructor. It returns the object; `Self` is not accepted in its arguments. -/
def ConsIs (env : CompileEnv) (ir : Ir) (p : RPath) (self : RTy) (f : SFn Meta) (selfName : String) (c : MCons) : Prop :=
  ∃ metas as m, Active env f.attrs metas ∧ as = argsIn (isAttr "constructor") metas ∧
    FnIs ir p none (some self) metas as f f.inputs m ∧
    m.returnType = some self.toMeta ∧ m.modulePath = pathString p ∧
    NameIs (textArg "name" as) f.ident.name m.name m.origName ∧
    c = { modulePath := m.modulePath, selfName := selfName, name := m.name, origName := m.origName, isAsync := m.isAsync,
          inputs := m.inputs, throws := m.throws, checksum := m.checksum, docstring := m.docstring }

/-- A field; one without a name gets the empty name. -/
def FieldIs (env : CompileEnv) (ir : Ir) (p : RPath) (f : SField Meta) (m : MField) : Prop :=
  ∃ metas, Active env f.attrs metas ∧ TypeIs ir p f.ty m.ty ∧
    NameIs (textArg "name" (uniffiArgs metas)) (match f.ident with | some i => i.name | none => "") m.name m.origName ∧
    OptDefaultIs (fieldDefault (uniffiArgs metas)) m.ty m.default ∧ m.docstring = docText metas

/-- The fields that are not left out. -/
def FieldsAre (env : CompileEnv) (ir : Ir) (p : RPath) (fs : List (SField Meta)) (ms : List MField) : Prop :=
  Each (FieldIs env ir p) (fs.filter fun f => isActive env f.attrs) ms

/-- An explicit discriminant, if the enum has an integer type. -/
def DiscrIs (repr : Option MTy) (d : Option SDiscr) (l : Option MLit) : Prop :=
  match repr, d with
  | some t, some (.int n) => l = some (if t ∈ [.int8, .int16, .int32, .int64] then .int n .decimal t else .uint n .decimal t)
  | some t, some (.neg n) => t ∈ [.int8, .int16, .int32, .int64] ∧ l = some (.int (-n) .decimal t)
  | some _, some .other => False
  | _, _ => l = none

/-- A variant. Those of a flat error have no fields. -/
def VariantIs (env : CompileEnv) (ir : Ir) (p : RPath) (repr : Option MTy) (flat : Bool) (v : SVariant Meta) (m : MVariant) :
    Prop :=
  ∃ metas, Active env v.attrs metas ∧ NameIs (textArg "name" (uniffiArgs metas)) v.ident.name m.name m.origName ∧
    DiscrIs repr v.discr m.discr ∧ (if flat then m.fields = [] else FieldsAre env ir p v.fields m.fields) ∧
    m.docstring = docText metas

/-- The built-in traits in `#[uniffi::export(Debug, …)]`; their methods are in the module of the item. -/
def BuiltinTraits (l : Look) (metas : List Meta) (p : RPath) (selfName : String) (selfTy : MTy) (os : List Out) : Prop :=
  let word (key : String) := wordArg key (argsIn l.isExport metas)
  let other : MArg := ⟨"other", selfTy, .ref, false, none⟩
  let method (name : String) (args : List MArg) (ret : MTy) : MMethod :=
    ⟨selfName, ⟨pathString p, name, none, false, args, some ret, none, none, none⟩⟩
  ∀ o, o ∈ os ↔ ∃ t, o = .data false (.uniffiTrait t) ∧
    ((word "Debug" = true ∧ t = .debug (method "uniffi_trait_debug" [] .string)) ∨
     (word "Display" = true ∧ t = .display (method "uniffi_trait_display" [] .string)) ∨
     (word "Eq" = true ∧ t = .eq (method "uniffi_trait_eq_eq" [other] .boolean) (method "uniffi_trait_eq_ne" [other] .boolean)) ∨
     (word "Hash" = true ∧ t = .hash (method "uniffi_trait_hash" [] .uint64)) ∨
     (word "Ord" = true ∧ t = .ord (method "uniffi_trait_ord_cmp" [other] .int8)))

/-- What the words in `#[uniffi::export(…)]` on a trait make of it. -/
def ExportIs (as : List Meta) : ExportTy → Prop
  | .callbackInterface => wordArg "callback_interface" as = true ∧ wordArg "with_foreign" as = false ∧
      wordArg "foreign" as = false ∧ wordArg "rust" as = false
  | .traitInterface kind => wordArg "callback_interface" as = false ∧
      kind = (if wordArg "with_foreign" as || (wordArg "foreign" as && wordArg "rust" as) then .both
        else if wordArg "foreign" as then .foreignOnly else .rustOnly)

/-! ### Items -/

/-- The metadata of a record. -/
def RecordIs (env : CompileEnv) (l : Look) (ir : Ir) (p : RPath) (id : Nat) (vis : Vis) (ident : Ident)
    (fields : List (SField Meta)) (metas : List Meta) (remote : Bool) (os : List Out) : Prop :=
  ∃ m name orig fs ts, os = ts ++ [.data remote (.record m name orig fs (docText metas))] ∧
    PlaceIs ir (p ++ [.decl id .record ident vis (textArg "name" (uniffiArgs metas)) remote])
      (textArg "name" (uniffiArgs metas)) ident m name orig ∧
    FieldsAre env ir p fields fs ∧ BuiltinTraits l metas p name (.record m name) ts

/-- The metadata of an enum or an error. -/
def EnumIs (env : CompileEnv) (l : Look) (ir : Ir) (p : RPath) (id : Nat) (vis : Vis) (ident : Ident)
    (variants : List (SVariant Meta)) (metas : List Meta) (shape : Shape) (remote : Bool) (os : List Out) : Prop :=
  ∃ m name orig vs ts, os = ts ++ [.data remote (.enum m name orig shape (reprOf metas) vs
      (wordArg "non_exhaustive" metas) (docText metas))] ∧
    PlaceIs ir (p ++ [.decl id .enum ident vis (textArg "name" (uniffiArgs metas)) remote])
      (textArg "name" (uniffiArgs metas)) ident m name orig ∧
    Each (VariantIs env ir p (reprOf metas) (shape == .error true)) (variants.filter fun v => isActive env v.attrs) vs ∧
    BuiltinTraits l metas p name (.enum m name) ts

/-- The metadata of an object. -/
def ObjectIs (l : Look) (ir : Ir) (p : RPath) (id : Nat) (vis : Vis) (ident : Ident) (metas : List Meta) (remote : Bool)
    (os : List Out) : Prop :=
  ∃ m name orig ts, os = ts ++ [.data remote (.object m name orig .struct (docText metas))] ∧
    PlaceIs ir (p ++ [.decl id .object ident vis (textArg "name" (uniffiArgs metas)) remote])
      (textArg "name" (uniffiArgs metas)) ident m name orig ∧
    BuiltinTraits l metas p name (.object m name .struct) ts

/-- The metadata of a trait: the trait, then its methods, numbered from 0. -/
def TraitIs (env : CompileEnv) (l : Look) (ir : Ir) (p : RPath) (id : Nat) (vis : Vis) (ident : Ident)
    (fns : List (SFn Meta)) (metas : List Meta) (os : List Out) : Prop :=
  let as := argsIn l.isExport metas
  ∃ m name orig exportTy ms, ExportIs as exportTy ∧
    PlaceIs ir (p ++ [.decl id (.trait exportTy) ident vis (textArg "name" as) false]) (textArg "name" as) ident m name orig ∧
    os = .data false (match exportTy with
      | .traitInterface kind => .object m name orig (.trait kind) (docText (others l metas))
      | .callbackInterface => .callbackInterface m name (docText (others l metas))) :: ms ∧
    Each (fun (f : SFn Meta × Nat) o => ∃ byArc fn, o = .data byArc (.traitMethod name (UInt32.ofNat f.2) fn) ∧
        MethodIs env ir p (match exportTy with
          | .traitInterface kind => .traitObject m name kind
          | .callbackInterface => .callbackInterface m name) f.1 byArc fn)
      (fns.filter fun f => isActive env f.attrs).zipIdx ms

/-- The metadata of an `impl`: the constructors, then the methods. They are attached to the name in the attributes, or
else to that of the type. -/
def ImplIs (env : CompileEnv) (l : Look) (ir : Ir) (p : RPath) (self : Ty) (fns : List (SFn Meta)) (metas : List Meta)
    (os : List Out) : Prop :=
  ∃ selfTy selfName cs ms, os = cs ++ ms ∧ TypeIs ir p self selfTy ∧
    (match textArg "name" (argsIn l.isExport metas) with
      | some s => selfName = s
      | none => TypeName selfTy selfName) ∧
    ∀ r : RTy, selfTy = r.toMeta → r ≠ .u8 →
      Each (fun f o => ∃ c, o = .data false (.constructor c) ∧ ConsIs env ir p r f selfName c) (fns.filter (isCons env)) cs ∧
      Each (fun f o => ∃ byArc fn, o = .data byArc (.method ⟨selfName, fn⟩) ∧ MethodIs env ir p r f byArc fn)
        (fns.filter fun f => isActive env f.attrs && !isCons env f) ms

/-- The metadata of an `impl` without `#[uniffi::export]`: nothing, or that `UnexpectedUniFFICallbackError` can be
converted. -/
def FromIs (ir : Ir) (p : RPath) (trait : Option (Path × List Ty)) (self : Ty) (os : List Out) : Prop :=
  os = [] ∨ ∃ path arg ty q, trait = some (path, [arg]) ∧ os = [.fromUnexpected ty] ∧
    Denotes ir p path .type q ∧ q.getLast? = some (.builtin .from_) ∧
    (TraitsLocal ir p arg → ParamsFresh ir p arg → Means ir [] p arg .unexpectedCallbackError) ∧ TypeIs ir p self ty

/-- A record and an object for a `struct`. -/
inductive StructIs (env : CompileEnv) (l : Look) (ir : Ir) (p : RPath) (id : Nat) (vis : Vis) (ident : Ident)
    (fields : List (SField Meta)) (metas : List Meta) : List Out → Prop
  | record {remote os} : derived l "Record" metas = some remote →
      RecordIs env l ir p id vis ident fields metas remote os → StructIs env l ir p id vis ident fields metas os
  | object {remote os} : derived l "Record" metas = none →
      derived l "Object" metas = some remote →
      ObjectIs l ir p id vis ident metas remote os → StructIs env l ir p id vis ident fields metas os
  | nothing : derived l "Record" metas = none → derived l "Object" metas = none →
      StructIs env l ir p id vis ident fields metas []

/-- An enum, an error or an object for an `enum`. -/
inductive EnumItemIs (env : CompileEnv) (l : Look) (ir : Ir) (p : RPath) (id : Nat) (vis : Vis) (ident : Ident)
    (variants : List (SVariant Meta)) (metas : List Meta) : List Out → Prop
  | object {remote os} : derived l "Object" metas = some remote →
      ObjectIs l ir p id vis ident metas remote os → EnumItemIs env l ir p id vis ident variants metas os
  | enum {remote os} : derived l "Object" metas = none →
      derived l "Enum" metas = some remote →
      EnumIs env l ir p id vis ident variants metas .enum remote os → EnumItemIs env l ir p id vis ident variants metas os
  | error {remote os} : derived l "Object" metas = none →
      derived l "Error" metas = some remote →
      EnumIs env l ir p id vis ident variants metas (.error (wordArg "flat_error" (uniffiArgs metas))) remote os →
      EnumItemIs env l ir p id vis ident variants metas os
  | nothing : derived l "Object" metas = none → derived l "Enum" metas = none →
      derived l "Error" metas = none → EnumItemIs env l ir p id vis ident variants metas []

mutual
/-- `ItemIs env look ir sp p i os`: the item `i` has the metadata `os`. `p` is the module of the item in the program
`ir`, `sp` is the same module before attributes are looked at; `look sp` says which attributes are those of UniFFI. -/
inductive ItemIs (env : CompileEnv) (look : RPath → Look) (ir : Ir) : RPath → RPath → SItem Meta → List Out → Prop
  | fn {sp p id vis f metas m} : Active env f.attrs metas → metas.any (look sp).isExport = true →
      FnIs ir p none none (others (look sp) metas) (argsIn (look sp).isExport metas) f f.inputs m →
      PlaceIs ir (p ++ [.decl id .fn f.ident vis (textArg "name" (argsIn (look sp).isExport metas)) false])
        (textArg "name" (argsIn (look sp).isExport metas)) f.ident m.modulePath m.name m.origName →
      ItemIs env look ir sp p (.fn id vis f) [.data false (.func m)]
  | fnNot {sp p id vis f metas} : Active env f.attrs metas → metas.any (look sp).isExport = false →
      ItemIs env look ir sp p (.fn id vis f) []
  | fnOff {sp p id vis f} : env.parseAttrs f.attrs = .ok none → ItemIs env look ir sp p (.fn id vis f) []
  | struct {sp p id attrs vis ident fields metas os} : Active env attrs metas →
      StructIs env (look sp) ir p id vis ident fields metas os → ItemIs env look ir sp p (.struct id attrs vis ident fields) os
  | structOff {sp p id attrs vis ident fields} : env.parseAttrs attrs = .ok none →
      ItemIs env look ir sp p (.struct id attrs vis ident fields) []
  | enum {sp p id attrs vis ident variants metas os} : Active env attrs metas →
      EnumItemIs env (look sp) ir p id vis ident variants metas os → ItemIs env look ir sp p (.enum id attrs vis ident variants) os
  | enumOff {sp p id attrs vis ident variants} : env.parseAttrs attrs = .ok none →
      ItemIs env look ir sp p (.enum id attrs vis ident variants) []
  | trait {sp p id attrs vis ident fns metas os} : Active env attrs metas → metas.any (look sp).isExport = true →
      TraitIs env (look sp) ir p id vis ident fns metas os → ItemIs env look ir sp p (.trait id attrs vis ident fns) os
  | traitNot {sp p id attrs vis ident fns metas} : Active env attrs metas → metas.any (look sp).isExport = false →
      ItemIs env look ir sp p (.trait id attrs vis ident fns) []
  | traitOff {sp p id attrs vis ident fns} : env.parseAttrs attrs = .ok none →
      ItemIs env look ir sp p (.trait id attrs vis ident fns) []
  | impl {sp p id attrs trait self fns metas os} : Active env attrs metas → metas.any (look sp).isExport = true →
      ImplIs env (look sp) ir p self fns metas os → ItemIs env look ir sp p (.impl id attrs trait self fns) os
  | implNot {sp p id attrs trait self fns metas os} : Active env attrs metas → metas.any (look sp).isExport = false →
      FromIs ir p trait self os → ItemIs env look ir sp p (.impl id attrs trait self fns) os
  /-- C64: an `impl` of `From` counts even if it is left out. -/
  | implOff {sp p id attrs trait self fns os} : env.parseAttrs attrs = .ok none → FromIs ir p trait self os →
      ItemIs env look ir sp p (.impl id attrs trait self fns) os
  | mod {sp p id attrs vis ident items metas inner items' os} : Active env attrs metas → skeletons env items = .ok inner →
      Canon ir (p ++ [.module id ident vis items']) →
      ItemsAre env look ir (sp ++ [.module id ident vis inner]) (p ++ [.module id ident vis items']) items os →
      ItemIs env look ir sp p (.mod id attrs vis ident items) os
  | modOff {sp p id attrs vis ident items} : env.parseAttrs attrs = .ok none →
      ItemIs env look ir sp p (.mod id attrs vis ident items) []
  | use {sp p attrs items} : ItemIs env look ir sp p (.use attrs items) []
  | type {sp p id attrs vis ident params target} : ItemIs env look ir sp p (.type id attrs vis ident params target) []
  | custom {sp p id attrs path key docs ident builtin m orig b} : path.segs.getLast? ≠ some ⟨false, "include_scaffolding"⟩ →
      (look sp).macroOf path = some key → key = "custom_type" ∨ key = "custom_newtype" →
      PlaceIs ir (p ++ [.decl id (.custom builtin) ident .pub none false]) none ident m ident.name orig →
      TypeIs ir p builtin b →
      ItemIs env look ir sp p (.macro id attrs path (.custom docs ident builtin))
        [.data false (.customType m ident.name orig b (docText docs))]
  | macro {sp p id attrs path body} : path.segs.getLast? = some ⟨false, "include_scaffolding"⟩ ∨
      ((look sp).macroOf path ≠ some "custom_type" ∧ (look sp).macroOf path ≠ some "custom_newtype") →
      ItemIs env look ir sp p (.macro id attrs path body) []
  | other {sp p attrs} : ItemIs env look ir sp p (.other attrs) []
/-- The metadata of the items of a module, in any order. -/
inductive ItemsAre (env : CompileEnv) (look : RPath → Look) (ir : Ir) : RPath → RPath → List (SItem Meta) → List Out → Prop
  | nil {sp p} : ItemsAre env look ir sp p [] []
  | cons {sp p i is os os' all} : ItemIs env look ir sp p i os → ItemsAre env look ir sp p is os' →
      List.Perm all (os ++ os') → ItemsAre env look ir sp p (i :: is) all
end

/-- The metadata of a crate. -/
def CrateIs (before ir : Ir) (c : SCrate Meta) (group : String × List Out) : Prop :=
  group.1 = c.ident.name ∧ ∃ inner items, skeletons c.env c.items = .ok inner ∧
    Canon ir [.module c.id c.ident .pub items] ∧
    ItemsAre c.env (lookIn before) ir [.module c.id c.ident .pub (inner ++ c.udl)] [.module c.id c.ident .pub items] c.items
      group.2

end Verif.Src
