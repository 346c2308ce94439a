import Verif.Udl.Syntax
import Verif.Udl.Literal
/-
What an interface definition file says, as relations between the written definitions and the items
they stand for.
-/
namespace Verif.Udl.File
open Verif.Meta Verif.Udl

/-- Two lists of the same length whose elements are related one by one. -/
inductive Each {α β : Type} (R : α → β → Prop) : List α → List β → Prop
  | nil : Each R [] []
  | cons {a b as bs} : R a b → Each R as bs → Each R (a :: as) (b :: bs)

/-! ### Attributes -/

/-- The attributes in the brackets. -/
def listed : Attrs → List Attr
  | none => []
  | some l => l

/-- `[n]` is written. -/
def Marked (as : Attrs) (n : String) : Prop := .noArgs n ∈ listed as

/-- The first `[key=v]`. -/
def FirstIs (as : Attrs) (key v : String) : Prop :=
  ∃ before q after, listed as = before ++ .ident key q v :: after ∧ ∀ q w, .ident key q w ∉ before

/-- There is no `[key=..]`. -/
def NoKey (as : Attrs) (key : String) : Prop := ∀ q w, .ident key q w ∉ listed as

/-- The first `[Traits=(..)]`, or nothing. -/
def TraitList (as : Attrs) (l : List String) : Prop :=
  (∃ before after, listed as = before ++ .identList "Traits" l :: after ∧
    ∀ k, .identList "Traits" k ∉ before) ∨
  ((∀ k, .identList "Traits" k ∉ listed as) ∧ l = [])

/-- No attribute is written twice, and each is one of those allowed here. -/
structure Allowed (p : Attr → Prop) (as : Attrs) : Prop where
  once : (listed as).Nodup
  known : ∀ a ∈ listed as, p a

/-- `[Async]`, `[Throws=E]`. -/
def onFunction (a : Attr) : Prop :=
  a = .noArgs "Async" ∨ ∃ q e, a = .ident "Throws" q e

/-- `[Async]`, `[Throws=E]`, `[Name=n]`. -/
def onConstructor (a : Attr) : Prop :=
  onFunction a ∨ ∃ q n, a = .ident "Name" q n

/-- `[Async]`, `[Throws=E]`, `[Self=ByArc]`. -/
def onMethod (a : Attr) : Prop :=
  onFunction a ∨ a = .ident "Self" false "ByArc"

/-- `[ByRef]`, `[ByMutRef]`. -/
def onArgument (a : Attr) : Prop := a = .noArgs "ByRef" ∨ a = .noArgs "ByMutRef"

/-- `[Remote]`, `[Traits=(..)]`. -/
def onDictionary (a : Attr) : Prop :=
  a = .noArgs "Remote" ∨ ∃ l, a = .identList "Traits" l

/-- `[Error]`, `[NonExhaustive]`, `[Enum]` and those of dictionaries. -/
def onEnum (a : Attr) : Prop :=
  a = .noArgs "Error" ∨ a = .noArgs "NonExhaustive" ∨ a = .noArgs "Enum" ∨ onDictionary a

/-- `[Enum]`, `[Error]`, `[Trait]`, `[WithForeign]` and those of dictionaries. -/
def onInterface (a : Attr) : Prop :=
  a = .noArgs "Enum" ∨ a = .noArgs "Error" ∨ a = .noArgs "Trait" ∨ a = .noArgs "WithForeign" ∨
    onDictionary a

/-- `[External=c]`, `[Custom]`, `[Custom=c]`. -/
def onTypedef (a : Attr) : Prop :=
  a = .noArgs "Custom" ∨ (∃ q c, a = .ident "Custom" q c) ∨ ∃ q c, a = .ident "External" q c

/-- The attributes of an interface. `[Enum]` stands alone or together with `[Remote]` or
`[Traits=(..)]`. -/
structure InterfaceAttrs (as : Attrs) : Prop where
  allowed : Allowed onInterface as
  enum : Marked as "Enum" → listed as = [.noArgs "Enum"] ∨ ∃ a ∈ listed as, onDictionary a
  foreign : ¬(Marked as "Remote" ∧ Marked as "WithForeign")

/-- The attributes of a typedef: at most one. -/
structure TypedefAttrs (as : Attrs) : Prop where
  allowed : Allowed onTypedef as
  one : (listed as).length ≤ 1

/-- An interface that is an enum. -/
def EnumLike (as : Attrs) : Prop := Marked as "Enum" ∨ Marked as "Error"

/-- A typedef of a custom type. -/
def CustomLike (as : Attrs) : Prop := Marked as "Custom" ∨ ∃ q c, .ident "Custom" q c ∈ listed as

/-- What kind of object an interface is. -/
inductive IsImpl (as : Attrs) : Impl → Prop
  | struct : ¬Marked as "Trait" → ¬Marked as "WithForeign" → IsImpl as .struct
  | rustOnly : Marked as "Trait" → ¬Marked as "WithForeign" → IsImpl as (.trait .rustOnly)
  | both : Marked as "Trait" → Marked as "WithForeign" → IsImpl as (.trait .both)

/-- The crate the type of a typedef is in. -/
def CrateIs (crate : String) (as : Attrs) (m : String) : Prop :=
  (∃ q, .ident "External" q m ∈ listed as ∨ .ident "Custom" q m ∈ listed as) ∨
  (NoKey as "External" ∧ NoKey as "Custom" ∧ m = crate)

/-! ### Types -/

/-- The names of the built-in types. -/
def builtins : List (String × MTy) :=
  [("string", .string), ("bytes", .bytes), ("u8", .uint8), ("i8", .int8), ("u16", .uint16),
   ("i16", .int16), ("u32", .uint32), ("i32", .int32), ("u64", .uint64), ("i64", .int64),
   ("f32", .float32), ("f64", .float64), ("timestamp", .timestamp), ("duration", .duration)]

/-- What the keyword of a typedef says about the type. -/
inductive Keyword (m n : String) : String → MTy → Prop
  | dictionary : Keyword m n "dictionary" (.record m n)
  | record : Keyword m n "record" (.record m n)
  | struct : Keyword m n "struct" (.record m n)
  | enum : Keyword m n "enum" (.enum m n)
  | interface : Keyword m n "interface" (.object m n .struct)
  | impl : Keyword m n "impl" (.object m n .struct)
  | trait : Keyword m n "trait" (.object m n (.trait .rustOnly))
  | callback : Keyword m n "callback" (.object m n (.trait .both))
  | withForeign : Keyword m n "trait_with_foreign" (.object m n (.trait .both))

/-- `T?` is `optional T`. -/
def orNull (q : Bool) (t : MTy) : MTy := if q then .optional t else t

mutual
  /-- The file `file` of crate `crate` has a definition of the name `n` as the type `t`. -/
  inductive Known (crate : String) (file : List Def) : String → MTy → Prop
    | mk {d : Def} {n : String} {t : MTy} :
      d ∈ file → Introduces crate file d n t → Known crate file n t
  /-- A definition introduces a name for a type. -/
  inductive Introduces (crate : String) (file : List Def) : Def → String → MTy → Prop
    | enum_ {doc as n vs} : Introduces crate file (.enum_ doc as n vs) n (.enum crate n)
    | dictionary {doc as n inh ms} :
      Introduces crate file (.dictionary doc as n inh ms) n (.record crate n)
    | enumInterface {doc as n inh ms} : EnumLike as →
      Introduces crate file (.interface doc as n inh ms) n (.enum crate n)
    | object {doc as n inh ms imp} : ¬EnumLike as → IsImpl as imp →
      Introduces crate file (.interface doc as n inh ms) n (.object crate n imp)
    | callback {doc as n inh ms} :
      Introduces crate file (.callback doc as n inh ms) n (.callbackInterface crate n)
    | keyword {as ta k q n m t} : ¬CustomLike as → CrateIs crate as m → Keyword m n k t →
      Introduces crate file (.typedef as ta (.identifier k q) n) n t
    | custom {as w n m t} : CustomLike as → CrateIs crate as m → Means crate file w t →
      Introduces crate file (.typedef as false w n) n (.custom m n t)
  /-- A type expression in the file means the type `t`. -/
  inductive Means (crate : String) (file : List Def) : WTy → MTy → Prop
    | boolean {q} : Means crate file (.boolean q) (orNull q .boolean)
    | float {q} : Means crate file (.float false q) (orNull q .float32)
    | double {q} : Means crate file (.double false q) (orNull q .float64)
    | builtin {n q t} : (n, t) ∈ builtins → Means crate file (.identifier n q) (orNull q t)
    | named {n q t} : (∀ t', (n, t') ∉ builtins) → Known crate file n t →
      Means crate file (.identifier n q) (orNull q t)
    | sequence {w q t} : Means crate file w t →
      Means crate file (.sequence w q) (orNull q (.sequence t))
    | record {k v q kt vt} : KeyMeans crate file k kt → Means crate file v vt →
      Means crate file (.record k v q) (orNull q (.map kt vt))
  /-- The key of a `record<K, V>`. -/
  inductive KeyMeans (crate : String) (file : List Def) : WKey → MTy → Prop
    | dom : KeyMeans crate file .dom .string
    | ty {w t} : Means crate file w t → KeyMeans crate file (.ty w) t
end

/-- The attributes that are looked at to find out what type a definition introduces. -/
def AttrsOk : Def → Prop
  | .interface _ as _ _ _ => InterfaceAttrs as
  | .typedef as _ _ _ => TypedefAttrs as
  | .callback _ as _ _ _ => as = none
  | _ => True

/-- A definition that follows the definitions `before` may introduce its type: the types it is made
from are defined before, and the name is new, or it is a record or an enum and the same as before. -/
inductive TypeOk (crate : String) (before : List Def) : Def → Prop
  | type {d n t} : AttrsOk d → Introduces crate before d n t →
    (∀ t', Known crate before n t' →
      t' = t ∧ ((∃ m k, t = .record m k) ∨ ∃ m k, t = .enum m k)) →
    TypeOk crate before d
  | namespace_ {doc as n ms} : TypeOk crate before (.namespace_ doc as n ms)
  | other : TypeOk crate before .other

/-! ### Items -/

/-- A default for a type. What the literals of numbers, strings and so on become is the matter of C59;
a string for an enum names a variant. -/
inductive DefaultIs : Lit → MTy → ULit → Prop
  | variant {s m n} : DefaultIs (.string s) (.enum m n) (.variant s (.enum m n))
  | null {t} : DefaultIs .null (.optional t) (.plain .optNone)
  | some {l t v} : l ≠ .null → DefaultIs l t v → DefaultIs l (.optional t) (.some v)
  | plain {l t v} : (∀ m n, t ≠ .enum m n) → (∀ u, t ≠ .optional u) → convert l t = some v →
    DefaultIs l t (.plain v)

/-- A default that may be missing. -/
inductive OptDefaultIs : Option Lit → MTy → Option ULit → Prop
  | none {t} : OptDefaultIs none t none
  | some {l t v} : DefaultIs l t v → OptDefaultIs (some l) t (some v)

/-- How an argument is passed. -/
inductive PassedBy (as : Attrs) : PassBy → Prop
  | value : ¬Marked as "ByRef" → ¬Marked as "ByMutRef" → PassedBy as .value
  | ref : Marked as "ByRef" → ¬Marked as "ByMutRef" → PassedBy as .ref
  | mutRef : Marked as "ByMutRef" → ¬Marked as "ByRef" → PassedBy as .mutRef

/-- An argument of a callable. -/
inductive ArgIs (crate : String) (file : List Def) : WArg → UArg → Prop
  | mk {as opt w n d t p v} : Means crate file w t → OptDefaultIs d t v →
    Allowed onArgument as → PassedBy as p →
    ArgIs crate file (.single as opt false w n d)
      { name := n, ty := t, passBy := p, optional := opt, default := v }

/-- A field of a variant. -/
inductive VariantFieldIs (crate : String) (file : List Def) : WArg → UField → Prop
  | mk {opt w n t} : Means crate file w t →
    VariantFieldIs crate file (.single none opt false w n none)
      { name := n, ty := t, default := none, doc := none }

/-- What is returned; `void` and `undefined` are nothing. -/
inductive ReturnIs (crate : String) (file : List Def) : WRet → Option MTy → Prop
  | undefined : ReturnIs crate file .undefined none
  | void {q} : ReturnIs crate file (.ty (.identifier "void" q)) none
  | ty {w t} : (∀ q, w ≠ .identifier "void" q) → Means crate file w t →
    ReturnIs crate file (.ty w) (some t)

/-- The error type; it is looked up among the names the file defines. -/
inductive ThrowsIs (crate : String) (file : List Def) (as : Attrs) : Option MTy → Prop
  | none : NoKey as "Throws" → ThrowsIs crate file as none
  | some {n t} : FirstIs as "Throws" n → Known crate file n t → ThrowsIs crate file as (some t)

/-- What functions, methods and constructors have in common: the crate, whether they are async, their
arguments in order, their error type and documentation. Arguments of async callables are not mutable
references. -/
structure Callable (crate : String) (file : List Def) (doc : Option String) (as : Attrs)
    (args : List WArg) (f : UFn) : Prop where
  inCrate : f.modulePath = crate
  async : f.isAsync = true ↔ Marked as "Async"
  args : Each (ArgIs crate file) args f.inputs
  throws : ThrowsIs crate file as f.throws
  doc : f.doc = doc
  mutRef : f.isAsync = true → ∀ a ∈ f.inputs, a.passBy ≠ .mutRef

/-- A function. -/
inductive FnIs (crate : String) (file : List Def) : WNsMember → UFn → Prop
  | mk {o f} : Allowed onFunction o.attrs → o.name = some f.name →
    Callable crate file o.doc o.attrs o.args f → ReturnIs crate file o.ret f.ret →
    f.byArc = false → FnIs crate file (.op o) f

/-- A constructor; it is called `new` when no name is written. -/
structure CtorIs (crate : String) (file : List Def) (c : WCtor) (f : UFn) : Prop where
  attrs : Allowed onConstructor c.attrs
  name : FirstIs c.attrs "Name" f.name ∨ (NoKey c.attrs "Name" ∧ f.name = "new")
  callable : Callable crate file c.doc c.attrs c.args f
  ret : f.ret = none
  byArc : f.byArc = false

/-- A method. -/
structure MethodIs (crate : String) (file : List Def) (o : WOp) (f : UFn) : Prop where
  plain : o.special = false ∧ o.modifier = none
  attrs : Allowed onMethod o.attrs
  name : o.name = some f.name
  notNew : f.name ≠ "new"
  callable : Callable crate file o.doc o.attrs o.args f
  ret : ReturnIs crate file o.ret f.ret
  byArc : f.byArc = true ↔ .ident "Self" false "ByArc" ∈ listed o.attrs

/-- A field of a dictionary. -/
structure FieldIs (crate : String) (file : List Def) (w : WField) (f : UField) : Prop where
  attrs : w.attrs = none
  name : f.name = w.name
  ty : Means crate file w.ty f.ty
  default : OptDefaultIs w.default f.ty f.default
  doc : f.doc = w.doc

/-- The name of a variant is written as a return type. -/
inductive VariantName : WRet → String → Prop
  | name {n q} : VariantName (.ty (.identifier n q)) n
  | error {q} : VariantName (.ty (.error q)) "Error"

/-- A variant of an enum interface. -/
inductive VariantIs (crate : String) (file : List Def) : WMember → UVariant → Prop
  | mk {o v} : o.special = false → o.modifier ≠ some .stringifier → o.name = none →
    VariantName o.ret v.name → Each (VariantFieldIs crate file) o.args v.fields →
    v.doc = o.doc → VariantIs crate file (.op o) v

/-- A method of a built-in trait. -/
def builtinMethod (crate name : String) (inputs : List UArg) (ret : MTy) : UFn :=
  { modulePath := crate, name := name, isAsync := false, inputs := inputs, ret := some ret,
    throws := none, byArc := false, doc := none }

/-- The value a value is compared with. -/
def comparedWith (t : MTy) : UArg :=
  { name := "other", ty := t, passBy := .ref, optional := false, default := none }

/-- A built-in trait of the type `t` called `self`. -/
inductive TraitIs (crate self : String) (t : MTy) : String → UItem → Prop
  | debug : TraitIs crate self t "Debug"
      (.uniffiTrait self (.debug (builtinMethod crate "uniffi_trait_debug" [] .string)))
  | display : TraitIs crate self t "Display"
      (.uniffiTrait self (.display (builtinMethod crate "uniffi_trait_display" [] .string)))
  | eq : TraitIs crate self t "Eq"
      (.uniffiTrait self
        (.eq (builtinMethod crate "uniffi_trait_eq_eq" [comparedWith t] .boolean)
          (builtinMethod crate "uniffi_trait_eq_ne" [comparedWith t] .boolean)))
  | hash : TraitIs crate self t "Hash"
      (.uniffiTrait self (.hash (builtinMethod crate "uniffi_trait_hash" [] .uint64)))
  | ord : TraitIs crate self t "Ord"
      (.uniffiTrait self
        (.ord (builtinMethod crate "uniffi_trait_ord_cmp" [comparedWith t] .int8)))

/-- A member of an interface that is an object; only structs have constructors. -/
inductive MemberIs (crate : String) (file : List Def) (self : String) (imp : Impl) :
    WMember → UItem → Prop
  | ctor {c f} : CtorIs crate file c f → imp = .struct →
    MemberIs crate file self imp (.ctor c) (.constructor self f)
  | op {o f} : MethodIs crate file o f → MemberIs crate file self imp (.op o) (.method self f)

/-- The name of a member of an object. -/
def memberName : UItem → Option String
  | .constructor _ f => some f.name
  | .method _ f => some f.name
  | _ => none

/-- A method of a callback interface, with its position. -/
inductive CallbackIs (crate : String) (file : List Def) (self : String) :
    WMember × Nat → UItem → Prop
  | mk {o i f} : MethodIs crate file o f →
    CallbackIs crate file self (.op o, i) (.traitMethod self i f)

/-- A definition stands for exactly these items. -/
inductive Gives (crate ns : String) (file : List Def) : Def → List UItem → Prop
  | namespace_ {doc ms fs} : Each (FnIs crate file) ms fs →
    Gives crate ns file (.namespace_ doc none ns ms) (fs.map .func)
  | enum_ {doc as n vs shape remote ne} : Allowed onEnum as →
    (Marked as "Error" ∧ shape = .error true ∨ ¬Marked as "Error" ∧ shape = .enum) →
    (remote = true ↔ Marked as "Remote") → (ne = true ↔ Marked as "NonExhaustive") →
    Gives crate ns file (.enum_ doc as n vs)
      [.enum crate n shape remote
        (vs.map fun v => { name := v.2, fields := [], doc := v.1 }) ne doc]
  | dictionary {doc as n ms remote names traits fields} : Allowed onDictionary as →
    (remote = true ↔ Marked as "Remote") → TraitList as names →
    Each (TraitIs crate n (.record crate n)) names traits →
    Each (FieldIs crate file) ms fields →
    Gives crate ns file (.dictionary doc as n false ms)
      (traits ++ [.record crate n remote fields doc])
  | enumInterface {doc as n ms shape remote names traits variants} :
    EnumLike as → InterfaceAttrs as → Allowed onEnum as →
    (Marked as "Error" ∧ shape = .error false ∨ ¬Marked as "Error" ∧ shape = .enum) →
    (remote = true ↔ Marked as "Remote") → TraitList as names →
    Each (TraitIs crate n (.enum crate n)) names traits →
    Each (VariantIs crate file) ms variants →
    Gives crate ns file (.interface doc as n false ms)
      (traits ++ [.enum crate n shape remote variants false doc])
  | object {doc as n ms imp remote names members traits} :
    ¬EnumLike as → InterfaceAttrs as → IsImpl as imp →
    (remote = true ↔ Marked as "Remote") →
    Each (MemberIs crate file n imp) ms members →
    (members.filterMap memberName).Nodup →
    TraitList as names → Each (TraitIs crate n (.object crate n imp)) names traits →
    Gives crate ns file (.interface doc as n false ms)
      (members ++ traits ++ [.object crate n remote imp doc])
  | callback {doc n ms methods} : Each (CallbackIs crate file n) ms.zipIdx methods →
    Gives crate ns file (.callback doc none n false ms) (methods ++ [.callback crate n doc])
  | typedef {as ta w n} : Gives crate ns file (.typedef as ta w n) []

/-- A file that can be read, with the namespace `ns`: a namespace is defined, types are introduced
before custom types are made from them and only once, and each definition stands for items. -/
structure Accepted (crate : String) (file : List Def) (ns : String) : Prop where
  found : ∃ before doc as ms after, file = before ++ .namespace_ doc as ns ms :: after ∧
    ∀ doc as n ms, .namespace_ doc as n ms ∉ before
  types : ∀ before d after, file = before ++ d :: after → TypeOk crate before d
  items : ∀ d ∈ file, ∃ items, Gives crate ns file d items

/-- The group of items a file stands for: those its definitions give and the custom types, each
once. The documentation is the one of the last namespace definition. -/
structure Says (crate : String) (file : List Def) (g : UGroup) : Prop where
  inCrate : g.crate = crate
  doc : ∃ before as ms after, file = before ++ .namespace_ g.doc as g.ns ms :: after ∧
    ∀ doc as n ms, .namespace_ doc as n ms ∉ after
  items : ∀ i, i ∈ g.items ↔ (∃ d ∈ file, ∃ is, Gives crate g.ns file d is ∧ i ∈ is) ∨
    ∃ m n b, i = .custom m n b ∧ Known crate file n (.custom m n b)
  once : g.items.Nodup

end Verif.Udl.File
