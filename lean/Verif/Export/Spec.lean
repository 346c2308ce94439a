import Verif.Export.Model
import Mathlib.Data.List.Forall2

/-!
# What is written in `#[uniffi::export]` and what it means

Stated over the syntax only: which arguments may be written, what each of them says, and what a
signature says. Nothing here uses the functions of the model.
-/

namespace Verif.Export.Spec

/-- The words `#[uniffi::export]` knows on a trait. -/
def traitWords : List String := ["callback_interface", "with_foreign", "rust", "foreign", "remote"]

/-- An argument that may be written on a trait. -/
def TraitArgument (x : Argument) : Prop :=
  x = .assign "async_runtime" "tokio" ∨ ∃ w ∈ traitWords, x = .word w

/-- Arguments that may be written together on a trait: all known, each at most once, not two ways of
saying who implements the trait. -/
structure TraitArguments (l : List Argument) : Prop where
  known : ∀ x ∈ l, TraitArgument x
  once : l.Nodup
  styles : .word "rust" ∈ l ∨ .word "foreign" ∈ l →
    .word "callback_interface" ∉ l ∧ .word "with_foreign" ∉ l
  legacy : ¬ (.word "callback_interface" ∈ l ∧ .word "with_foreign" ∈ l)

/-- Foreign code may implement the trait. -/
def ForeignMayImplement (l : List Argument) : Prop :=
  .word "foreign" ∈ l ∨ .word "with_foreign" ∈ l ∨ .word "callback_interface" ∈ l

/-- Implementations in Rust are passed to foreign code by handles. -/
def RustImplementationsCross (l : List Argument) : Prop :=
  .word "callback_interface" ∉ l ∧ (.word "foreign" ∈ l → .word "rust" ∈ l)

/-- An entry of `default(...)` that is a name and a value, or the name alone. -/
def entryPair (e : DefaultEntry) : String × Value :=
  match e.value with
  | none => (e.name, .implicit)
  | some v => (e.name, .given v)

/-- The entries of `default(...)` that are taken: a name alone stands at the very end. -/
def EntriesOk (es : List DefaultEntry) (trailing : Bool) : Prop :=
  (∀ e ∈ es.dropLast, e.value.isSome) ∧ (trailing = true → ∀ e ∈ es, e.value.isSome)

/-- The default values that are written, in order. -/
def written : List Argument → List (String × Value)
  | [] => []
  | .defaults es _ :: l => es.map entryPair ++ written l
  | _ :: l => written l

/-- The names that are written. -/
def writtenNames : List Argument → List String
  | [] => []
  | .assign k v :: l => if k = "name" then v :: writtenNames l else writtenNames l
  | _ :: l => writtenNames l

/-- The runtimes that are written. -/
def writtenRuntimes : List Argument → List String
  | [] => []
  | .assign k v :: l => if k = "async_runtime" then v :: writtenRuntimes l else writtenRuntimes l
  | _ :: l => writtenRuntimes l

/-- An argument that may be written on a function, a method or a constructor. -/
def FnArgument (x : Argument) : Prop :=
  x = .assign "async_runtime" "tokio" ∨ (∃ n, x = .assign "name" n) ∨
    ∃ es t, x = .defaults es t ∧ EntriesOk es t

/-- Arguments that may be written together on a function. -/
structure FnArguments (l : List Argument) : Prop where
  known : ∀ x ∈ l, FnArgument x
  oneName : (writtenNames l).length ≤ 1
  oneRuntime : (writtenRuntimes l).length ≤ 1

/-- The value written last for a name. -/
def lastFor (n : String) (ps : List (String × Value)) : Option Value :=
  (ps.reverse.find? (fun p => p.1 = n)).map Prod.snd

/-- The names of the arguments of a signature. -/
def argNames : List Input → List String
  | [] => []
  | .named n _ :: l => n :: argNames l
  | _ :: l => argNames l

/-- The attributes of a method that are looked at: those written out, and bare paths under
`cfg_attr`. -/
def lookedAt : List Attribute → List Meta
  | [] => []
  | .plain m :: l => m :: lookedAt l
  | .cfgAttr none :: l => lookedAt l
  | .cfgAttr (some ms) :: l => ms.filter (fun m => m.body = .path) ++ lookedAt l

/-- Those of them that are UniFFI's. -/
def uniffiOnes (l : List Attribute) : List Meta :=
  (lookedAt l).filter (fun m => m.path.head? = some "uniffi")

/-- The arguments in the brackets of an attribute. -/
def argumentsOf (m : Meta) : List Argument :=
  match m.body with
  | .list args => args
  | _ => []

/-- The arguments of the last of UniFFI's attributes. -/
def lastArguments (l : List Attribute) : List Argument :=
  match (uniffiOnes l).getLast? with
  | some m => argumentsOf m
  | none => []

/-- `#[uniffi::constructor]` is among the attributes that are looked at. -/
def SaysConstructor (l : List Attribute) : Prop := ∃ m ∈ uniffiOnes l, m.path = ["uniffi", "constructor"]

/-- Attributes that are taken: all are `uniffi::method` or `uniffi::constructor`, with arguments that may
be written, and only the last may be `uniffi::constructor`. -/
structure AttributesOk (l : List Attribute) : Prop where
  known : ∀ m ∈ uniffiOnes l, m.path = ["uniffi", "method"] ∨ m.path = ["uniffi", "constructor"]
  arguments : ∀ m ∈ uniffiOnes l, FnArguments (argumentsOf m)
  order : ∀ m ∈ (uniffiOnes l).dropLast, m.path = ["uniffi", "method"]

/-- The inputs of a signature after the receiver. -/
def afterReceiver : List Input → List Input
  | .receiver _ :: l => l
  | l => l

/-- The first argument is a receiver. -/
def HasReceiver (sig : Sig) : Prop := ∃ ty rest, sig.inputs = .receiver ty :: rest

/-- Arguments of type `&mut [u8]`. -/
def mutBytes : Ty := .ref true (.slice (.name ["u8"]))

/-- A signature that is taken with the arguments `l` of its attribute. -/
structure SignatureOk (sig : Sig) (l : List Argument) : Prop where
  inputs : ∀ i ∈ afterReceiver sig.inputs, ∃ n ty, i = .named n ty
  defaults : ∀ p ∈ written l, p.1 ∈ argNames sig.inputs
  bytes : sig.isAsync = true → ∀ n, .named n mutBytes ∉ sig.inputs
  runtime : .assign "async_runtime" "tokio" ∈ l → sig.isAsync = true

/-- What an argument becomes. -/
structure ArgSays (l : List Argument) (i : Input) (a : NamedArg) : Prop where
  input : i = .named a.name a.ty
  borrowed : (∃ m t, a.ty = .ref m t) ↔ a.passBy ≠ .value
  mutable : a.ty = mutBytes ↔ a.passBy = .mutRef
  default_ : a.default_ = lastFor a.name (written l)

/-- The type is written `Arc<...>`, with or without a path before it. -/
def WrittenArc : Ty → Prop
  | .name path => path.getLast? = some "Arc"
  | .app f _ => WrittenArc f
  | _ => False

/-- What a signature with the arguments `l` of its attribute becomes. -/
structure SignatureSays (kind : FnKind) (sig : Sig) (l : List Argument) (s : FnSignature) : Prop where
  kind : s.kind = kind
  ident : s.ident = sig.ident
  named : ∀ n, .assign "name" n ∈ l → s.name = n
  unnamed : (∀ n, .assign "name" n ∉ l) → s.name = sig.ident
  isAsync : s.isAsync = sig.isAsync
  runtime : s.asyncRuntime.isSome ↔ .assign "async_runtime" "tokio" ∈ l
  receiver : s.receiver.isSome ↔ HasReceiver sig
  byArc : s.receiver = some .arc ↔ ∃ ty rest, sig.inputs = .receiver ty :: rest ∧ WrittenArc ty
  args : List.Forall₂ (ArgSays l) (afterReceiver sig.inputs) s.args
  returned : ∀ t, sig.output = some t → s.returnTy = t
  nothing : sig.output = none → s.returnTy = .unit

/-- The future of the callable is made for the runtime of Tokio. -/
def Wrapped (c : Callable) : Prop := c.wrapped = some .tokio

/-- A member of an `impl` block that is taken. -/
def MemberOk : Member → Prop
  | .other => False
  | .fn attrs sig _ => AttributesOk attrs ∧ SignatureOk sig (lastArguments attrs) ∧
      (SaysConstructor attrs ↔ ¬ HasReceiver sig)

/-- A member of a trait that is taken. -/
def TraitMemberOk : Member → Prop
  | .other => False
  | .fn attrs sig hasBody => hasBody = false ∧ AttributesOk attrs ∧ SignatureOk sig (lastArguments attrs) ∧
      ¬ SaysConstructor attrs ∧ HasReceiver sig

/-- A member that is an async function. -/
def AsyncMember : Member → Prop
  | .other => False
  | .fn _ sig _ => sig.isAsync = true

/-- Rust refuses two arguments with the same name. -/
def DistinctArgs : Member → Prop
  | .other => True
  | .fn _ sig _ => (argNames sig.inputs).Nodup

/-- An `impl` block that is taken. `members` are those of the block with `Self` replaced. -/
structure ImplOk (args : List Argument) (block : ImplBlock) (members : List Member) : Prop where
  arguments : FnArguments args
  noDefaults : ∀ x ∈ args, ∀ es t, x ≠ .defaults es t
  notGeneric : block.generic = false
  self : ∃ s, block.selfTy = .name [s]
  taken : ∀ m ∈ members, MemberOk m
  runtime : .assign "async_runtime" "tokio" ∈ args → ∃ m ∈ members, AsyncMember m

/-- What a member of an `impl` block of the type `self`, written with the arguments `args`, becomes. -/
def MemberSays (args : List Argument) (self : String) (m : Member) (c : Callable) : Prop :=
  ∃ attrs sig b, m = .fn attrs sig b ∧
    (∃ foreign, ((∀ n, .assign "name" n ∈ args → foreign = n) ∧ ((∀ n, .assign "name" n ∉ args) → foreign = self)) ∧
      (SaysConstructor attrs → SignatureSays (.constructor_ self foreign) sig (lastArguments attrs) c.sig) ∧
      (¬ SaysConstructor attrs → SignatureSays (.method self foreign) sig (lastArguments attrs) c.sig)) ∧
    (Wrapped c ↔ sig.isAsync = true ∧
      (.assign "async_runtime" "tokio" ∈ lastArguments attrs ∨ .assign "async_runtime" "tokio" ∈ args))

/-- A trait that is taken. -/
structure TraitOk (args : List Argument) (t : TraitDef) : Prop where
  arguments : TraitArguments args
  remote : .word "remote" ∈ args → ¬ ForeignMayImplement args
  notGeneric : t.generic = false
  members : ∀ m ∈ t.members, TraitMemberOk m

/-- What the member at some position of a trait becomes. -/
def TraitMemberSays (self : String) (mi : Member × Nat) (s : FnSignature) : Prop :=
  ∃ attrs sig b, mi.1 = .fn attrs sig b ∧
    SignatureSays (.traitMethod self mi.2) sig (lastArguments attrs) s

/-- An interpretation of types: any meaning for names and for the ways to build types. -/
structure Interp (D : Type) where
  name : List String → D
  app : D → D → D
  ref : Bool → D → D
  slice : D → D
  unit : D
  pair : D → D → D

/-- The meaning of a type. -/
def meaning {D : Type} (I : Interp D) : Ty → D
  | .name s => I.name s
  | .app f a => I.app (meaning I f) (meaning I a)
  | .ref m t => I.ref m (meaning I t)
  | .slice t => I.slice (meaning I t)
  | .unit => I.unit
  | .pair a b => I.pair (meaning I a) (meaning I b)

/-- Inside an `impl` block `Self` means the type of the block. -/
def withSelf {D : Type} (I : Interp D) (d : D) : Interp D :=
  { I with name := fun s => if s = ["Self"] then d else I.name s }

/-- `Self` is not given generic arguments, which Rust refuses. -/
def SelfNotApplied : Ty → Prop
  | .name _ => True
  | .app f a => f ≠ .name ["Self"] ∧ IsPath f ∧ SelfNotApplied f ∧ SelfNotApplied a
  | .ref _ t => SelfNotApplied t
  | .slice t => SelfNotApplied t
  | .unit => True
  | .pair a b => SelfNotApplied a ∧ SelfNotApplied b
where
  /-- Generic arguments are given to paths only. -/
  IsPath : Ty → Prop
    | .name _ => True
    | .app f _ => IsPath f
    | _ => False

/-- The types of the arguments after the receiver, with their names. -/
def typedArgs : List Input → List (String × Ty)
  | [] => []
  | .named n ty :: l => (n, ty) :: typedArgs l
  | _ :: l => typedArgs l

/-- No type of the member gives `Self` generic arguments. -/
def SelfFine : Member → Prop
  | .other => True
  | .fn _ sig _ => (∀ p ∈ typedArgs sig.inputs, SelfNotApplied p.2) ∧ ∀ t, sig.output = some t → SelfNotApplied t

/-- The member as written in the block and the callable agree on the meaning of all types and on the
names of arguments, when `Self` means `d` in the block. -/
def SameTypes {D : Type} (I : Interp D) (d : D) (m : Member) (c : Callable) : Prop :=
  ∃ attrs sig b, m = .fn attrs sig b ∧ c.sig.ident = sig.ident ∧
    c.sig.args.map (fun a => (a.name, meaning I a.ty)) =
      (typedArgs sig.inputs).map (fun p => (p.1, meaning (withSelf I d) p.2)) ∧
    (∀ t, sig.output = some t → meaning I c.sig.returnTy = meaning (withSelf I d) t) ∧
    (sig.output = none → meaning I c.sig.returnTy = I.unit)

/-- The words that name a built-in trait. -/
def builtinWord : Builtin → String
  | .debug => "Debug"
  | .display => "Display"
  | .eq => "Eq"
  | .hash => "Hash"
  | .ord => "Ord"

end Verif.Export.Spec
