import Verif.Udl.Literal
/-
The syntax of an interface definition file after it was parsed, and the items it is turned into.

Documentation comments are taken as they are after `textwrap::dedent`
(uniffi_udl/src/converters/mod.rs:34-36).
-/
namespace Verif.Udl.File
open Verif.Meta Verif.Udl

/-- An attribute in brackets: `ExtendedAttribute`, weedle2/src/attribute.rs. Attributes with argument
lists are always refused and keep their text only. -/
inductive Attr where
  | noArgs (name : String)
  | ident (lhs : String) (quoted : Bool) (rhs : String)
  | identList (name : String) (list : List String)
  | other (text : String)
  deriving DecidableEq, Repr

/-- `Option<ExtendedAttributeList>`; `none` when there are no brackets. -/
abbrev Attrs := Option (List Attr)

mutual
  /-- A type expression: `Type`, `SingleType` and `NonAnyType`, weedle2/src/types.rs:9-58. `q` is the
  question mark of `MayBeNull`. `other` is one of the types that are always refused. -/
  inductive WTy where
    | any
    | union
    | boolean (q : Bool)
    | identifier (name : String) (q : Bool)
    | integer (q : Bool)
    | float (unrestricted q : Bool)
    | double (unrestricted q : Bool)
    | sequence (inner : WTy) (q : Bool)
    | record (key : WKey) (value : WTy) (q : Bool)
    | error (q : Bool)
    | other (text : String)
  /-- `RecordKeyType`: weedle2/src/types.rs; `byte` stands for `ByteString` and `USVString`. -/
  inductive WKey where
    | byte
    | dom
    | ty (t : WTy)
end

/-- `ReturnType`: weedle2/src/types.rs. -/
inductive WRet where
  | undefined
  | ty (t : WTy)

/-- `Argument`: weedle2/src/argument.rs:9-32. `tyAttrs` says that the type has attributes. -/
inductive WArg where
  | single (attrs : Attrs) (optional tyAttrs : Bool) (ty : WTy) (name : String)
      (default : Option Lit)
  | variadic

/-- `StringifierOrStatic`: weedle2/src/interface.rs. -/
inductive Modifier where
  | stringifier
  | static
  deriving DecidableEq

/-- `OperationInterfaceMember` and `OperationNamespaceMember`: weedle2/src/interface.rs:47-57,
namespace.rs:15-22; the latter has no modifier and is not special. -/
structure WOp where
  doc : Option String
  attrs : Attrs
  modifier : Option Modifier
  special : Bool
  ret : WRet
  name : Option String
  args : List WArg

/-- `ConstructorInterfaceMember`: weedle2/src/interface.rs:38-44. -/
structure WCtor where
  doc : Option String
  attrs : Attrs
  args : List WArg

/-- `InterfaceMember`: weedle2/src/interface.rs:19. Constants, attributes, iterables and so on are
always refused. -/
inductive WMember where
  | ctor (c : WCtor)
  | op (o : WOp)
  | other

/-- `NamespaceMember`: weedle2/src/namespace.rs:11. -/
inductive WNsMember where
  | op (o : WOp)
  | other

/-- `DictionaryMember`: weedle2/src/dictionary.rs:10-18. -/
structure WField where
  doc : Option String
  attrs : Attrs
  required : Bool
  ty : WTy
  name : String
  default : Option Lit

/-- `Definition`: weedle2/src/lib.rs:78-206. Partial definitions, mixins and so on are always
refused. -/
inductive Def where
  | namespace_ (doc : Option String) (attrs : Attrs) (name : String) (members : List WNsMember)
  | enum_ (doc : Option String) (attrs : Attrs) (name : String)
      (values : List (Option String × String))
  | dictionary (doc : Option String) (attrs : Attrs) (name : String) (inherits : Bool)
      (members : List WField)
  | interface (doc : Option String) (attrs : Attrs) (name : String) (inherits : Bool)
      (members : List WMember)
  | callback (doc : Option String) (attrs : Attrs) (name : String) (inherits : Bool)
      (members : List WMember)
  | typedef (attrs : Attrs) (tyAttrs : Bool) (ty : WTy) (name : String)
  | other

/-! ### The items: uniffi_meta/src/lib.rs

`orig_name`, `checksum`, `discr` and `discr_type` are `None` for every item made from a file and are
left out. -/

/-- `LiteralMetadata` as made from a file: a literal of C59, or the name of a variant. -/
inductive ULit where
  | plain (l : MLit)
  | variant (name : String) (ty : MTy)
  | some (l : ULit)
  deriving DecidableEq

/-- `FnParamMetadata`: lib.rs:265-276. -/
structure UArg where
  name : String
  ty : MTy
  passBy : PassBy
  optional : Bool
  default : Option ULit
  deriving DecidableEq

/-- `FnMetadata`, `ConstructorMetadata`, `MethodMetadata`, `TraitMethodMetadata`: lib.rs:140-245.
`byArc` is `takes_self_by_arc`, false for functions and constructors; constructors have no
`ret`. -/
structure UFn where
  modulePath : String
  name : String
  isAsync : Bool
  inputs : List UArg
  ret : Option MTy
  throws : Option MTy
  byArc : Bool
  doc : Option String
  deriving DecidableEq

/-- `FieldMetadata`: lib.rs:345-352. -/
structure UField where
  name : String
  ty : MTy
  default : Option ULit
  doc : Option String
  deriving DecidableEq

/-- `VariantMetadata`: lib.rs:398-405. -/
structure UVariant where
  name : String
  fields : List UField
  doc : Option String
  deriving DecidableEq

/-- `UniffiTraitMetadata`: lib.rs:447-463, with the method or methods it packs. -/
inductive UTrait where
  | debug (fmt : UFn)
  | display (fmt : UFn)
  | eq (eq ne : UFn)
  | hash (hash : UFn)
  | ord (cmp : UFn)
  deriving DecidableEq

/-- `Metadata`: lib.rs:575-590. -/
inductive UItem where
  | func (f : UFn)
  | method (self : String) (f : UFn)
  | traitMethod (trait : String) (index : Nat) (f : UFn)
  | constructor (self : String) (f : UFn)
  | record (modulePath name : String) (remote : Bool) (fields : List UField) (doc : Option String)
  | enum (modulePath name : String) (shape : Shape) (remote : Bool) (variants : List UVariant)
      (nonExhaustive : Bool) (doc : Option String)
  | object (modulePath name : String) (remote : Bool) (imp : Impl) (doc : Option String)
  | callback (modulePath name : String) (doc : Option String)
  | uniffiTrait (self : String) (t : UTrait)
  | custom (modulePath name : String) (builtin : MTy)
  deriving DecidableEq

/-- `MetadataGroup`: uniffi_meta/src/group.rs. -/
structure UGroup where
  crate : String
  ns : String
  doc : Option String
  items : List UItem

end Verif.Udl.File
