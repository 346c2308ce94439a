import Verif.Src.Parse
import Verif.Meta.Encode
/-
What the derive macros make of structs and enums with their attributes: uniffi_macros/src/record.rs, enum_.rs,
error.rs, object.rs, util.rs. Attributes with conditions are already expanded, as the compiler does before it calls
a derive macro. All errors are one: the program does not compile.
-/
namespace Verif.Derive
open Verif.Meta Verif.Src

/-! ### Arguments of `#[uniffi(…)]` -/

/-- `either_attribute_arg`: util.rs:214-224. -/
def either {α : Type} : Option α → Option α → SynRes (Option α)
  | none, none => .ok none
  | some a, none => .ok (some a)
  | none, some b => .ok (some b)
  | some _, some _ => .error .syn

/-- `UniffiAttributeArgs`: util.rs:166-169. -/
structure Args (α : Type) where
  empty : α
  parseOne : Meta → SynRes α
  merge : α → α → SynRes α

/-- `parse_comma_separated`: util.rs:171-174. -/
def Args.commaSeparated {α : Type} (k : Args α) (ms : List Meta) : SynRes α := do
  (← ms.mapM k.parseOne).foldlM k.merge k.empty

/-- `parse_uniffi_attr_args`: util.rs:202-212. `Meta.args` stands for `parse_args_with`: an attribute without
parentheses is an error. -/
def Args.ofAttrs {α : Type} (k : Args α) (metas : List Meta) : SynRes α :=
  (metas.filter fun m => m.pathOf.isIdent "uniffi").foldlM (fun res m => do
    k.merge res (← k.commaSeparated (← m.args))) k.empty

/-- `kw::name`, `=` and a string. -/
def nameOne (m : Meta) : SynRes String :=
  if m.pathOf.isIdent "name" then strValue m else .error .syn

/-- `RecordAttr`, `ObjectAttr` and `VariantAttr`: record.rs:16-42, object.rs:17-44, enum_.rs:459-486. -/
def nameArgs : Args (Option String) where
  empty := none
  parseOne m := do .ok (some (← nameOne m))
  merge := either

/-- `FieldAttributeArguments`: record.rs:139-143. -/
structure FieldArgs where
  default : Option DefSrc := none
  name : Option String := none
  deriving DecidableEq

/-- `default`, or `default = …`: record.rs:147-157 with default.rs:45-66. A value is never the default of the
type. -/
def defaultOne : Meta → SynRes DefSrc
  | .path _ => .ok .default
  | .nameValue _ .default => .error .syn
  | .nameValue _ v => .ok v
  | .list _ _ => .error .syn

/-- `UniffiAttributeArgs for FieldAttributeArguments`: record.rs:145-179. -/
def fieldArgs : Args FieldArgs where
  empty := {}
  parseOne m :=
    if m.pathOf.isIdent "default" then do .ok { default := some (← defaultOne m) }
    else do .ok { name := some (← nameOne m) }
  merge a b := do
    let d ← either a.default b.default
    let n ← either a.name b.name
    .ok ⟨d, n⟩

/-- `EnumAttr`: enum_.rs:409-417. -/
structure EnumArgs where
  flatError : Option Unit := none
  withTryRead : Option Unit := none
  name : Option String := none
  deriving DecidableEq

/-- `UniffiAttributeArgs for EnumAttr`: enum_.rs:419-457. For `handle_unknown_callback_error` nothing is read, so
that `parse_terminated` finds the word where it expects a comma. -/
def enumArgs : Args EnumArgs where
  empty := {}
  parseOne m :=
    if m.pathOf.isIdent "flat_error" then do .ok { flatError := some (← flag () m) }
    else if m.pathOf.isIdent "with_try_read" then do .ok { withTryRead := some (← flag () m) }
    else if m.pathOf.isIdent "handle_unknown_callback_error" then .error .syn
    else do .ok { name := some (← nameOne m) }
  merge a b := do
    let f ← either a.flatError b.flatError
    let w ← either a.withTryRead b.withTryRead
    let n ← either a.name b.name
    .ok ⟨f, w, n⟩

/-- `ArgumentNotAllowedHere`: util.rs:176-190. -/
def noArgs : Args Unit where
  empty := ()
  parseOne _ := .error .syn
  merge _ _ := .ok ()

/-! ### Other attributes -/

/-- The lines of `extract_docstring`: util.rs:306-325. -/
def docLines : List Meta → SynRes (List String)
  | [] => .ok []
  | m :: ms =>
    if m.pathOf.isIdent "doc" then
      match m with
      | .nameValue _ (.str s) => do .ok (trim s :: (← docLines ms))
      | .nameValue _ _ => .error .syn
      | _ => docLines ms
    else docLines ms

/-- `extract_docstring`: util.rs:306-326. -/
def docstring (ms : List Meta) : SynRes String := do .ok ("\n".intercalate (← docLines ms))

/-- The words that `extract_repr` knows: enum_.rs:60-61. -/
def reprWords : List String := ["u8", "u16", "u32", "u64", "usize", "i8", "i16", "i32", "i64", "isize"]

/-- One word in `repr`: enum_.rs:57-67. What comes before does not matter. -/
def reprOne (m : Meta) : SynRes (Option String) :=
  match m.pathOf.getIdent with
  | some i => flag (if i.raw = false ∧ i.name ∈ reprWords then some i.name else none) m
  | none => flag none m

/-- `extract_repr`: enum_.rs:52-74. -/
def extractRepr : List Meta → Option String → SynRes (Option String)
  | [], r => .ok r
  | m :: ms, r =>
    if m.pathOf.isIdent "repr" then do
      extractRepr ms (← nested (fun _ m _ => reprOne m) (← m.args) r)
    else extractRepr ms r

/-- `extract_non_exhaustive`: enum_.rs:76-78. -/
def nonExhaustive (ms : List Meta) : Bool := ms.any fun m => m.pathOf.isIdent "non_exhaustive"

/-- The types that implement `TypeId` among those of `repr`: uniffi_core/src/ffi_converter_impls.rs:70-77. Without it
`type_id_meta` does not compile, enum_.rs:289-295. -/
def reprTy : String → SynRes RTy
  | "u8" => .ok .u8
  | "i8" => .ok .i8
  | "u16" => .ok .u16
  | "i16" => .ok .i16
  | "u32" => .ok .u32
  | "i32" => .ok .i32
  | "u64" => .ok .u64
  | "i64" => .ok .i64
  | _ => .error .syn

/-! ### Items -/

/-- A field with its attributes. `ty` is the type as the compiler sees it. -/
structure DField where
  metas : List Meta
  ident : Option Ident
  ty : RTy

/-- A variant with its attributes. -/
structure DVariant where
  metas : List Meta
  ident : Ident
  discr : Option SDiscr
  fields : List DField

/-- `ident_to_string` of the item unless the attributes have a name, and `orig_name_metadata`: util.rs:93-95, 139-151. -/
def named (attr : Option String) (ident : Ident) : String × Option String :=
  match attr with
  | some n => (n, some ident.name)
  | none => (ident.name, none)

/-- The names of a field. `unwrap_or_default` in variants, enum_.rs:371-379; record.rs:208-216 calls `unwrap`, which
panics for a field without a name. -/
def fieldNames (inRecord : Bool) (attr : Option String) : Option Ident → SynRes (String × Option String)
  | some i => .ok (named attr i)
  | none => if inRecord then .error .syn else .ok (match attr with | some n => (n, none) | none => ("", none))

/-- One field: record.rs:204-230, enum_.rs:364-391. -/
def expandField (inRecord : Bool) (f : DField) : SynRes FieldSrc := do
  let a ← fieldArgs.ofAttrs f.metas
  let n ← fieldNames inRecord a.name f.ident
  let d ← docstring f.metas
  .ok ⟨n.1, n.2, f.ty, a.default, d⟩

/-- `variant_value`: enum_.rs:303-351. -/
def variantValue : Option SDiscr → SynRes (Option Int)
  | none => .ok none
  | some (.int n) => .ok (some n)
  | some (.neg n) => .ok (some (-n))
  | some .other => .error .syn

/-- One variant of `variant_metadata`: enum_.rs:358-410. -/
def expandVariant (v : DVariant) : SynRes VariantSrc := do
  let fs ← v.fields.mapM (expandField false)
  let a ← nameArgs.ofAttrs v.metas
  let value ← variantValue v.discr
  let d ← docstring v.metas
  .ok ⟨(named a v.ident).1, (named a v.ident).2, value, fs, d⟩

/-- One variant of `flat_error_variant_metadata`: error.rs:205-217. Values and fields are not looked at. -/
def expandFlat (v : DVariant) : SynRes VariantSrc := do
  let a ← nameArgs.ofAttrs v.metas
  let d ← docstring v.metas
  .ok ⟨(named a v.ident).1, (named a v.ident).2, none, [], d⟩

/-- The metadata has to be made: the limits of lengths and the literals that defaults can have are in
`Item.calls`. -/
def emit (i : Verif.Meta.Item) : SynRes Verif.Meta.Item := if i.calls.isSome then .ok i else .error .syn

/-- `expand_record`: record.rs:52-72, 93-105, 190-247. -/
def expandRecord (modulePath : String) (metas : List Meta) (ident : Ident) (fields : List DField) :
    SynRes Verif.Meta.Item := do
  let d ← docstring metas
  let a ← nameArgs.ofAttrs metas
  let fs ← fields.mapM (expandField true)
  emit (.record modulePath (named a ident).1 (named a ident).2 fs d)

/-- `expand_object`: object.rs:53-80, 83-110, 250-288. -/
def expandObject (modulePath : String) (metas : List Meta) (ident : Ident) : SynRes Verif.Meta.Item := do
  let a ← nameArgs.ofAttrs metas
  let d ← docstring metas
  emit (.object modulePath (named a ident).1 (named a ident).2 .struct d)

/-- `expand_enum`: enum_.rs:31-50, 80-94, 137-151, 267-301. -/
def expandEnum (modulePath : String) (metas : List Meta) (ident : Ident) (variants : List DVariant) :
    SynRes Verif.Meta.Item := do
  let d ← docstring metas
  let r ← extractRepr metas none
  let a ← enumArgs.ofAttrs metas
  if a.flatError.isSome || a.withTryRead.isSome then .error .syn
  else do
    let ty ← r.mapM reprTy
    let vs ← variants.mapM expandVariant
    emit (.enum modulePath (named a.name ident).1 (named a.name ident).2 ty vs (nonExhaustive metas) d)

/-- `expand_error`: error.rs:16-40, 168-218. `with_try_read` changes the code that reads flat errors, but not the
metadata. -/
def expandError (modulePath : String) (metas : List Meta) (ident : Ident) (variants : List DVariant) :
    SynRes Verif.Meta.Item := do
  let d ← docstring metas
  let _ ← extractRepr metas none
  let a ← enumArgs.ofAttrs metas
  let vs ← variants.mapM (if a.flatError.isSome then expandFlat else expandVariant)
  let _ ← (variants.flatMap (·.fields)).mapM fun f => noArgs.ofAttrs f.metas
  emit (.error modulePath (named a.name ident).1 (named a.name ident).2 a.flatError.isSome vs (nonExhaustive metas) d)

end Verif.Derive
