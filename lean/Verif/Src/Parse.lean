import Verif.Src.ItemSyntax
import Verif.Src.PathsSpec
/-
From items of source files to items that metadata is made from: uniffi_parse_rs/src/attrs/*.rs, modules.rs, ir.rs
and the `parse` functions of functions.rs, records.rs, enums.rs, objects.rs, traits.rs, impls.rs, macros.rs.
-/
namespace Verif.Src
open Verif.Meta

/-! ### Attributes -/

/-- `char::is_whitespace`: the Unicode property `White_Space`. -/
def isWhite (c : Char) : Bool :=
  let n := c.toNat
  (9 ≤ n && n ≤ 13) || [0x20, 0x85, 0xA0, 0x1680, 0x2028, 0x2029, 0x202F, 0x205F, 0x3000].contains n || (0x2000 ≤ n && n ≤ 0x200A)

/-- `str::trim`. -/
def trim (s : String) : String := String.ofList (((s.toList.dropWhile isWhite).reverse.dropWhile isWhite).reverse)

/-- `extract_docstring`: attrs/docstring.rs:7-26. -/
def extractDoc (current : Option String) : Meta → Option String
  | .nameValue p (.str s) =>
    if p.isIdent "doc" then
      match current with
      | none => some (trim s)
      | some c => some (c ++ "\n" ++ trim s)
    else current
  | _ => current

/-- `parse_nested_meta`, with a function that also learns whether nothing comes after the attribute. The loop
expects a comma after each attribute. -/
def nested {σ : Type} (f : Bool → Meta → σ → SynRes σ) : List Meta → σ → SynRes σ
  | [], s => .ok s
  | m :: ms, s => do nested f ms (← f ms.isEmpty m s)

/-- `if let Meta::List(list) = meta { list.parse_nested_meta(..)?; }`. -/
def inList {σ : Type} (f : Bool → Meta → σ → SynRes σ) (m : Meta) (s : σ) : SynRes σ :=
  match m with
  | .list _ (some ms) => nested f ms s
  | .list _ none => .error .syn
  | _ => .ok s

/-- `meta.value()?; let name: LitStr = meta.input.parse()?`. -/
def strValue : Meta → SynRes String
  | .nameValue _ (.str s) => .ok s
  | _ => .error .syn

/-- An attribute of which nothing follows the path; else the loop of `parse_nested_meta` fails. -/
def flag {α : Type} (a : α) : Meta → SynRes α
  | .path _ => .ok a
  | _ => .error .syn

/-- The macros and derives of UniFFI that paths of attributes denote in some module. -/
structure Look where
  macroOf : Path → Option String
  deriveOf : Path → Option String

/-- `resolved_path_is_uniffi_macro` and `_derive`: attrs/mod.rs:84-111. The results do not depend on what was
looked up before (C61), so the cache is left out. -/
def lookIn (ir : Ir) (p : RPath) : Look where
  macroOf path := match (resolveTop ir p path .macro {}).1 with
    | .ok q => match q.getLast? with
      | some (.builtin (.uniffiMacro n)) => some n
      | _ => none
    | _ => none
  deriveOf path := match (resolveTop ir p path .macro {}).1 with
    | .ok q => match q.getLast? with
      | some (.builtin (.uniffiDerive n)) => some n
      | _ => none
    | _ => none

/-- `meta_is_uniffi_export`: attrs/mod.rs:36-43. -/
def Look.isExport (l : Look) (m : Meta) : Bool := l.macroOf m.pathOf == some "export"

/-- `meta_matches_uniffi_attr`: attrs/mod.rs:29-34. -/
def isUniffiAttr (m : Meta) (name : String) : Bool :=
  match m.pathOf.segs with
  | [a, b] => a == ⟨false, "uniffi"⟩ && b == ⟨false, name⟩
  | _ => false

/-- `find_uniffi_derive`: attrs/mod.rs:45-82. The result is `remote`. If the arguments are not a list of
attributes, nothing is found; the code would see the ones before the first mistake. -/
def findDerive (l : Look) (name : String) (m : Meta) : Option Bool :=
  if m.pathOf.isIdent "derive" then
    match m with
    | .list _ (some ms) => if ms.any (fun m => l.deriveOf m.pathOf == some name) then some false else none
    | _ => none
  else if l.macroOf m.pathOf == some "remote" then
    match m with
    | .list _ (some ms) => if ms.any (fun m => m.pathOf.isIdent name) then some true else none
    | _ => none
  else none

/-- `UniffiTraitAttrs`: attrs/utraits.rs:10-16. -/
structure UTraits where
  debug : Bool := false
  display : Bool := false
  eq : Bool := false
  hash : Bool := false
  ord : Bool := false
  deriving DecidableEq

/-- One name of a trait: attrs/utraits.rs:32-44. -/
def UTraits.add (t : UTraits) (m : Meta) : SynRes UTraits :=
  if m.pathOf.isIdent "Debug" then flag { t with debug := true } m
  else if m.pathOf.isIdent "Display" then flag { t with display := true } m
  else if m.pathOf.isIdent "Eq" then flag { t with eq := true } m
  else if m.pathOf.isIdent "Ord" then flag { t with ord := true } m
  else if m.pathOf.isIdent "Hash" then flag { t with hash := true } m
  else .error .syn

/-- `UniffiTraitAttrs::parse`: attrs/utraits.rs:19-50. -/
def parseUTraits (l : Look) : List Meta → UTraits → SynRes UTraits
  | [], t => .ok t
  | m :: ms, t =>
    if l.isExport m then
      match m with
      | .list _ (some args) => do parseUTraits l ms (← nested (fun _ m t => t.add m) args t)
      | _ => .error .syn
    else parseUTraits l ms t

/-- The attributes of records and objects: attrs/records.rs:14-19, attrs/objects.rs:14-19. -/
structure TypeAttrs where
  name : Option String := none
  docstring : Option String := none
  remote : Bool := false
  utraits : UTraits := {}
  deriving DecidableEq

/-- The loop of `RecordAttributes::parse` and `ObjectAttributes::parse`: attrs/records.rs:42-59,
attrs/objects.rs:42-59. -/
def typeAttrs : List Meta → TypeAttrs → SynRes TypeAttrs
  | [], a => .ok a
  | m :: ms, a =>
    if m.pathOf.isIdent "uniffi" then do
      typeAttrs ms (← inList (fun _ m a =>
        if m.pathOf.isIdent "name" then do .ok { a with name := some (← strValue m) } else .error .syn) m a)
    else if m.pathOf.isIdent "doc" then typeAttrs ms { a with docstring := extractDoc a.docstring m }
    else typeAttrs ms a

/-- `RecordAttributes::parse` with `derive = "Record"`: attrs/records.rs:22-61; `ObjectAttributes::parse` with
`derive = "Object"`: attrs/objects.rs:22-61. -/
def parseTypeAttrs (l : Look) (env : CompileEnv) (derive : String) (attrs : List Meta) : SynRes (Option TypeAttrs) := do
  match ← env.parseAttrs attrs with
  | none => .ok none
  | some metas =>
    match metas.findSome? (findDerive l derive) with
    | none => .ok none
    | some remote => do
      let utraits ← parseUTraits l metas {}
      .ok (some (← typeAttrs metas { remote := remote, utraits := utraits }))

/-- `Default::parse`: attrs/defaults.rs:40-49, 131-138. Nothing after `default` means the default of the type,
but only at the end of the attribute. -/
def parseDefault (last : Bool) : Meta → SynRes DefSrc
  | .path _ => if last then .ok .default else .error .syn
  | .nameValue _ .default => .error .syn
  | .nameValue _ v => .ok v
  | .list _ _ => .error .syn

/-- `FieldAttributes`: attrs/records.rs:64-69. -/
structure FieldAttrs where
  name : Option String := none
  default : Option DefSrc := none
  docstring : Option String := none
  deriving DecidableEq

/-- The loop of `FieldAttributes::parse`: attrs/records.rs:77-101. -/
def fieldAttrs : List Meta → FieldAttrs → SynRes FieldAttrs
  | [], a => .ok a
  | m :: ms, a =>
    if m.pathOf.isIdent "uniffi" then do
      fieldAttrs ms (← inList (fun last m a =>
        if m.pathOf.isIdent "name" then do .ok { a with name := some (← strValue m) }
        else if m.pathOf.isIdent "default" then
          if a.default.isSome then .error .syn else do .ok { a with default := some (← parseDefault last m) }
        else .error .syn) m a)
    else if m.pathOf.isIdent "doc" then fieldAttrs ms { a with docstring := extractDoc a.docstring m }
    else fieldAttrs ms a

/-- `FieldAttributes::parse`: attrs/records.rs:72-103. -/
def parseFieldAttrs (env : CompileEnv) (attrs : List Meta) : SynRes (Option FieldAttrs) := do
  match ← env.parseAttrs attrs with
  | none => .ok none
  | some metas => do .ok (some (← fieldAttrs metas {}))

/-- `VariantAttributes`: attrs/enums.rs:128-132. -/
structure VariantAttrs where
  name : Option String := none
  docstring : Option String := none
  deriving DecidableEq

/-- The loop of `VariantAttributes::parse`: attrs/enums.rs:140-157. -/
def variantAttrs : List Meta → VariantAttrs → SynRes VariantAttrs
  | [], a => .ok a
  | m :: ms, a =>
    if m.pathOf.isIdent "uniffi" then do
      variantAttrs ms (← inList (fun _ m a =>
        if m.pathOf.isIdent "name" then do .ok { a with name := some (← strValue m) } else .error .syn) m a)
    else if m.pathOf.isIdent "doc" then variantAttrs ms { a with docstring := extractDoc a.docstring m }
    else variantAttrs ms a

/-- `VariantAttributes::parse`: attrs/enums.rs:135-159. -/
def parseVariantAttrs (env : CompileEnv) (attrs : List Meta) : SynRes (Option VariantAttrs) := do
  match ← env.parseAttrs attrs with
  | none => .ok none
  | some metas => do .ok (some (← variantAttrs metas {}))

/-- `EnumAttributes`: attrs/enums.rs:16-25. -/
structure EnumAttrs where
  shape : Shape
  name : Option String := none
  docstring : Option String := none
  nonExhaustive : Bool := false
  discrType : Option MTy := none
  remote : Bool := false
  utraits : UTraits := {}
  deriving DecidableEq

/-- The types in `repr`: attrs/enums.rs:90-107. -/
def reprType (p : Path) : Option MTy :=
  if p.isIdent "u8" then some .uint8 else if p.isIdent "i8" then some .int8
  else if p.isIdent "u16" then some .uint16 else if p.isIdent "i16" then some .int16
  else if p.isIdent "u32" then some .uint32 else if p.isIdent "i32" then some .int32
  else if p.isIdent "u64" then some .uint64 else if p.isIdent "i64" then some .int64
  else none

/-- `Path::get_ident`. -/
def Path.getIdent (p : Path) : Option Ident :=
  match p with
  | ⟨false, [i]⟩ => some i
  | _ => none

/-- One word of `repr`: attrs/enums.rs:86-110. -/
def reprAttr (m : Meta) (a : EnumAttrs) : SynRes EnumAttrs :=
  match m.pathOf.getIdent with
  | none => flag a m
  | some _ =>
    match reprType m.pathOf with
    | some t => flag { a with discrType := some t } m
    | none => .error .syn

/-- The loop of `EnumAttributes::parse`: attrs/enums.rs:57-113. -/
def enumAttrs : List Meta → EnumAttrs → SynRes EnumAttrs
  | [], a => .ok a
  | m :: ms, a =>
    if m.pathOf.isIdent "uniffi" then do
      enumAttrs ms (← inList (fun _ m a =>
        if m.pathOf.isIdent "name" then do .ok { a with name := some (← strValue m) }
        else if m.pathOf.isIdent "flat_error" then
          match a.shape with
          | .error _ => flag { a with shape := .error true } m
          | .enum => .error .syn
        else .error .syn) m a)
    else if m.pathOf.isIdent "doc" then enumAttrs ms { a with docstring := extractDoc a.docstring m }
    else if m.pathOf.isIdent "non_exhaustive" then enumAttrs ms { a with nonExhaustive := true }
    else if m.pathOf.isIdent "repr" then
      match m with
      | .list _ _ => do enumAttrs ms (← inList (fun _ => reprAttr) m a)
      | _ => .error .syn
    else enumAttrs ms a

/-- `EnumAttributes::parse`: attrs/enums.rs:28-125. -/
def parseEnumAttrs (l : Look) (env : CompileEnv) (attrs : List Meta) : SynRes (Option EnumAttrs) := do
  match ← env.parseAttrs attrs with
  | none => .ok none
  | some metas =>
    match metas.findSome? (findDerive l "Enum"), metas.findSome? (findDerive l "Error") with
    | none, none => .ok none
    | some _, some _ => .error .syn
    | some remote, none => do
      let utraits ← parseUTraits l metas {}
      .ok (some (← enumAttrs metas { shape := .enum, remote := remote, utraits := utraits }))
    | none, some remote => do
      let utraits ← parseUTraits l metas {}
      .ok (some (← enumAttrs metas { shape := .error false, remote := remote, utraits := utraits }))

/-- `FunctionAttributes`, `MethodAttributes` and `ConstructorAttributes`: attrs/callables.rs:14-19, 68-73, 113-118.
`async_runtime` is not used. -/
structure FnAttrs where
  defaults : List (Ident × DefSrc) := []
  name : Option String := none
  docstring : Option String := none
  deriving DecidableEq

/-- `DefaultMap::parse`: attrs/defaults.rs:168-178. -/
def parseDefaults (m : Meta) (ds : List (Ident × DefSrc)) : SynRes (List (Ident × DefSrc)) :=
  match m with
  | .list _ (some ms) => nested (fun last m ds =>
      match m.pathOf.getIdent with
      | none => .error .syn
      | some ident =>
        if (ds.lookup ident).isSome then .error .syn else do .ok ((ident, ← parseDefault last m) :: ds)) ms ds
  | _ => .error .syn

/-- The arguments of `export`, `method` and `constructor`: attrs/callables.rs:39-56. -/
def fnAttr (m : Meta) (a : FnAttrs) : SynRes FnAttrs :=
  if m.pathOf.isIdent "default" then do .ok { a with defaults := ← parseDefaults m a.defaults }
  else if m.pathOf.isIdent "name" then do .ok { a with name := some (← strValue m) }
  else if m.pathOf.isIdent "async_runtime" then do
    let _ ← strValue m
    .ok a
  else .error .syn

/-- The loops over the attributes of a function: attrs/callables.rs:37-61, 81-105, 131-155. -/
def fnAttrs (own : Meta → Bool) : List Meta → FnAttrs → SynRes FnAttrs
  | [], a => .ok a
  | m :: ms, a =>
    if own m then do fnAttrs own ms (← inList (fun _ => fnAttr) m a)
    else if m.pathOf.isIdent "doc" then fnAttrs own ms { a with docstring := extractDoc a.docstring m }
    else fnAttrs own ms a

/-- `FunctionAttributes::parse`: attrs/callables.rs:22-63. -/
def parseFnAttrs (l : Look) (env : CompileEnv) (attrs : List Meta) : SynRes (Option FnAttrs) := do
  match ← env.parseAttrs attrs with
  | none => .ok none
  | some metas => if metas.any l.isExport then do .ok (some (← fnAttrs l.isExport metas {})) else .ok none

/-- `MethodAttributes::parse`: attrs/callables.rs:76-109. -/
def parseMethodAttrs (env : CompileEnv) (attrs : List Meta) : SynRes (Option FnAttrs) := do
  match ← env.parseAttrs attrs with
  | none => .ok none
  | some metas => do .ok (some (← fnAttrs (isUniffiAttr · "method") metas {}))

/-- `ConstructorAttributes::parse`: attrs/callables.rs:121-157. -/
def parseConsAttrs (env : CompileEnv) (attrs : List Meta) : SynRes (Option FnAttrs) := do
  match ← env.parseAttrs attrs with
  | none => .ok none
  | some metas =>
    if metas.any (isUniffiAttr · "constructor") then do
      .ok (some (← fnAttrs (isUniffiAttr · "constructor") metas {}))
    else .ok none

/-- The loop of `ImplAttributes::parse`: attrs/objects.rs:90-108. The result is the name. -/
def implAttrs (l : Look) : List Meta → Option String → SynRes (Option String)
  | [], n => .ok n
  | m :: ms, n =>
    if l.isExport m then do
      implAttrs l ms (← inList (fun _ m n =>
        if m.pathOf.isIdent "name" then do .ok (some (← strValue m))
        else if m.pathOf.isIdent "async_runtime" then do
          let _ ← strValue m
          .ok n
        else .error .syn) m n)
    else implAttrs l ms n

/-- `ImplAttributes::parse`: attrs/objects.rs:71-110. -/
def parseImplAttrs (l : Look) (env : CompileEnv) (attrs : List Meta) : SynRes (Option (Option String)) := do
  match ← env.parseAttrs attrs with
  | none => .ok none
  | some metas => if metas.any l.isExport then do .ok (some (← implAttrs l metas none)) else .ok none

/-- `TraitAttributes`: attrs/traits.rs:16-20, with the flags of one `export`: attrs/traits.rs:57-59. -/
structure TraitAttrs where
  name : Option String := none
  exportTy : Option ExportTy := none
  docstring : Option String := none
  callback : Bool := false
  rust : Bool := false
  foreign : Bool := false
  deriving DecidableEq

/-- The arguments of `export` on a trait: attrs/traits.rs:61-82. -/
def traitAttr (m : Meta) (a : TraitAttrs) : SynRes TraitAttrs :=
  if m.pathOf.isIdent "name" then do .ok { a with name := some (← strValue m) }
  else if m.pathOf.isIdent "rust" then flag { a with rust := true } m
  else if m.pathOf.isIdent "foreign" then flag { a with foreign := true } m
  else if m.pathOf.isIdent "with_foreign" then flag { a with rust := true, foreign := true } m
  else if m.pathOf.isIdent "callback_interface" then flag { a with callback := true } m
  else .error .syn

/-- What the flags mean: attrs/traits.rs:85-100. -/
def TraitAttrs.kind (a : TraitAttrs) : SynRes ExportTy :=
  if (a.rust || a.foreign) && a.callback then .error .syn
  else if a.callback then .ok .callbackInterface
  else .ok (.traitInterface (match a.foreign, a.rust with
    | true, true => .both
    | true, false => .foreignOnly
    | _, _ => .rustOnly))

/-- The loop of `TraitAttributes::parse`: attrs/traits.rs:52-104. -/
def traitAttrs (l : Look) : List Meta → TraitAttrs → SynRes TraitAttrs
  | [], a => .ok a
  | m :: ms, a =>
    if l.isExport m then
      if a.exportTy.isSome then .error .syn
      else do
        let a ← inList (fun _ => traitAttr) m { a with callback := false, rust := false, foreign := false }
        traitAttrs l ms { a with exportTy := some (← a.kind) }
    else if m.pathOf.isIdent "doc" then traitAttrs l ms { a with docstring := extractDoc a.docstring m }
    else traitAttrs l ms a

/-- `TraitAttributes::parse`: attrs/traits.rs:39-115. -/
def parseTraitAttrs (l : Look) (env : CompileEnv) (attrs : List Meta) : SynRes (Option TraitAttrs) := do
  match ← env.parseAttrs attrs with
  | none => .ok none
  | some metas => do
    let a ← traitAttrs l metas {}
    .ok (if a.exportTy.isSome then some a else none)

/-! ### Items -/

/-- `Function` and `Constructor`: functions.rs:14-21, objects.rs:22-28. -/
structure PFn where
  attrs : FnAttrs
  isAsync : Bool
  ident : Ident
  args : List (Ident × Ty)
  output : Option Ty

/-- `Method` and `TraitMethod`: objects.rs:31-38, traits.rs:22-29. `receiver` is the type of `self`. -/
structure PMethod where
  receiver : Ty
  fn : PFn

/-- `Field`: records.rs:22-26. -/
structure PField where
  attrs : FieldAttrs
  ident : Option Ident
  ty : Ty

/-- `Variant`: enums.rs:25-30. -/
structure PVariant where
  attrs : VariantAttrs
  ident : Ident
  discr : Option MLit
  fields : List PField

/-- `Item`: items.rs:17-42, with its contents. `plain` are the items that have no contents besides those in
`Verif.Src.Item`. -/
inductive PItem where
  | module (id : Nat) (ident : Ident) (vis : Vis) (items : List PItem)
  | fn (id : Nat) (vis : Vis) (f : PFn)
  | record (id : Nat) (attrs : TypeAttrs) (vis : Vis) (ident : Ident) (fields : List PField)
  | enum (id : Nat) (attrs : EnumAttrs) (vis : Vis) (ident : Ident) (variants : List PVariant)
  | object (id : Nat) (attrs : TypeAttrs) (vis : Vis) (ident : Ident)
  | trait (id : Nat) (exportTy : ExportTy) (attrs : TraitAttrs) (vis : Vis) (ident : Ident) (methods : List PMethod)
  | impl (id : Nat) (name : Option String) (self : Ty) (constructors : List PFn) (methods : List PMethod)
  | unresolvedImpl (id : Nat) (trait : Option (Path × List Ty)) (self : Ty)
  | custom (id : Nat) (docstring : Option String) (ident : Ident) (builtin : Ty)
  | plain (i : Item)

/-- `Argument::parse`: functions.rs:82-97. -/
def parseArgs : List SArg → SynRes (List (Ident × Ty))
  | [] => .ok []
  | .typed (some i) ty :: as => do .ok ((i, ty) :: (← parseArgs as))
  | _ :: _ => .error .syn

/-- `Function::parse` and `Constructor::parse`: functions.rs:35-49, objects.rs:78-91. -/
def parseFn (a : FnAttrs) (f : SFn Meta) : SynRes PFn := do
  .ok { attrs := a, isAsync := f.isAsync, ident := f.ident, args := ← parseArgs f.inputs, output := f.output }

/-- `Method::parse`, `TraitMethod::parse` and `SelfArg::parse`: objects.rs:135-150, 204-210, traits.rs:129-143. -/
def parseMethod (a : FnAttrs) (f : SFn Meta) : SynRes PMethod :=
  match f.inputs with
  | .receiver ty :: rest => do .ok ⟨ty, ← parseFn a { f with inputs := rest }⟩
  | _ => .error .syn

/-- The loop over fields: records.rs:30-35, enums.rs:86-91. -/
def parseFields (env : CompileEnv) : List (SField Meta) → SynRes (List PField)
  | [] => .ok []
  | f :: fs => do
    match ← parseFieldAttrs env f.attrs with
    | some a => do .ok (⟨a, f.ident, f.ty⟩ :: (← parseFields env fs))
    | none => parseFields env fs

/-- Whether a type is one of the signed integers: enums.rs:112-118. -/
def signed : MTy → Bool
  | .int8 | .int16 | .int32 | .int64 => true
  | _ => false

/-- `parse_discriminant`: enums.rs:101-150. -/
def parseDiscr (ty : Option MTy) : Option SDiscr → SynRes (Option MLit)
  | none => .ok none
  | some d =>
    match ty with
    | none => .ok none
    | some t =>
      match d with
      | .int n =>
        if signed t then if n < 2 ^ 63 then .ok (some (.int n .decimal t)) else .error .syn
        else if n < 2 ^ 64 then .ok (some (.uint n .decimal t)) else .error .syn
      | .neg n => if signed t && n < 2 ^ 63 then .ok (some (.int (-n) .decimal t)) else .error .syn
      | .other => .error .syn

/-- The loop over variants with `Variant::parse`: enums.rs:34-39, 78-99. -/
def parseVariants (env : CompileEnv) (discrType : Option MTy) : List (SVariant Meta) → SynRes (List PVariant)
  | [] => .ok []
  | v :: vs => do
    match ← parseVariantAttrs env v.attrs with
    | some a => do
      let d ← parseDiscr discrType v.discr
      let fs ← parseFields env v.fields
      .ok (⟨a, v.ident, d, fs⟩ :: (← parseVariants env discrType vs))
    | none => parseVariants env discrType vs

/-- The loop of `Trait::parse`: traits.rs:33-40. -/
def parseMethods (env : CompileEnv) : List (SFn Meta) → SynRes (List PMethod)
  | [] => .ok []
  | f :: fs => do
    match ← parseMethodAttrs env f.attrs with
    | some a => do .ok ((← parseMethod a f) :: (← parseMethods env fs))
    | none => parseMethods env fs

/-- The loop of `Impl::parse`: impls.rs:24-35. -/
def parseImplFns (env : CompileEnv) : List (SFn Meta) → SynRes (List PFn × List PMethod)
  | [] => .ok ([], [])
  | f :: fs => do
    match ← parseConsAttrs env f.attrs with
    | some a => do
      let c ← parseFn a f
      let (cs, ms) ← parseImplFns env fs
      .ok (c :: cs, ms)
    | none => do
      match ← parseMethodAttrs env f.attrs with
      | some a => do
        let m ← parseMethod a f
        let (cs, ms) ← parseImplFns env fs
        .ok (cs, m :: ms)
      | none => parseImplFns env fs

/-- The documentation of a custom type: macros.rs:60-64. -/
def docs (ms : List Meta) : Option String := ms.foldl extractDoc none

/-- `maybe_resolve_macro`: macros.rs:18-46. -/
def resolveMacro (l : Look) (id : Nat) (path : Path) (body : SBody) : SynRes (List PItem) :=
  match l.macroOf path with
  | some "custom_type" | some "custom_newtype" =>
    match body with
    | .custom ds ident builtin => .ok [.custom id (docs ds) ident builtin]
    | _ => .error .syn
  | some "use_remote_type" =>
    match body with
    | .path p => .ok [.plain (.useRemote id p)]
    | _ => .error .syn
  | _ => .ok []

/-- `parse_include_scaffolding`: macros.rs:84-89. Such a macro gives no item, modules.rs:186-191. -/
def isScaffolding (path : Path) : Bool :=
  match path.segs.getLast? with
  | some i => i == ⟨false, "include_scaffolding"⟩
  | none => false

/-! ### Modules -/

mutual
/-- The items that are known before attributes are resolved: `Module::add_items`, modules.rs:102-159, 177-198,
without the unresolved items, which `remove_unresolved_items` takes out, modules.rs:161-175. The inner attributes
of a file are not looked at. -/
def skeleton (env : CompileEnv) : SItem Meta → SynRes (List Item)
  | .mod id attrs vis ident items => do
    match ← env.parseAttrs attrs with
    | some _ => do .ok [.module id ident vis (← skeletons env items)]
    | none => .ok []
  | .use _ items => .ok items
  | .type id _ vis ident params target => .ok [.decl id (.alias params target) ident vis none false]
  | _ => .ok []
def skeletons (env : CompileEnv) : List (SItem Meta) → SynRes (List Item)
  | [] => .ok []
  | i :: is => do
    let a ← skeleton env i
    .ok (a ++ (← skeletons env is))
end

/-- `resolve_item`: ir.rs:219-292. -/
def resolveSyn (env : CompileEnv) (l : Look) : SItem Meta → SynRes (List PItem)
  | .fn id vis f => do
    match ← parseFnAttrs l env f.attrs with
    | some a => do .ok [.fn id vis (← parseFn a f)]
    | none => .ok []
  | .struct id attrs vis ident fields => do
    match ← parseTypeAttrs l env "Record" attrs with
    | some a => do .ok [.record id a vis ident (← parseFields env fields)]
    | none => do
      match ← parseTypeAttrs l env "Object" attrs with
      | some a => .ok [.object id a vis ident]
      | none => .ok [.plain (.decl id .nonUniffi ident vis none false)]
  | .enum id attrs vis ident variants => do
    match ← parseTypeAttrs l env "Object" attrs with
    | some a => .ok [.object id a vis ident]
    | none => do
      match ← parseEnumAttrs l env attrs with
      | some a => do .ok [.enum id a vis ident (← parseVariants env a.discrType variants)]
      | none => .ok [.plain (.decl id .nonUniffi ident vis none false)]
  | .trait id attrs vis ident fns => do
    match ← parseTraitAttrs l env attrs with
    | some a =>
      match a.exportTy with
      | some t => do .ok [.trait id t a vis ident (← parseMethods env fns)]
      | none => .ok []
    | none => .ok []
  | .impl id attrs trait self fns => do
    match ← parseImplAttrs l env attrs with
    | some name => do
      let (cs, ms) ← parseImplFns env fns
      .ok [.impl id name self cs ms]
    | none => .ok [.unresolvedImpl id trait self]
  | .macro id _ path body => if isScaffolding path then .ok [] else resolveMacro l id path body
  | _ => .ok []

/-- `resolve_items`, last part: ir.rs:205-214. Resolved items come after the others. -/
def joinItems (kept : List PItem) (resolved : List PItem) : List PItem := kept ++ resolved

mutual
/-- `add_items` and `resolve_items`: modules.rs:102-159, ir.rs:170-216. The first list has the items of the
skeleton, the second one the resolved ones. `p` is the path of the module in the skeleton. -/
def readItem (env : CompileEnv) (look : RPath → Look) (p : RPath) : SItem Meta → SynRes (List PItem × List PItem)
  | .mod id attrs vis ident items => do
    match ← env.parseAttrs attrs with
    | some _ => do
      let inner ← skeletons env items
      let (kept, resolved) ← readItems env look (p ++ [.module id ident vis inner]) items
      .ok ([.module id ident vis (joinItems kept resolved)], [])
    | none => .ok ([], [])
  | .use _ items => .ok (items.map .plain, [])
  | .type id _ vis ident params target => .ok ([.plain (.decl id (.alias params target) ident vis none false)], [])
  | i => do .ok ([], ← resolveSyn env (look p) i)
def readItems (env : CompileEnv) (look : RPath → Look) (p : RPath) : List (SItem Meta) → SynRes (List PItem × List PItem)
  | [] => .ok ([], [])
  | i :: is => do
    let (a, b) ← readItem env look p i
    let (as, bs) ← readItems env look p is
    .ok (a ++ as, b ++ bs)
end

/-- A crate: its name, the place of its root module, the compilation environment, items from UDL, the items of its
root module: ir.rs:48-74, 76-131. -/
structure SCrate (A : Type) where
  id : Nat
  ident : Ident
  env : CompileEnv
  udl : List Item
  items : List (SItem A)

/-- The root module before attributes are resolved: `Module::new_crate_root`, modules.rs:38-49. -/
def crateSkeleton (c : SCrate Meta) : SynRes Item := do
  .ok (.module c.id c.ident .pub ((← skeletons c.env c.items) ++ c.udl))

/-- The crates before attributes are resolved. -/
def cratesSkeleton : List (SCrate Meta) → SynRes (List (Ident × Item))
  | [] => .ok []
  | c :: cs => do
    let m ← crateSkeleton c
    .ok ((c.ident, m) :: (← cratesSkeleton cs))

/-- `resolve_items` for one crate. -/
def readCrate (ir : Ir) (c : SCrate Meta) : SynRes PItem := do
  let root ← crateSkeleton c
  let (kept, resolved) ← readItems c.env (lookIn ir) [root] c.items
  .ok (.module c.id c.ident .pub (joinItems (kept ++ c.udl.map .plain) resolved))

/-- `resolve_items` for all crates. -/
def readCrates (ir : Ir) : List (SCrate Meta) → SynRes (List (Ident × PItem))
  | [] => .ok []
  | c :: cs => do
    let m ← readCrate ir c
    .ok ((c.ident, m) :: (← readCrates ir cs))

/-- `add_crate_root` for all crates, and `resolve_items`: ir.rs:48-74, 170-216. -/
def read (cs : List (SCrate Meta)) : SynRes (List (Ident × PItem)) := do
  readCrates ⟨← cratesSkeleton cs⟩ cs

end Verif.Src
