import Verif.Wire.Foreign
/-
How an enum or error type crosses the FFI, decided twice: by the Rust derive macros (or, for a type
declared in a UDL file, by the scaffolding template that picks the derive), and by the templates of
the bindings, which only see metadata.

Paths below are relative to /repo.
-/
namespace Verif.ErrorFormat
open Verif Verif.Wire

/-- The derive that writes the FFI code of a Rust enum: `uniffi::Enum`
(uniffi_macros/src/enum_.rs:151-280), `uniffi::Error` without and with `#[uniffi(flat_error)]`
(uniffi_macros/src/error.rs:43-175). `tryRead` is `#[uniffi(with_try_read)]`. -/
inductive Derive where
  | enum
  | error
  | flatError (tryRead : Bool)
  deriving DecidableEq, Repr

/-- How a UDL file declares the type: `enum E {..}` or `[Enum] interface E {..}`,
`[Error] enum E {..}`, `[Error] interface E {..}` (uniffi_udl/src/converters/enum_.rs:13-100). -/
inductive UdlKind where
  | enum
  | errorEnum
  | errorInterface
  deriving DecidableEq, Repr

/-- Where a type is declared: by a derive in Rust code, or in the crate's UDL file. -/
inductive Source where
  | macros (d : Derive)
  | udl (k : UdlKind)
  deriving DecidableEq, Repr

/-- A Rust enum with the types of the fields of each variant. -/
structure Decl where
  name : String
  source : Source
  variants : List (List Ty)
  deriving DecidableEq, Repr

/-- What matters of one crate: its enums, the names of the error types of the functions, methods and
constructors exported by macros and by the UDL file, and those of the latter that belong to methods
of callback interfaces and of traits with foreign implementations. -/
structure Crate where
  decls : List Decl
  macroThrows : List String
  udlThrows : List String
  udlCallbackThrows : List String
  deriving DecidableEq, Repr

/-- The crates of one library. -/
abbrev Program := List Crate

/-! ### Metadata -/

/-- `EnumShape`, uniffi_meta/src/lib.rs. -/
inductive Shape where
  | enum
  | error (flat : Bool)
  deriving DecidableEq, Repr

/-- The shape in the metadata: uniffi_macros/src/enum_.rs (`enum_meta_static_var`, shape `Enum`),
error.rs:166-175 (shape `Error { flat }`), uniffi_udl/src/converters/enum_.rs:13-57. -/
def Decl.shape (d : Decl) : Shape :=
  match d.source with
  | .macros .enum => .enum
  | .macros .error => .error false
  | .macros (.flatError _) => .error true
  | .udl .enum => .enum
  | .udl .errorEnum => .error true
  | .udl .errorInterface => .error false

/-- The fields of each variant in the metadata. The variants of flat errors are recorded without
fields: uniffi_macros/src/error.rs (`flat_error_variant_metadata`); a WebIDL `enum` lists only
names. -/
def Decl.metaVariants (d : Decl) : List (List Ty) :=
  if d.shape = .error true then d.variants.map fun _ => [] else d.variants

/-- `Enum::is_flat`: uniffi_bindgen/src/interface/enum_.rs:264-269,
uniffi_bindgen/src/pipeline/general/enums.rs:43-48. -/
def Decl.isFlat (d : Decl) : Bool :=
  match d.shape with
  | .error flat => flat
  | .enum => d.metaVariants.all (·.isEmpty)

/-! ### The Rust side -/

/-- Names in `ComponentInterface::errors` for the interface the scaffolding is generated from, which
is the UDL file alone: uniffi_bindgen/src/interface/mod.rs:937-939, 994-995, 1009-1063, 1154-1156. -/
def Crate.udlErrors (c : Crate) : List String :=
  c.udlThrows ++ ((c.decls.filter fun d =>
    match d.source with
    | .udl k => k ≠ .enum
    | .macros _ => false).map (·.name))

/-- The derive in force for a type. For UDL types scaffolding_template.rs:18-23 picks
ErrorTemplate.rs or EnumTemplate.rs, with `flat_error` for flat ones and `with_try_read` for those
callback methods throw (interface/mod.rs:335-353). -/
def Crate.deriveOf (c : Crate) (d : Decl) : Derive :=
  match d.source with
  | .macros m => m
  | .udl _ =>
    if d.name ∈ c.udlErrors then
      if d.isFlat then .flatError (decide (d.name ∈ c.udlCallbackThrows)) else .error
    else .enum

/-- `Lower::write` of the derived code for the variant with number `i` (from 0) and fields `fs`.
`msg` is the type's `ToString`. enum_.rs:179-224; error.rs:62-100. -/
def rustWrite (env : Env) (variants : List (List Ty)) (msg : Nat → List Val → String) (d : Derive)
    (i : Nat) (fs : List Val) : Option Bytes :=
  match variants[i]? with
  | none => none
  | some ts =>
    match d with
    | .enum | .error => (writeLen (i + 1)).bind fun p => (writeFields env ts fs).map (p ++ ·)
    | .flatError _ => (writeLen (i + 1)).bind fun p => (writeStr (msg i fs)).map (p ++ ·)

/-- `Lift::try_read` of the derived code. enum_.rs:226-250 for enums and rich errors; error.rs:102-124
for flat errors with `with_try_read`, which fails hard on a short buffer (`get_i32` without
`check_remaining`) and compiles only when no variant has fields; error.rs:126-150 without. -/
def rustRead (env : Env) (variants : List (List Ty)) (d : Derive) (fuel : Nat) (bs : Bytes) :
    Res Val :=
  match d with
  | .enum | .error =>
      (readInt .i32 bs).bind fun z rest =>
        if z < 1 then .err .badVariant
        else match variants[(z - 1).toNat]? with
          | some ts => (readFields (read env fuel) ts rest).map (.variant (z - 1).toNat)
          | none => .err .badVariant
  | .flatError true =>
      if bs.length < 4 then .panic
      else (readInt .i32 bs).bind fun z rest =>
        if z < 1 then .err .badVariant
        else match variants[(z - 1).toNat]? with
          | some _ => .ok (.variant (z - 1).toNat []) rest
          | none => .err .badVariant
  | .flatError false => .panic

/-! ### The bindings -/

/-- Names of types used as errors within one crate: interface/mod.rs:937-939, 994-995, 1009-1063,
1154-1156 and pipeline/general/context.rs:123-150. Here the interface is the whole crate. -/
def Crate.errors (c : Crate) : List String :=
  c.macroThrows ++ c.udlThrows ++ ((c.decls.filter fun d => d.shape ≠ .enum).map (·.name))

/-- The binding languages. Python is generated by the pipeline, the others from component
interfaces. -/
inductive Language where
  | python | kotlin | swift | ruby
  deriving DecidableEq, Repr

/-- Whether a name counts as an error in the bindings of crate `c`. The pipeline gathers names per
namespace (pipeline/general/namespaces.rs:8-12); `is_name_used_as_error` also looks into every other
component interface (interface/mod.rs:1111-1117 with loader.rs:179-184). -/
def usedAsError (l : Language) (p : Program) (c : Crate) (name : String) : Bool :=
  match l with
  | .python => name ∈ c.errors
  | _ => name ∈ c.errors ∨ ∃ c' ∈ p, name ∈ c'.errors

/-- The template an enum is rendered with: Types.py:82-87, Types.kt:142-149, Types.swift:79-83,
RustBufferStream.rb:163 and RustBufferBuilder.rb:171. -/
inductive Template where
  | plain      -- EnumTemplate: not an exception
  | flatError  -- ErrorTemplate, `is_flat`
  | richError  -- ErrorTemplate, not `is_flat`
  deriving DecidableEq, Repr

/-- The choice of the template. -/
def templateOf (l : Language) (p : Program) (c : Crate) (d : Decl) : Template :=
  if usedAsError l p c d.name then if d.isFlat then .flatError else .richError else .plain

/-- Whether the generated class is an exception (`Exception`, `kotlin.Exception`, `Swift.Error`,
`StandardError`): ErrorTemplate.py:8, .kt:7 and 25, .swift:4-7, .rb:23-86. -/
def Template.isException : Template → Bool
  | .plain => false
  | _ => true

/-- The generated `read`: ErrorTemplate.py:78-93, .kt:86-110, .swift:52-84, RustBufferStream.rb:199-226
and, for `plain`, EnumTemplate (see `Wire.fread`). A flat error becomes a variant holding the
message. -/
def foreignRead (L : Lang) (env : Env) (variants : List (List Ty)) (t : Template) (fuel : Nat)
    (bs : Bytes) : Res Val :=
  (L.readVariant bs).bind fun z rest =>
    if z < 1 then .err .badVariant
    else match variants[(z - 1).toNat]? with
      | none => .err .badVariant
      | some ts =>
        match t with
        | .flatError => (L.readLeaf .string rest).map fun s => .variant (z - 1).toNat [s]
        | _ => (readFields (fread L env fuel) ts rest).map (.variant (z - 1).toNat)

/-- The generated `lift` of the error buffer: `Wire.flift` for this type. -/
def foreignLift (L : Lang) (env : Env) (variants : List (List Ty)) (t : Template) (fuel : Nat)
    (bs : Bytes) : Res Val :=
  (foreignRead L env variants t fuel bs).bind fun v rest =>
    if L.checksJunk ∧ rest ≠ [] then .err .junk else .ok v rest

/-- The generated `write`: ErrorTemplate.py:113-126, .kt:133-146, .swift:86-117,
RustBufferBuilder.rb:197-214. The message of a flat error is not written. -/
def foreignWrite (L : Lang) (env : Env) (variants : List (List Ty)) (t : Template) (fuel : Nat)
    (i : Nat) (fs : List Val) : Option Bytes :=
  match variants[i]? with
  | none => none
  | some ts =>
    match t with
    | .flatError => L.writeVariant (i + 1)
    | _ => (L.writeVariant (i + 1)).bind fun b =>
        (fwriteFields (fwrite L env fuel) ts fs).map (b ++ ·)

end Verif.ErrorFormat
