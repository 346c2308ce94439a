import Verif.Meta.Group
import Verif.Meta.Encode
/-
Names of the symbols of the library: uniffi_meta/src/ffi_names.rs, and how the scaffolding and the
bindings generators arrive at them.
-/
namespace Verif.Meta
open Verif

/-- `str::to_ascii_lowercase`. -/
def asciiLower (s : String) : String := String.ofList (s.toList.map Char.toLower)

/-- `.replace("::", "__")`, on characters. -/
def replaceColons : List Char → List Char
  | [] => []
  | ':' :: ':' :: cs => '_' :: '_' :: replaceColons cs
  | c :: cs => c :: replaceColons cs

/-- `crate_name(module_path).replace("::", "__")`: ffi_names.rs, first line of each function. -/
def symNamespace (modulePath : String) : String :=
  String.ofList (replaceColons (crateName modulePath).toList)

/-- `fn_symbol_name`: ffi_names.rs:19-23. -/
def fnSymbol (m name : String) : String :=
  "uniffi_" ++ symNamespace m ++ "_fn_func_" ++ asciiLower name

/-- `constructor_symbol_name`: ffi_names.rs:26-31. -/
def constructorSymbol (m obj name : String) : String :=
  "uniffi_" ++ symNamespace m ++ "_fn_constructor_" ++ asciiLower obj ++ "_" ++ asciiLower name

/-- `method_symbol_name`: ffi_names.rs:34-39. -/
def methodSymbol (m obj name : String) : String :=
  "uniffi_" ++ symNamespace m ++ "_fn_method_" ++ asciiLower obj ++ "_" ++ asciiLower name

/-- `clone_fn_symbol_name`: ffi_names.rs:42-46. -/
def cloneSymbol (m obj : String) : String :=
  "uniffi_" ++ symNamespace m ++ "_fn_clone_" ++ asciiLower obj

/-- `free_fn_symbol_name`: ffi_names.rs:49-53. -/
def freeSymbol (m obj : String) : String :=
  "uniffi_" ++ symNamespace m ++ "_fn_free_" ++ asciiLower obj

/-- `init_callback_vtable_fn_symbol_name`: ffi_names.rs:56-63. -/
def initVtableSymbol (m name : String) : String :=
  "uniffi_" ++ symNamespace m ++ "_fn_init_callback_vtable_" ++ asciiLower name

/-- `fn_checksum_symbol_name`: ffi_names.rs:66-70. -/
def fnChecksumSymbol (m name : String) : String :=
  "uniffi_" ++ symNamespace m ++ "_checksum_func_" ++ asciiLower name

/-- `constructor_checksum_symbol_name`: ffi_names.rs:73-82. -/
def constructorChecksumSymbol (m obj name : String) : String :=
  "uniffi_" ++ symNamespace m ++ "_checksum_constructor_" ++ asciiLower obj ++ "_" ++ asciiLower name

/-- `method_checksum_symbol_name`: ffi_names.rs:85-90. -/
def methodChecksumSymbol (m obj name : String) : String :=
  "uniffi_" ++ symNamespace m ++ "_checksum_method_" ++ asciiLower obj ++ "_" ++ asciiLower name

/-- `str::strip_prefix`, on characters. -/
def stripPrefix : List Char → List Char → Option (List Char)
  | [], cs => some cs
  | _ :: _, [] => none
  | p :: ps, c :: cs => if p = c then stripPrefix ps cs else none

/-- `ffi_buffer_symbol_name`: ffi_names.rs:93-99. -/
def ffiBufferSymbol (fnName : String) : String :=
  match stripPrefix "uniffi_".toList fnName.toList with
  | some rest => "uniffi_ffibuffer_" ++ String.ofList rest
  | none => "uniffi_ffibuffer_" ++ fnName

/-! ### The scaffolding

`lib` is the name of the library crate, `mod_path()` of uniffi_macros/src/util.rs:23-25. -/

/-- `FnSignature::scaffolding_fn_ident`: uniffi_macros/src/fnsig.rs:259-281. -/
def FnSrc.scaffoldingSymbol (lib : String) (f : FnSrc) : String :=
  match f.kind with
  | .function => fnSymbol lib f.name
  | .method s => methodSymbol lib s f.name
  | .traitMethod s _ => methodSymbol lib s f.name
  | .constructor s => constructorSymbol lib s f.name

/-- `FnSignature::checksum_symbol_name`: fnsig.rs:433-455. -/
def FnSrc.scaffoldingChecksumSymbol (lib : String) (f : FnSrc) : String :=
  match f.kind with
  | .function => fnChecksumSymbol lib f.name
  | .method s => methodChecksumSymbol lib s f.name
  | .traitMethod s _ => methodChecksumSymbol lib s f.name
  | .constructor s => constructorChecksumSymbol lib s f.name

/-- The methods generated for an exported trait: uniffi_macros/src/export/utrait.rs:29-160. -/
def UTraitSrc.scaffoldingSymbols (lib : String) (t : UTraitSrc) : List String :=
  t.methods.map (FnSrc.scaffoldingSymbol lib)

/-- The functions the scaffolding exports for an item. Clone and free for objects:
uniffi_macros/src/object.rs:84-95, export/trait_interface.rs:37-44; the function that registers the
foreign implementation: export/callback_interface.rs:35-38, generated for callback interfaces and for
traits foreign code can implement (trait_interface.rs:32-35). For the methods of a callback interface
only the checksum function is exported (callback_interface.rs:268-297) and only that one is looked up;
the model lists the other one on both sides. -/
def Item.scaffoldingSymbols (lib : String) : Item → List String
  | .fn f => [f.scaffoldingSymbol lib, f.scaffoldingChecksumSymbol lib]
  | .object _ n _ .struct _ => [cloneSymbol lib n, freeSymbol lib n]
  | .object _ n _ (.trait .rustOnly) _ => [cloneSymbol lib n, freeSymbol lib n]
  | .object _ n _ (.trait _) _ => [cloneSymbol lib n, freeSymbol lib n, initVtableSymbol lib n]
  | .callbackInterface _ n _ => [initVtableSymbol lib n]
  | .uniffiTrait t => t.scaffoldingSymbols lib
  | _ => []

/-- The functions every library exports: uniffi_macros/src/setup_scaffolding.rs:14-25. -/
def builtinScaffoldingSymbols (lib : String) : List String :=
  let m := String.ofList (replaceColons lib.toList)
  ["ffi_" ++ m ++ "_uniffi_contract_version", "ffi_" ++ m ++ "_rustbuffer_alloc",
   "ffi_" ++ m ++ "_rustbuffer_from_bytes", "ffi_" ++ m ++ "_rustbuffer_free",
   "ffi_" ++ m ++ "_rustbuffer_reserve"]

/-- The names of the types a future can return: setup_scaffolding.rs:154-167. -/
def scaffoldingFutureTypes : List String :=
  ["u8", "i8", "u16", "i16", "u32", "i32", "u64", "i64", "f32", "f64", "rust_buffer", "void"]

/-- `rust_future_scaffolding_fns`: setup_scaffolding.rs:168-215. -/
def futureScaffoldingSymbols (lib : String) : List String :=
  let m := String.ofList (replaceColons lib.toList)
  scaffoldingFutureTypes.flatMap fun s =>
    ["ffi_" ++ m ++ "_rust_future_poll_" ++ s, "ffi_" ++ m ++ "_rust_future_cancel_" ++ s,
     "ffi_" ++ m ++ "_rust_future_complete_" ++ s, "ffi_" ++ m ++ "_rust_future_free_" ++ s]

/-! ### The generators -/

/-- `MethodMetadata::ffi_symbol_name`: uniffi_meta/src/lib.rs:209-211. -/
def MMethod.symbol (m : MMethod) : String := methodSymbol m.fn.modulePath m.selfName m.fn.name

/-- The functions a generator that works on the metadata looks up: `ffi_symbol_name` and
`checksum_symbol_name`, lib.rs:153-161, 177-189, 208-216, 235-243; `clone_ffi_symbol_name` and
`free_ffi_symbol_name`, lib.rs:431-440; `FfiFunction::callback_init`,
uniffi_bindgen/src/interface/ffi.rs:209-220. -/
def Metadata.symbols : Metadata → List String
  | .func f => [fnSymbol f.modulePath f.name, fnChecksumSymbol f.modulePath f.name]
  | .constructor c =>
    [constructorSymbol c.modulePath c.selfName c.name,
     constructorChecksumSymbol c.modulePath c.selfName c.name]
  | .method m => [m.symbol, methodChecksumSymbol m.fn.modulePath m.selfName m.fn.name]
  | .traitMethod t _ f =>
    [methodSymbol f.modulePath t f.name, methodChecksumSymbol f.modulePath t f.name]
  | .object m n _ .struct _ => [cloneSymbol m n, freeSymbol m n]
  | .object m n _ (.trait .rustOnly) _ => [cloneSymbol m n, freeSymbol m n]
  | .object m n _ (.trait _) _ => [cloneSymbol m n, freeSymbol m n, initVtableSymbol m n]
  | .callbackInterface m n _ => [initVtableSymbol m n]
  | .uniffiTrait (.debug f) => [f.symbol]
  | .uniffiTrait (.display f) => [f.symbol]
  | .uniffiTrait (.eq e n) => [e.symbol, n.symbol]
  | .uniffiTrait (.hash f) => [f.symbol]
  | .uniffiTrait (.ord f) => [f.symbol]
  | _ => []

/-- The functions the pipeline looks up: uniffi_bindgen/src/pipeline/general/callable.rs:46-49, 76-80,
110-114, ffi_functions.rs:18, 45, 96, objects.rs:8-20, callback_interfaces.rs:18-21, checksums.rs:9-58.
`crate` is the crate of the group the item is in; names are the ones of the metadata, not the ones
after renaming. -/
def Metadata.pipelineSymbols (crate : String) : Metadata → List String
  | .func f => [fnSymbol crate f.name, fnChecksumSymbol crate f.name]
  | .constructor c =>
    [constructorSymbol crate c.selfName c.name, constructorChecksumSymbol crate c.selfName c.name]
  | .method m =>
    [methodSymbol crate m.selfName m.fn.name, methodChecksumSymbol crate m.selfName m.fn.name]
  | .traitMethod t _ f => [methodSymbol crate t f.name, methodChecksumSymbol crate t f.name]
  | .object _ n _ .struct _ => [cloneSymbol crate n, freeSymbol crate n]
  | .object _ n _ (.trait .rustOnly) _ => [cloneSymbol crate n, freeSymbol crate n]
  | .object _ n _ (.trait _) _ =>
    [cloneSymbol crate n, freeSymbol crate n, initVtableSymbol crate n]
  | .callbackInterface _ n _ => [initVtableSymbol crate n]
  | .uniffiTrait (.debug f) => [methodSymbol crate f.selfName f.fn.name]
  | .uniffiTrait (.display f) => [methodSymbol crate f.selfName f.fn.name]
  | .uniffiTrait (.eq e n) =>
    [methodSymbol crate e.selfName e.fn.name, methodSymbol crate n.selfName n.fn.name]
  | .uniffiTrait (.hash f) => [methodSymbol crate f.selfName f.fn.name]
  | .uniffiTrait (.ord f) => [methodSymbol crate f.selfName f.fn.name]
  | _ => []

/-- uniffi_bindgen/src/interface/mod.rs:486-570; pipeline: checksums.rs:61-66, rust_buffer.rs:9-35. -/
def builtinSymbols (crate : String) : List String :=
  ["ffi_" ++ crate ++ "_uniffi_contract_version", "ffi_" ++ crate ++ "_rustbuffer_alloc",
   "ffi_" ++ crate ++ "_rustbuffer_from_bytes", "ffi_" ++ crate ++ "_rustbuffer_free",
   "ffi_" ++ crate ++ "_rustbuffer_reserve"]

end Verif.Meta
