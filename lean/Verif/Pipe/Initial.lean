import Verif.Pipe.Model

/-!
The tree that generators start from (`uniffi_bindgen/src/pipeline/initial/nodes.rs`), as definitions for
the walk, and what the first pass asks about a whole namespace.
-/
namespace Verif.Pipe

open Ty in
/-- A string field. -/
def str : Ty := leaf .string

def optStr : Ty := .option str
def typ : Ty := .named "Type"
def boxTyp : Ty := .box typ

/-- The structs and enums of the tree: pipeline/initial/nodes.rs:16-365, and of uniffi_meta:
uniffi_meta/src/lib.rs:319-323, 355-358, uniffi_meta/src/types.rs:24-40, 267-271.  Fields without names
are numbered. -/
def initialIr : Env := [
  ("Root", .struct [("namespaces", .indexMap str (.named "Namespace")), ("cdylib", optStr),
    ("from_unexpected_callback_error_impls", .vec typ), ("checksum_mode", .named "ChecksumMode")]),
  ("Namespace", .struct [("name", str), ("crate_name", str), ("config_toml", optStr),
    ("docstring", optStr), ("functions", .vec (.named "Function")),
    ("type_definitions", .vec (.named "TypeDefinition"))]),
  ("ChecksumMode", .enum [("Legacy", []), ("Skip", [])]),
  ("Function", .struct [("orig_name", str), ("id", .leaf .u64), ("name", str), ("module_path", str),
    ("is_async", .leaf .bool), ("inputs", .vec (.named "Argument")), ("return_type", .option typ),
    ("throws", .option typ), ("checksum", .option (.leaf .u16)), ("docstring", optStr)]),
  ("TypeDefinition", .enum [("Interface", [("0", .named "Interface")]),
    ("CallbackInterface", [("0", .named "CallbackInterface")]), ("Record", [("0", .named "Record")]),
    ("Enum", [("0", .named "Enum")]), ("Custom", [("0", .named "CustomType")])]),
  ("Constructor", .struct [("orig_name", str), ("id", .leaf .u64), ("name", str),
    ("is_async", .leaf .bool), ("inputs", .vec (.named "Argument")), ("throws", .option typ),
    ("checksum", .option (.leaf .u16)), ("docstring", optStr)]),
  ("Method", .struct [("orig_name", str), ("id", .leaf .u64), ("name", str),
    ("is_async", .leaf .bool), ("takes_self_by_arc", .leaf .bool),
    ("inputs", .vec (.named "Argument")), ("return_type", .option typ), ("throws", .option typ),
    ("checksum", .option (.leaf .u16)), ("docstring", optStr)]),
  ("TraitMethod", .struct [("trait_name", str), ("index", .leaf .u32), ("orig_name", str),
    ("name", str), ("is_async", .leaf .bool), ("inputs", .vec (.named "Argument")),
    ("return_type", .option typ), ("throws", .option typ), ("checksum", .option (.leaf .u16)),
    ("docstring", optStr)]),
  ("Argument", .struct [("name", str), ("ty", typ), ("pass_by", .named "PassBy"),
    ("optional", .leaf .bool), ("default", .option (.named "DefaultValue"))]),
  ("DefaultValue", .enum [("Default", []), ("Literal", [("0", .named "Literal")])]),
  ("Literal", .enum [("Boolean", [("0", .leaf .bool)]), ("String", [("0", str)]),
    ("UInt", [("0", .leaf .u64), ("1", .named "Radix"), ("2", typ)]),
    ("Int", [("0", .leaf .i64), ("1", .named "Radix"), ("2", typ)]),
    ("Float", [("0", str), ("1", typ)]), ("Enum", [("0", str), ("1", typ)]), ("EmptySequence", []),
    ("EmptyMap", []), ("EmptySet", []), ("None", []),
    ("Some", [("inner", .box (.named "DefaultValue"))])]),
  ("Record", .struct [("constructors", .vec (.named "Constructor")),
    ("methods", .vec (.named "Method")), ("uniffi_traits", .vec (.named "UniffiTrait")),
    ("module_path", str), ("name", str), ("orig_name", str), ("fields", .vec (.named "Field")),
    ("docstring", optStr)]),
  ("Field", .struct [("name", str), ("orig_name", str), ("ty", typ),
    ("default", .option (.named "DefaultValue")), ("docstring", optStr)]),
  ("Enum", .struct [("constructors", .vec (.named "Constructor")), ("methods", .vec (.named "Method")),
    ("uniffi_traits", .vec (.named "UniffiTrait")), ("module_path", str), ("name", str),
    ("orig_name", str), ("shape", .named "EnumShape"), ("variants", .vec (.named "Variant")),
    ("discr_type", .option typ), ("docstring", optStr)]),
  ("Variant", .struct [("name", str), ("orig_name", str), ("discr", .option (.named "Literal")),
    ("fields", .vec (.named "Field")), ("docstring", optStr)]),
  ("Interface", .struct [("constructors", .vec (.named "Constructor")),
    ("methods", .vec (.named "Method")), ("uniffi_traits", .vec (.named "UniffiTrait")),
    ("trait_impls", .vec (.named "ObjectTraitImpl")), ("module_path", str), ("name", str),
    ("orig_name", str), ("docstring", optStr), ("imp", .named "ObjectImpl")]),
  ("CallbackInterface", .struct [("methods", .vec (.named "Method")), ("module_path", str),
    ("name", str), ("orig_name", str), ("docstring", optStr)]),
  ("UniffiTrait", .enum [("Debug", [("fmt", .named "Method")]), ("Display", [("fmt", .named "Method")]),
    ("Eq", [("eq", .named "Method"), ("ne", .named "Method")]), ("Hash", [("hash", .named "Method")]),
    ("Ord", [("cmp", .named "Method")])]),
  ("ObjectTraitImpl", .struct [("ty", typ), ("trait_ty", typ)]),
  ("CustomType", .struct [("module_path", str), ("name", str), ("orig_name", str), ("builtin", typ),
    ("docstring", optStr)]),
  ("Type", .enum [("UInt8", []), ("Int8", []), ("UInt16", []), ("Int16", []), ("UInt32", []),
    ("Int32", []), ("UInt64", []), ("Int64", []), ("Float32", []), ("Float64", []), ("Boolean", []),
    ("String", []), ("Bytes", []), ("Timestamp", []), ("Duration", []),
    ("Box", [("inner_type", boxTyp)]), ("Optional", [("inner_type", boxTyp)]),
    ("Sequence", [("inner_type", boxTyp)]), ("Map", [("key_type", boxTyp), ("value_type", boxTyp)]),
    ("Set", [("inner_type", boxTyp)]),
    ("Interface", [("namespace", str), ("name", str), ("orig_name", str), ("imp", .named "ObjectImpl")]),
    ("Record", [("namespace", str), ("name", str), ("orig_name", str)]),
    ("Enum", [("namespace", str), ("name", str), ("orig_name", str)]),
    ("CallbackInterface", [("namespace", str), ("name", str), ("orig_name", str)]),
    ("Custom", [("namespace", str), ("name", str), ("orig_name", str), ("builtin", boxTyp)])]),
  ("EnumShape", .enum [("Enum", []), ("Error", [("flat", .leaf .bool)])]),
  ("ObjectImpl", .enum [("Struct", []), ("Trait", [("0", .named "TraitKind")])]),
  ("TraitKind", .enum [("RustOnly", []), ("Both", []), ("ForeignOnly", [])]),
  ("PassBy", .enum [("Value", []), ("Ref", []), ("MutRef", [])]),
  ("Radix", .enum [("Decimal", []), ("Octal", []), ("Hexadecimal", [])])]

/-- What the first pass looks for, and where: `visit`, `try_visit` and `has_descendant` in
uniffi_bindgen/src/pipeline/general: context.rs:124-131, 236-255; ffi_functions.rs:17-73;
objects.rs:27; checksums.rs:12-42; rust_future.rs:143-145; callback_interfaces.rs:75, 91;
type_definitions_from_api.rs:21. -/
def searches : List (Ty × Ty) :=
  ["Function", "Method", "Constructor", "Enum", "Interface", "Record", "CallbackInterface",
    "Type"].map (fun t => (Ty.named "Namespace", Ty.named t)) ++
  ["Type", "Namespace", "Record", "Enum", "Interface", "CallbackInterface", "CustomType"].map
    (fun t => (Ty.named "Root", Ty.named t)) ++
  [(.named "Interface", .named "Method"), (.named "Interface", .named "Constructor"),
    (.named "Record", .named "Method"), (.named "Enum", .named "Method"),
    (.vec (.named "Method"), .named "Method")]

/-- A field of a struct, by name. -/
def fieldIn : List (String × Val) → String → Option Val
  | [], _ => none
  | (m, v) :: fs, n => if m = n then some v else fieldIn fs n

def field? (v : Val) (n : String) : Option Val :=
  match v with
  | .struct _ fs => fieldIn fs n
  | _ => none

/-- `.is_async`; booleans are leaves with their text. -/
def isAsync (v : Val) : Bool :=
  match field? v "is_async" with
  | some (.leaf .bool s) => s == "true"
  | _ => false

/-- `a || b` where both can panic. -/
def orElse (a : Except Panic Bool) (b : Except Panic Bool) : Except Panic Bool :=
  match a with
  | .error e => .error e
  | .ok true => .ok true
  | .ok false => b

/-- `has_async_fns`: pipeline/general/rust_future.rs:142-146. -/
def hasAsyncFns (order : List Ty → List Ty) (ns : Val) : Except Panic Bool :=
  orElse (hasDescendant initialIr order (.named "Function") isAsync ns)
    (orElse (hasDescendant initialIr order (.named "Method") isAsync ns)
      (hasDescendant initialIr order (.named "Constructor") isAsync ns))

/-- Is `v` in a list, by a given notion of equality. -/
def addTo (same : Val → Val → Bool) (acc : List Val) (v : Val) : List Val :=
  if acc.any (same v) then acc else acc ++ [v]

/-- The types for which a converter is made: the set `all_types` of `type_definitions`,
pipeline/general/type_definitions_from_api.rs:18-23: `String`, then every type in the namespace, each
once.  `same` is `==` of types. -/
def apiTypes (same : Val → Val → Bool) (order : List Ty → List Ty) (ns : Val) :
    Except Panic (List Val) :=
  visit initialIr order (.named "Type") (addTo same) ns [.enum "Type" "String" []]

/-- The text of a string field. -/
def text (v : Val) (n : String) : String :=
  match field? v n with
  | some (.leaf .string s) => s
  | _ => ""

/-- The `checksum` field: `Option<u16>`. -/
def checksum? (v : Val) : Option String :=
  match field? v "checksum" with
  | some (.some _ (.leaf .u16 s)) => some s
  | _ => none

/-- A function that gives a checksum.  C44 is about how the names are spelled
(`uniffi_meta::{fn,method,constructor}_checksum_symbol_name`). -/
inductive ChecksumFn
  | function (crateName name : String)
  | method (crateName owner name : String)
  | constructor (crateName owner name : String)
deriving DecidableEq, Repr

/-- The closures of `checksums`: nothing without a checksum, otherwise push
(pipeline/general/checksums.rs:12-23, 29-41, 42-54). -/
def push (f : String → ChecksumFn) (acc : List (ChecksumFn × String)) (v : Val) :
    List (ChecksumFn × String) :=
  match checksum? v with
  | none => acc
  | some c => acc ++ [(f (text v "name"), c)]

/-- The closure for an interface: checksums.rs:25-55.  The state carries a panic of an inner `visit`. -/
def pushInterface (order : List Ty → List Ty) (crateName : String)
    (acc : Except Panic (List (ChecksumFn × String))) (int : Val) :
    Except Panic (List (ChecksumFn × String)) :=
  match acc with
  | .error e => .error e
  | .ok acc =>
    match field? int "methods" with
    | none => .error .notADescendant
    | some methods =>
      match visit initialIr order (.named "Method") (push (.method crateName (text int "name")))
          methods acc with
      | .error e => .error e
      | .ok acc =>
        visit initialIr order (.named "Constructor") (push (.constructor crateName (text int "name")))
          int acc

/-- `checksums`: pipeline/general/checksums.rs:9-60: what Python bindings compare when they are
loaded. -/
def checksums (order : List Ty → List Ty) (ns : Val) : Except Panic (List (ChecksumFn × String)) :=
  match visit initialIr order (.named "Function") (push (.function (text ns "crate_name"))) ns [] with
  | .error e => .error e
  | .ok acc =>
    match visit initialIr order (.named "Interface") (pushInterface order (text ns "crate_name")) ns
        (.ok acc) with
    | .error e => .error e
    | .ok r => r

end Verif.Pipe
