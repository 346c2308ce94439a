import Verif.Src.Paths
/-
Finding a path under which other crates can import an item: uniffi_parse_rs/src/public_paths.rs.
-/
namespace Verif.Src

/-- `Ident::to_string`. -/
def Ident.show (i : Ident) : String := if i.raw then "r#" ++ i.name else i.name

/-- `Item::name`: items.rs:111-119. -/
def Item.name (i : Item) : String :=
  match i.ident with
  | some ident => ident.show
  | none =>
    match i with
    | .udl _ ty => (udlName ty).getD "<unnamed>"
    | _ => "<unnamed>"

/-- The names of builtin items in `path_string`: paths.rs:116-148. -/
def Builtin.name : Builtin → String
  | .unitType => "()" | .boolean => "bool" | .string => "String" | .str => "str"
  | .uint8 => "u8" | .int8 => "i8" | .uint16 => "u16" | .int16 => "i16" | .uint32 => "u32" | .int32 => "i32"
  | .uint64 => "u64" | .int64 => "i64" | .float32 => "f32" | .float64 => "f64"
  | .systemTime => "Timestamp" | .duration => "Duration" | .vec => "Vec" | .arc => "Arc" | .box => "Box"
  | .hashMap => "HashMap" | .hashSet => "HashSet" | .option => "Option" | .result => "Result"
  | .uniffiMacro n | .uniffiDerive n => n
  | .from_ => "From" | .unexpectedUniFFICallbackError => "UnexpectedUniFFICallbackError"

/-- One segment of `path_string`: paths.rs:116-151. -/
def Item.segment : Item → String
  | .builtin b => b.name
  | i => i.name

/-- `RPath::path_string`: paths.rs:110-154. -/
def pathString (p : RPath) : String := "::".intercalate (p.map Item.segment)

/-- `ItemNames`: public_paths.rs:10-24. -/
structure ItemNames where
  modulePath : String
  name : String
  origName : Option String
  deriving DecidableEq, Repr

/-- The result for an item that is found in its own module: public_paths.rs:125-142. -/
def declNames (mpath : RPath) (target : Item) : Res ItemNames :=
  match target.ident with
  | none => .error .internal
  | some ident =>
    match target.nameFromAttrs with
    | none => .ok ⟨pathString mpath, ident.show, none⟩
    | some name => .ok ⟨pathString mpath, name, some ident.show⟩

/-- The result for an item that is found by a `pub use`: public_paths.rs:152-181. -/
def useNames (mpath : RPath) (target : Item) (useIdent : Ident) : Res ItemNames :=
  match target.ident with
  | none => .error .internal
  | some ident =>
    let name := target.nameFromAttrs.getD ident.show
    if name = useIdent.show then .ok ⟨pathString mpath, name, none⟩
    else .ok ⟨pathString mpath, name, some useIdent.show⟩

/-- A search has a result or an error or found nothing; it also returns the modules that have been
searched. -/
abbrev Search := Res (Option ItemNames) × List Nat

def someNames : Res ItemNames → Res (Option ItemNames)
  | .ok n => .ok (some n)
  | .error e => .error e

/-- The loop of `search_module`: public_paths.rs:123-221. `rec` is the recursive call. -/
def searchItems (rec : RPath → Nat → List Item → List Nat → Prog Search) (ir : Ir) (target : Item) (ns : Ns)
    (mpath : RPath) : List Item → List Nat → Prog Search
  | [], searched => .ret (.ok none, searched)
  | i :: is, searched =>
    if i.addr = target.addr then .ret (someNames (declNames mpath target), searched)
    else
      match i with
      | .useItem _ .pub path useIdent => (resolve ir mpath path ns).bind fun
        | .ok q =>
          match q.getLast? with
          | none => .ret (.error .internal, searched)
          | some last =>
            if last.addr = target.addr then .ret (someNames (useNames mpath target useIdent), searched)
            else searchItems rec ir target ns mpath is searched
        | .error .notFound => searchItems rec ir target ns mpath is searched
        | .error e => .ret (.error e, searched)
      | .useGlob _ .pub path => (resolve ir mpath path ns).bind fun
        | .ok q =>
          match q.getLast? with
          | some (.module id _ _ items) => (rec q id items searched).bind fun
            | (.ok (some names), searched) => .ret (.ok (some { names with modulePath := pathString mpath }), searched)
            | (.ok none, searched) => searchItems rec ir target ns mpath is searched
            | (.error e, searched) => .ret (.error e, searched)
          | _ => .ret (.error .internal, searched)
        | .error .notFound => searchItems rec ir target ns mpath is searched
        | .error e => .ret (.error e, searched)
      | _ => searchItems rec ir target ns mpath is searched

/-- `search_module`: public_paths.rs:110-222. -/
def searchModule (ir : Ir) (target : Item) (ns : Ns) : Nat → RPath → Nat → List Item → List Nat → Prog Search
  | 0, _, _, _, searched => .ret (.error .fuel, searched)
  | n + 1, mpath, id, items, searched =>
    if id ∈ searched then .ret (.ok none, searched)
    else searchItems (searchModule ir target ns n) ir target ns mpath items (id :: searched)

/-- The public modules in the module at the end of a path: public_paths.rs:97-100. -/
def pubModules (mpath : RPath) : List RPath :=
  match mpath.getLast? with
  | some (.module _ _ _ items) => items.filterMap fun i => match i with
    | .module id ident .pub items => some (mpath ++ [.module id ident .pub items])
    | _ => none
  | _ => []

/-- The `for` loop over the modules of one level: public_paths.rs:85-96. -/
def searchLevel (ir : Ir) (target : Item) (ns : Ns) (fuel : Nat) : List RPath → List Nat → Prog Search
  | [], searched => .ret (.ok none, searched)
  | mpath :: rest, searched =>
    match mpath.getLast? with
    | some (.module id _ _ items) => (searchModule ir target ns fuel mpath id items searched).bind fun
      | (.ok none, searched) => searchLevel ir target ns fuel rest searched
      | (r, searched) => .ret (r, searched)
    | _ => .ret (.error .internal, searched)

/-- The `while` loop: public_paths.rs:82-106. The first argument bounds the number of levels. -/
def searchLevels (ir : Ir) (target : Item) (ns : Ns) (fuel : Nat) : Nat → List RPath → List Nat → Prog (Res ItemNames)
  | 0, _, _ => .ret (.error .fuel)
  | n + 1, level, searched =>
    if level.isEmpty then .ret (.error .noPubPath)
    else (searchLevel ir target ns fuel level searched).bind fun
      | (.ok (some names), _) => .ret (.ok names)
      | (.ok none, searched) => searchLevels ir target ns fuel n (level.flatMap pubModules) searched
      | (.error e, _) => .ret (.error e)

/-- The namespace for an item: public_paths.rs:62-65. -/
def Item.searchNs : Item → Ns
  | .decl _ .fn _ _ _ _ => .value
  | _ => .type

/-- `_public_path_to_item`: public_paths.rs:57-107. -/
def publicPathBody (ir : Ir) (fuel levels : Nat) (p : RPath) : Prog (Res ItemNames) :=
  match p.getLast? with
  | none => .ret (.error .internal)
  | some item =>
    match RPath.parent p with
    | .error e => .ret (.error e)
    | .ok mpath =>
      match RPath.crateRoot mpath with
      | .error e => .ret (.error e)
      | .ok root =>
        match root.getLast? with
        | some (.module _ _ _ _) => searchLevels ir item item.searchNs fuel levels [root] []
        | _ => .ret (.error .internal)

/-- `LookupCache`: paths.rs:656-666, with the part for public paths. -/
structure FullCache where
  lookups : Cache := {}
  publicPaths : List (String × Res ItemNames) := []

/-- `public_path_to_item`: public_paths.rs:33-54. An error is replaced by `NoPubPath` with the first error
as context; a panic is not caught. -/
def publicPath (ir : Ir) (fuel levels depth : Nat) (p : RPath) (c : FullCache) : Res ItemNames × FullCache :=
  match (c.publicPaths.find? fun e => e.1 == pathString p).map (·.2) with
  | some r => (r, c)
  | none =>
    let (r, lookups) := (publicPathBody ir fuel levels p).run (child ir depth) c.lookups
    (match r with
      | .ok names => .ok names
      | .error .panic => .error .panic
      | .error .fuel => .error .fuel
      | .error _ => .error .noPubPath,
     ⟨lookups, (pathString p, r) :: c.publicPaths⟩)

end Verif.Src
