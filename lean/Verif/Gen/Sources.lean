/-
Which crates are parsed, with which features: uniffi_bindgen/src/cargo_metadata.rs.
-/
namespace Verif.Gen.Sources

/-- `name.replace('-', "_")`. -/
def norm (s : String) : String := String.ofList (s.toList.map fun c => if c = '-' then '_' else c)

/-- `cargo_metadata::Dependency`. -/
structure Dep where
  name : String
  features : List String := []
  usesDefault : Bool := true

/-- `cargo_metadata::Package`. -/
structure Package where
  name : String
  deps : List Dep := []
  /-- a map -/
  features : List (String × List String) := []
  /-- `metadata.uniffi.skip_parsing` -/
  skip : Bool := false
  /-- the source of the first target that is a library of some kind: cargo_metadata.rs:207-213 -/
  src : Option String := none
  /-- the name of the first target that is not a binary, example, test, benchmark or build script -/
  lib : Option String := none
  root : String := ""

/-- `CargoMetadataOptions`, without `no_deps`. -/
structure Options where
  noDefault : Bool := false
  all : Bool := false
  features : List String := []

/-- `get_package`: cargo_metadata.rs:54-66. Of packages with the same name the last one stays in the map. -/
def getPackage (pkgs : List Package) (name : String) : Option Package := pkgs.reverse.find? fun p => norm p.name = norm name

/-- `get_package_by_library_name`: cargo_metadata.rs:38-52, 68-70. -/
def getByLib (pkgs : List Package) (name : String) : Option Package :=
  pkgs.reverse.find? fun p => p.lib.any fun l => norm l = norm name

/-- `get_crate_root`: cargo_metadata.rs:72-79. -/
def crateRoot (pkgs : List Package) (name : String) : Option String :=
  ((getPackage pkgs name).or (getByLib pkgs name)).map (·.root)

/-- `should_parse_package`: cargo_metadata.rs:195-205. -/
def shouldParse (p : Package) : Bool := p.deps.any (·.name = "uniffi") && !p.skip

/-- `package.features.get("default")`. -/
def defaultFeatures (p : Package) : Option (List String) := (p.features.find? fun f => f.1 = "default").map (·.2)

/-- The variables of `get_source_crates`: cargo_metadata.rs:97-113. Sets and maps of sets are lists of their elements. -/
structure State where
  /-- the stack, its top first -/
  todo : List String
  seen : List String := []
  features : List (String × String) := []
  defaults : List (String × String) := []
  enable : List String := []
  found : List (String × String) := []

/-- Features of the source crate that are asked for: cargo_metadata.rs:142-159. -/
def selected (o : Options) (p : Package) : List String :=
  let names := (p.features.map (·.1)).filter (· ≠ "default")
  if o.all then names else names.filter fun f => o.features.any (· = f)

/-- The body of the loop for a crate that was not seen: cargo_metadata.rs:119-173. -/
def visit (pkgs : List Package) (o : Options) (source : String) (s : State) (crate : String) (rest : List String) : State :=
  let s := { s with seen := s.seen ++ [crate], todo := rest }
  match getPackage pkgs crate with
  | none => s
  | some p =>
    { todo := (p.deps.map (·.name)).reverse ++ rest,
      seen := s.seen,
      features := s.features ++ p.deps.flatMap (fun d => d.features.map fun f => (d.name, f)) ++
        (if crate = source then (selected o p).map fun f => (crate, f) else []),
      defaults := s.defaults ++ ((defaultFeatures p).getD []).map fun f => (crate, f),
      enable := s.enable ++ (if crate = source && !o.noDefault then [crate] else []) ++
        (p.deps.filter (·.usesDefault)).map (·.name),
      found := s.found ++ (if shouldParse p then p.src.toList.map fun src => (p.name, src) else []) }

/-- The loop, with a bound for its length: cargo_metadata.rs:115-173. `none` if the bound is too small. -/
def loop (pkgs : List Package) (o : Options) (source : String) : Nat → State → Option State
  | 0, _ => none
  | n + 1, s =>
    match s.todo with
    | [] => some s
    | c :: rest => if c ∈ s.seen then loop pkgs o source n { s with todo := rest } else loop pkgs o source n (visit pkgs o source s c rest)

/-- `SourceCrate`: bindgen_paths.rs:100-105. -/
structure Source where
  name : String
  src : String
  features : List String
  deriving DecidableEq, Repr

/-- The result: cargo_metadata.rs:175-193. -/
def finish (s : State) : List Source :=
  s.found.map fun (name, src) =>
    { name, src,
      features := ((s.features.filter fun f => f.1 = name).map (·.2)) ++
        (if name ∈ s.enable then (s.defaults.filter fun f => f.1 = name).map (·.2) else []) }

/-- `get_source_crates`: cargo_metadata.rs:95-193. -/
def sourceCrates (pkgs : List Package) (o : Options) (source : String) (bound : Nat) : Option (List Source) :=
  (loop pkgs o source bound { todo := [source] }).map finish

end Verif.Gen.Sources
