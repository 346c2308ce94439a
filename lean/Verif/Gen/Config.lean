/-
Configuration of the generators: uniffi_bindgen/src/global_config.rs, `merge_toml` in uniffi_bindgen/src/lib.rs,
uniffi_bindgen/src/bindgen_paths.rs.
-/
namespace Verif.Gen.Config

/-- Variants of `toml::Value` other than `Table`. -/
inductive Kind where
  | string | integer | float | boolean | datetime | array
  deriving DecidableEq, Repr

mutual
  /-- `toml::Value`. What is in scalars and arrays is never looked at: it is a string here. -/
  inductive Value where
    | leaf (kind : Kind) (val : String)
    | table (t : Table)
  /-- `toml::value::Table`, a map. -/
  inductive Table where
    | nil
    | cons (key : String) (v : Value) (rest : Table)
end

namespace Table

def isEmpty : Table → Bool
  | .nil => true
  | .cons _ _ _ => false

def get : Table → String → Option Value
  | .nil, _ => none
  | .cons k v r, x => if k = x then some v else r.get x

/-- `*get_mut(key) = v`. -/
def set : Table → String → Value → Table
  | .nil, _, _ => .nil
  | .cons k v r, x, w => if k = x then .cons k w r else .cons k v (r.set x w)

/-- `insert` of a key that is not there. -/
def insert : Table → String → Value → Table
  | .nil, x, w => .cons x w .nil
  | .cons k v r, x, w => .cons k v (r.insert x w)

end Table

mutual
  /-- The match for a key that is there: lib.rs:370-382. -/
  def Value.mergeOver (e : Value) : Value → Option Value
    | .table t1 =>
      match e with
      | .table t0 => (Table.merge t0 t1).map .table
      | .leaf _ _ => none
    | .leaf k v =>
      match e with
      | .leaf k' _ => if k' = k then some (.leaf k v) else none
      | .table _ => none

  /-- `merge_toml`: lib.rs:367-389. `none` is the error. -/
  def Table.merge (a : Table) : Table → Option Table
    | .nil => some a
    | .cons key value rest =>
      match a.get key with
      | some e =>
        match Value.mergeOver e value with
        | some v => Table.merge (a.set key v) rest
        | none => none
      | none => Table.merge (a.insert key value) rest
end

/-- `GlobalConfig`: global_config.rs:37-41. -/
structure Global where
  defaults : Table := .nil
  overrides : String → Option Table := fun _ => none

/-- What a path leads to. -/
inductive File where
  | absent
  /-- cannot be read or parsed -/
  | bad
  | toml (t : Table)

/-- A layer of paths, as far as it gives roots of crates: bindgen_paths.rs:113-130. -/
abbrev Layer := String → Option String

/-- `get_crate_root`: bindgen_paths.rs:43-47. -/
def crateRoot (layers : List Layer) (crate : String) : Option String := layers.findSome? fun l => l crate

/-- `get_config_path`: bindgen_paths.rs:50-54, 123-126. -/
def configPath (layers : List Layer) (crate : String) : Option String :=
  layers.findSome? fun l => (l crate).map (· ++ "/uniffi.toml")

/-- `get_config`: global_config.rs:101-119. -/
def Global.config (g : Global) (fs : String → File) (layers : List Layer) (crate : String) : Option Table :=
  let config := g.defaults
  let config : Option Table :=
    match configPath layers crate with
    | some p =>
      match fs p with
      | .absent => some config
      | .bad => none
      | .toml t => Table.merge config t
    | none => some config
  match config with
  | none => none
  | some config =>
    match g.overrides crate with
    | some o => Table.merge config o
    | none => some config

/-- The members of a table that are tables; fails if there are others. -/
def tablesOf : Table → Option (List (String × Table))
  | .nil => some []
  | .cons k (.table t) r => (tablesOf r).map ((k, t) :: ·)
  | .cons _ (.leaf _ _) _ => none

/-- The members of a table that are strings; fails if there are others. -/
def stringsOf : Table → Option (List (String × String))
  | .nil => some []
  | .cons k (.leaf .string s) r => (stringsOf r).map ((k, s) :: ·)
  | .cons _ _ _ => none

def lookup {β : Type} (l : List (String × β)) (k : String) : Option β := (l.find? fun x => x.1 = k).map (·.2)

/-- A section of the file that has to be a table; empty if it is not there. -/
def section_ (raw : Table) (name : String) : Option Table :=
  match raw.get name with
  | none => some .nil
  | some (.table t) => some t
  | some (.leaf _ _) => none

/-- `from_file`, of a file that was parsed: global_config.rs:51-95. `dir` is the directory of the file. Joining paths is
`join`. The warning is left out. -/
def Global.fromFile (join : String → String → String) (dir : String) (raw : Table) : Option (Global × Option Layer) :=
  let has := (raw.get "crate-roots").isSome || (raw.get "defaults").isSome || (raw.get "crates").isSome
  if !has && !raw.isEmpty then some ({}, none)
  else
    match (section_ raw "crate-roots").bind stringsOf, section_ raw "defaults", (section_ raw "crates").bind tablesOf with
    | some roots, some defaults, some crates =>
      some ({ defaults, overrides := lookup crates },
        match roots with
        | [] => none
        | roots => some fun c => (lookup roots c).map (join dir))
    | _, _, _ => none

/-- The layers of `generate`: uniffi_bindgen/src/bindings/mod.rs:51-72, of `generate_swift_bindings`:
bindings/swift/mod.rs:141-165. `given` are those of the caller. -/
def layersOf (given : List Layer) (roots : Option Layer) (cargo : Layer) : List Layer := given ++ roots.toList ++ [cargo]

/-- The layers of the generator for Kotlin with JNI: uniffi-bindgen-kotlin-jni/src/lib.rs:51-68. -/
def layersOfJni (roots : Option Layer) (cargo : Layer) : List Layer := [cargo] ++ roots.toList

end Verif.Gen.Config
