import Verif.Meta.Reader
/-
Grouping metadata by crate: uniffi_meta/src/group.rs.
-/
namespace Verif.Meta

/-- `module_path.split("::").next()`, on characters. -/
def beforeColons : List Char → List Char
  | [] => []
  | ':' :: ':' :: _ => []
  | c :: cs => c :: beforeColons cs

/-- `crate_name`: uniffi_meta/src/lib.rs:703-705. -/
def crateName (modulePath : String) : String := String.ofList (beforeColons modulePath.toList)

/-- `Type::module_path`: uniffi_meta/src/types.rs:181-190. -/
def MTy.modulePath : MTy → Option String
  | .object m _ _ => some m
  | .record m _ => some m
  | .enum m _ => some m
  | .custom m _ _ => some m
  | .callbackInterface m _ => some m
  | _ => none

/-- `Type::crate_name`: types.rs:192-195. -/
def MTy.crateName (t : MTy) : Option String := t.modulePath.map Meta.crateName

/-- `UniffiTraitMetadata::module_path`: lib.rs:467-476. -/
def MUTrait.modulePath : MUTrait → String
  | .debug f => f.fn.modulePath
  | .display f => f.fn.modulePath
  | .eq e _ => e.fn.modulePath
  | .hash f => f.fn.modulePath
  | .ord f => f.fn.modulePath

/-- `Metadata::module_path`: lib.rs:597-616. `none` is the panic "type has no crate name". -/
def Metadata.modulePath : Metadata → Option String
  | .namespace_ c _ => some c
  | .udlFile m _ _ => some m
  | .func f => some f.modulePath
  | .constructor c => some c.modulePath
  | .method m => some m.fn.modulePath
  | .record m .. => some m
  | .enum m .. => some m
  | .object m .. => some m
  | .callbackInterface m .. => some m
  | .traitMethod _ _ f => some f.modulePath
  | .customType m .. => some m
  | .uniffiTrait t => some t.modulePath
  | .objectTraitImpl t _ => t.crateName

/-- `MetadataGroup`: group.rs:62-67. The set `items` is a list without repetitions; its order is not
modelled. -/
structure Group where
  crateName : String
  namespace_ : String
  items : List Metadata

/-- `HashMap<String, MetadataGroup>`. -/
abbrev GroupMap := List (String × Group)

/-- `HashMap::insert`: replaces the value of an existing key. -/
def GroupMap.insert (m : GroupMap) (k : String) (g : Group) : GroupMap :=
  (k, g) :: m.filter (·.1 ≠ k)

/-- `HashMap::get`. -/
def GroupMap.get (m : GroupMap) (k : String) : Option Group := (m.find? (·.1 = k)).map (·.2)

/-- The key and the empty group an item creates, if any: group.rs:17-39. -/
def declares : Metadata → Option (String × Group)
  | .namespace_ c n => some (c, { crateName := c, namespace_ := n, items := [] })
  | .udlFile m n _ => some (m, { crateName := m, namespace_ := n, items := [] })
  | _ => none

/-- `create_metadata_groups`: group.rs:13-42. -/
def createGroups (items : List Metadata) : GroupMap :=
  (items.filterMap declares).foldl (fun m kg => m.insert kg.1 kg.2) []

/-- `MetadataGroup::add_item`: group.rs:70-72. -/
def Group.add (g : Group) (i : Metadata) : Group :=
  { g with items := if i ∈ g.items then g.items else i :: g.items }

/-- One iteration of the loop in `group_metadata`: group.rs:46-58. -/
def groupOne (m : GroupMap) (i : Metadata) : Res GroupMap :=
  match i with
  | .namespace_ .. => .ok m
  | i =>
    match i.modulePath with
    | none => .panic
    | some path =>
      match m.get (crateName path) with
      | none => .err
      | some g => if i ∈ g.items then .err else .ok (m.insert (crateName path) (g.add i))

/-- `group_metadata`: group.rs:45-60. -/
def groupMetadata (m : GroupMap) : List Metadata → Res GroupMap
  | [] => .ok m
  | i :: is =>
    match groupOne m i with
    | .ok m => groupMetadata m is
    | .err => .err
    | .panic => .panic

/-- The groups of a library: uniffi_bindgen/src/loader.rs:109-110. -/
def groups (items : List Metadata) : Res GroupMap := groupMetadata (createGroups items) items

end Verif.Meta
