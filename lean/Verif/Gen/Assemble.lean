import Verif.Meta.Group
/-
From a list of metadata items to an interface: the converter of the pipeline (uniffi_bindgen/src/
pipeline/initial/from_uniffi_meta.rs, context.rs, types.rs), which Python uses, and the functions
that add items to a `ComponentInterface` (macro_metadata/ci.rs, interface/mod.rs), which the other
languages use.
-/
namespace Verif.Gen.Assemble
open Verif.Meta

/-! ### Maps -/

/-- `BTreeMap::get`, on a list of pairs. -/
def get {κ ν : Type} [DecidableEq κ] (m : List (κ × ν)) (k : κ) : Option ν :=
  (m.find? (·.1 = k)).map (·.2)

/-- `BTreeMap::insert`: replaces the value of an existing key. -/
def put {κ ν : Type} [DecidableEq κ] (m : List (κ × ν)) (k : κ) (v : ν) : List (κ × ν) :=
  (k, v) :: m.filter (·.1 ≠ k)

/-- `insert_unique`: from_uniffi_meta.rs:55-71. `none` is the error. -/
def insertUnique {κ ν : Type} [DecidableEq κ] [DecidableEq ν] (m : List (κ × ν)) (k : κ) (v : ν) :
    Option (List (κ × ν)) :=
  match get m k with
  | none => some (m ++ [(k, v)])
  | some old => if old ≠ v then none else some m

/-- Put an element before the first one that is not smaller. -/
def insertBy {α : Type} (le : α → α → Bool) (x : α) : List α → List α
  | [] => [x]
  | y :: ys => if le x y then x :: y :: ys else y :: insertBy le x ys

/-- A stable sort: `sort_by_key`, and the order in which a `BTreeMap` is iterated. -/
def sortBy {α : Type} (le : α → α → Bool) (l : List α) : List α := l.foldr (insertBy le) []

/-! ### The order of types -/

/-- `TraitKind` and `ObjectImpl` in their derived order: uniffi_meta/src/types.rs:32-52. -/
def implKey : Impl → String
  | .struct => "a"
  | .trait .rustOnly => "b"
  | .trait .both => "c"
  | .trait .foreignOnly => "d"

/-- A type as a list of strings whose order is the derived `Ord` of `Type`, types.rs:83-147: the
variant first, then its fields. -/
def tyKey : MTy → List String
  | .uint8 => ["a"]
  | .int8 => ["b"]
  | .uint16 => ["c"]
  | .int16 => ["d"]
  | .uint32 => ["e"]
  | .int32 => ["f"]
  | .uint64 => ["g"]
  | .int64 => ["h"]
  | .float32 => ["i"]
  | .float64 => ["j"]
  | .boolean => ["k"]
  | .string => ["l"]
  | .bytes => ["m"]
  | .timestamp => ["n"]
  | .duration => ["o"]
  | .object m n i => ["p", m, n, implKey i]
  | .record m n => ["q", m, n]
  | .enum m n => ["r", m, n]
  | .callbackInterface m n => ["s", m, n]
  | .box t => "t" :: tyKey t
  | .optional t => "u" :: tyKey t
  | .sequence t => "v" :: tyKey t
  | .map k v => "w" :: (tyKey k ++ tyKey v)
  | .set t => "x" :: tyKey t
  | .custom m n t => "y" :: m :: n :: tyKey t

/-! ### The converter of the pipeline -/

/-- Which of the maps of `UniffiMetaConverter` an item goes to: from_uniffi_meta.rs:18-43. -/
inductive Kind where
  | func | record | enum | custom | object | callback
  | ctor | method | traitMethod | builtin | impl
  deriving DecidableEq, Repr

/-- The keys of these maps, as one: the map, the key of the outer map (crate, and parent for child
items), the key of the inner map (a name, or a type for trait implementations). -/
structure Key where
  kind : Kind
  crate : String
  parent : String
  name : List String
  deriving DecidableEq, Repr

/-- The method that names a built-in trait: from_uniffi_meta.rs:188-194; also
`UniffiTraitMetadata::name` and `self_name`, uniffi_meta/src/lib.rs:478-498. -/
def firstMethod : MUTrait → MMethod
  | .debug f => f
  | .display f => f
  | .eq e _ => e
  | .hash f => f
  | .ord f => f

/-- The type an implementation is for: from_uniffi_meta.rs:205-222. `none` is the error. -/
def implOwner : MTy → Option (String × String)
  | .object m n _ => some (m, n)
  | .record m n => some (m, n)
  | .enum m n => some (m, n)
  | .custom m n _ => some (m, n)
  | .callbackInterface m n => some (m, n)
  | _ => none

/-- Where `add_metadata_item` puts an item: from_uniffi_meta.rs:76-226. `none` for items that go
nowhere or that are refused. -/
def keyOf : Metadata → Option Key
  | .namespace_ .. => none
  | .udlFile .. => none
  | .func f => some ⟨.func, crateName f.modulePath, "", [f.name]⟩
  | .record m n .. => some ⟨.record, crateName m, "", [n]⟩
  | .enum m n .. => some ⟨.enum, crateName m, "", [n]⟩
  | .object m n .. => some ⟨.object, crateName m, "", [n]⟩
  | .callbackInterface m n _ => some ⟨.callback, crateName m, "", [n]⟩
  | .customType m n .. => some ⟨.custom, crateName m, "", [n]⟩
  | .constructor c => some ⟨.ctor, crateName c.modulePath, c.selfName, [c.name]⟩
  | .method m => some ⟨.method, crateName m.fn.modulePath, m.selfName, [m.fn.name]⟩
  | .traitMethod t _ f => some ⟨.traitMethod, crateName f.modulePath, t, [f.name]⟩
  | .uniffiTrait t =>
    some ⟨.builtin, crateName (firstMethod t).fn.modulePath, (firstMethod t).selfName,
      [(firstMethod t).fn.name]⟩
  | .objectTraitImpl t tr =>
    (implOwner t).map fun o => ⟨.impl, crateName o.1, o.2, tyKey tr⟩

/-- `UniffiMetaConverter`: from_uniffi_meta.rs:17-43. `namespaces` keeps the crate of a namespace.
Left out: docstrings of modules, configuration, and `from_unexpected_callback_error_impls`. -/
structure Conv where
  crates : List (String × String) := []
  namespaces : List (String × String) := []
  items : List (Key × Metadata) := []
  origNames : List ((String × String) × String) := []

/-- The name an item gives `update_orig_names`: from_uniffi_meta.rs:95, 102, 109, 116. -/
def origName : Metadata → Option ((String × String) × String)
  | .func f => f.origName.map fun o => ((f.modulePath, f.name), o)
  | .record m n o _ _ => o.map fun o => ((m, n), o)
  | .enum m n o _ _ _ _ _ => o.map fun o => ((m, n), o)
  | .object m n o _ _ => o.map fun o => ((m, n), o)
  | _ => none

/-- `update_orig_names`: from_uniffi_meta.rs:236-243. -/
def noteOrig (m : List ((String × String) × String)) (i : Metadata) :
    List ((String × String) × String) :=
  match origName i with
  | none => m
  | some e => put m e.1 e.2

/-- Adding a custom type: from_uniffi_meta.rs:130-159. -/
def addCustom (items : List (Key × Metadata)) (k : Key) (i : Metadata) :
    Option (List (Key × Metadata)) :=
  match get items k with
  | none => some (items ++ [(k, i)])
  | some old =>
    match old, i with
    | .customType m' _ _ b' d', .customType m _ _ b d =>
      if b' ≠ b ∨ m' ≠ m then none
      else if d.isSome ∧ d'.isNone then some (put items k i)
      else some items
    | _, _ => none

/-- `add_metadata_item`: from_uniffi_meta.rs:76-234. `none` is an error. -/
def addItem (c : Conv) (i : Metadata) : Option Conv :=
  match i with
  | .namespace_ cr n =>
    (insertUnique c.namespaces n cr).map fun ns =>
      { c with crates := put c.crates cr n, namespaces := ns }
  | .udlFile .. => some c
  | .customType m n o b d =>
    (addCustom c.items ⟨.custom, crateName m, "", [n]⟩ (.customType m n o b d)).map fun its =>
      { c with items := its }
  | i =>
    match keyOf i with
    | none => none
    | some k =>
      (insertUnique c.items k i).map fun its =>
        { c with items := its, origNames := noteOrig c.origNames i }

/-- All items: loader.rs:268-274 calls `add_metadata_item` for each. -/
def addItems : Conv → List Metadata → Option Conv
  | c, [] => some c
  | c, i :: is => (addItem c i).bind fun c => addItems c is

/-- The order of keys of one outer map: crate, then parent, then name. -/
def keyLe (a b : Key × Metadata) : Bool :=
  decide (a.1.crate :: a.1.parent :: a.1.name ≤ b.1.crate :: b.1.parent :: b.1.name)

/-- The values of one map, in order. -/
def values (c : Conv) (k : Kind) : List Metadata :=
  (sortBy keyLe (c.items.filter (·.1.kind = k))).map (·.2)

/-- The values of the inner map of a child key. -/
def children (c : Conv) (k : Kind) (crate parent : String) : List Metadata :=
  (sortBy keyLe (c.items.filter fun e => e.1.kind = k ∧ e.1.crate = crate ∧ e.1.parent = parent)).map
    (·.2)

/-- `replace("-", "_")`. -/
def undash (s : String) : String :=
  String.ofList (s.toList.map fun c => if c = '-' then '_' else c)

/-- `get_namespace_name`: context.rs:42-54. `none` is the error. -/
def nsName (c : Conv) (modulePath : String) : Option String :=
  get c.crates (undash (crateName modulePath))

/-- `get_namespace`: from_uniffi_meta.rs:357-375. The name of the namespace. -/
def nsOf (c : Conv) (modulePath : String) : Option String :=
  (nsName c modulePath).bind fun n => (get c.namespaces n).map fun _ => n

/-- `get_orig_name`: context.rs:56-62. -/
def origOf (c : Conv) (modulePath name : String) : String :=
  match get c.origNames (modulePath, name) with
  | some o => o
  | none => name

/-- `Type` of the initial tree: pipeline/initial/nodes.rs:298-360. -/
inductive ITy where
  | uint8 | int8 | uint16 | int16 | uint32 | int32 | uint64 | int64
  | float32 | float64 | boolean | string | bytes | timestamp | duration
  | interface (ns name orig : String) (imp : Impl)
  | record (ns name orig : String)
  | enum (ns name orig : String)
  | callbackInterface (ns name orig : String)
  | optional (inner : ITy)
  | box (inner : ITy)
  | sequence (inner : ITy)
  | set (inner : ITy)
  | map (key value : ITy)
  | custom (ns name orig : String) (builtin : ITy)
  deriving DecidableEq, Repr

/-- `map_type`: types.rs:7-79. -/
def mapTy (c : Conv) : MTy → Option ITy
  | .uint8 => some .uint8
  | .int8 => some .int8
  | .uint16 => some .uint16
  | .int16 => some .int16
  | .uint32 => some .uint32
  | .int32 => some .int32
  | .uint64 => some .uint64
  | .int64 => some .int64
  | .float32 => some .float32
  | .float64 => some .float64
  | .boolean => some .boolean
  | .string => some .string
  | .bytes => some .bytes
  | .timestamp => some .timestamp
  | .duration => some .duration
  | .box t => (mapTy c t).map .box
  | .optional t => (mapTy c t).map .optional
  | .sequence t => (mapTy c t).map .sequence
  | .map k v => (mapTy c k).bind fun k => (mapTy c v).map fun v => .map k v
  | .set t => (mapTy c t).map .set
  | .object m n i => (nsName c m).map fun ns => .interface ns n (origOf c m n) i
  | .record m n => (nsName c m).map fun ns => .record ns n (origOf c m n)
  | .enum m n => (nsName c m).map fun ns => .enum ns n (origOf c m n)
  | .callbackInterface m n => (nsName c m).map fun ns => .callbackInterface ns n (origOf c m n)
  | .custom m n b =>
    (nsName c m).bind fun ns => (mapTy c b).map fun b => .custom ns n (origOf c m n) b

mutual
  /-- The types in a literal. -/
  def litTys : MLit → List MTy
    | .uint _ _ t => [t]
    | .int _ _ t => [t]
    | .float _ t => [t]
    | .optSome d => defTys d
    | _ => []
  /-- The types in a default. -/
  def defTys : MDef → List MTy
    | .default => []
    | .literal l => litTys l
end

/-- The types in an optional default. -/
def optDefTys : Option MDef → List MTy
  | none => []
  | some d => defTys d

/-- The types of arguments. -/
def argTys (as : List MArg) : List MTy := as.flatMap fun a => a.ty :: optDefTys a.default

/-- The types of a function or method. -/
def fnTys (f : MFn) : List MTy := argTys f.inputs ++ f.returnType.toList ++ f.throws.toList

/-- The types of fields. -/
def fieldTys (fs : List MField) : List MTy := fs.flatMap fun f => f.ty :: optDefTys f.default

/-- The types `map_node` maps in one item: the fields of the nodes, pipeline/initial/nodes.rs, and
types.rs:81-168. -/
def itemTys : Metadata → List MTy
  | .func f => fnTys f
  | .constructor c => argTys c.inputs ++ c.throws.toList
  | .method m => fnTys m.fn
  | .traitMethod _ _ f => fnTys f
  | .uniffiTrait (.eq e n) => fnTys e.fn ++ fnTys n.fn
  | .uniffiTrait t => fnTys (firstMethod t).fn
  | .objectTraitImpl t tr => [t, tr]
  | .record _ _ _ fs _ => fieldTys fs
  | .enum _ _ _ _ dt vs _ _ =>
    dt.toList ++ vs.flatMap fun v => (match v.discr with
      | none => []
      | some l => litTys l) ++ fieldTys v.fields
  | .customType _ _ _ b _ => [b]
  | _ => []

/-- `map_node` on an item: it fails if a type cannot be mapped. The node keeps the metadata here: its
types are those `mapTy` gives; the number of a callable is left out. -/
def mapItem (c : Conv) (i : Metadata) : Option Metadata :=
  if (itemTys i).all fun t => (mapTy c t).isSome then some i else none

/-- A type with its members: `TypeDefinition`, nodes.rs:74-80. -/
structure TypeDef where
  item : Metadata
  ctors : List Metadata := []
  methods : List Metadata := []
  builtins : List Metadata := []
  impls : List Metadata := []
  deriving DecidableEq

/-- The position of a trait method. -/
def indexOf : Metadata → Nat
  | .traitMethod _ i _ => i.toNat
  | _ => 0

/-- `methods_for_type`: context.rs:68-93. -/
def methodsFor (c : Conv) (crate name : String) : Option (List Metadata) :=
  let ms := children c .method crate name
  let ts := children c .traitMethod crate name
  if ms ≠ [] then
    if ts ≠ [] then none else ms.mapM (mapItem c)
  else (sortBy (fun a b => decide (indexOf a ≤ indexOf b)) ts).mapM (mapItem c)

/-- `constructors_for_type`, `uniffi_traits_for_type`, `trait_impls_for_type`: context.rs:95-151. -/
def childrenFor (c : Conv) (k : Kind) (crate name : String) : Option (List Metadata) :=
  (children c k crate name).mapM (mapItem c)

/-- `map_record`, `map_enum`, `map_interface`, `map_callback_interface`, `map_custom_type`:
types.rs:81-148. -/
def mapDef (c : Conv) (i : Metadata) : Option TypeDef :=
  match i with
  | .record m n .. | .enum m n .. => do
    let cs ← childrenFor c .ctor (crateName m) n
    let ms ← methodsFor c (crateName m) n
    let ts ← childrenFor c .builtin (crateName m) n
    let i ← mapItem c i
    some { item := i, ctors := cs, methods := ms, builtins := ts }
  | .object m n .. => do
    let cs ← childrenFor c .ctor (crateName m) n
    let ms ← methodsFor c (crateName m) n
    let ts ← childrenFor c .builtin (crateName m) n
    let is ← childrenFor c .impl (crateName m) n
    some { item := i, ctors := cs, methods := ms, builtins := ts, impls := is }
  | .callbackInterface m n _ => do
    let ms ← methodsFor c (crateName m) n
    some { item := i, methods := ms }
  | .customType .. => do
    let i ← mapItem c i
    some { item := i }
  | _ => none

/-- `Namespace`, nodes.rs:27-35. -/
structure Ns where
  name : String
  crate : String
  functions : List Metadata
  types : List TypeDef
  deriving DecidableEq

/-- The crate of an item: the key of the outer map. -/
def itemCrate (i : Metadata) : Option String := (keyOf i).map (·.crate)

/-- The items of one map with the namespaces they are pushed to: the loops of
from_uniffi_meta.rs:302-348. -/
def place {α : Type} (c : Conv) (f : Metadata → Option α) (k : Kind) : Option (List (String × α)) :=
  (values c k).mapM fun i =>
    (itemCrate i).bind fun cr => (nsOf c cr).bind fun ns => (f i).map fun d => (ns, d)

/-- What was pushed to one namespace. -/
def within {α : Type} (n : String) (l : List (String × α)) : List α :=
  (l.filter (·.1 = n)).map (·.2)

/-- `try_into_initial_ir`: from_uniffi_meta.rs:262-350. -/
def toRoot (c : Conv) : Option (List Ns) := do
  let fs ← place c (mapItem c) .func
  let rs ← place c (mapDef c) .record
  let es ← place c (mapDef c) .enum
  let cs ← place c (mapDef c) .custom
  let is ← place c (mapDef c) .object
  let cbs ← place c (mapDef c) .callback
  some ((sortBy (fun a b => decide (a.1 ≤ b.1)) c.namespaces).map fun e =>
    { name := e.1, crate := e.2, functions := within e.1 fs
      types := within e.1 (rs ++ es ++ cs ++ is ++ cbs) })

/-- The whole conversion. -/
def assemble (items : List Metadata) : Option (List Ns) := (addItems {} items).bind toRoot

/-- What stands in the tree for a type of an item. -/
def typeRef (items : List Metadata) (t : MTy) : Option ITy :=
  (addItems {} items).bind fun c => mapTy c t

/-! ### `ComponentInterface` -/

/-- `ComponentInterface`, as far as definitions go: interface/mod.rs:94-117. The set of known types is
left out: the code also refuses items whose types contradict it. -/
structure Ci where
  functions : List Metadata := []
  objects : List TypeDef := []
  records : List TypeDef := []
  enums : List TypeDef := []
  callbacks : List TypeDef := []
  customs : List Metadata := []
  deriving DecidableEq

/-- The exported name of a definition. -/
def defName : Metadata → Option String
  | .func f => some f.name
  | .record _ n .. => some n
  | .enum _ n .. => some n
  | .object _ n .. => some n
  | .callbackInterface _ n _ => some n
  | .customType _ n .. => some n
  | _ => none

/-- `iter_mut().find(|o| o.name == name)` and a change of what is found; `none` if nothing is. -/
def changeFirst (n : String) (f : TypeDef → TypeDef) : List TypeDef → Option (List TypeDef)
  | [] => none
  | o :: os =>
    if defName o.item = some n then some (f o :: os) else (changeFirst n f os).map (o :: ·)

/-- `add_constructor_meta`: interface/mod.rs:1001-1033. -/
def addCtor (ci : Ci) (self : String) (i : Metadata) : Option Ci :=
  let f : TypeDef → TypeDef := fun o => { o with ctors := o.ctors ++ [i] }
  match changeFirst self f ci.objects with
  | some l => some { ci with objects := l }
  | none =>
    match changeFirst self f ci.records with
    | some l => some { ci with records := l }
    | none => (changeFirst self f ci.enums).map fun l => { ci with enums := l }

/-- `add_method_meta`: mod.rs:1035-1069. -/
def addMethod (ci : Ci) (self : String) (i : Metadata) : Option Ci :=
  let f : TypeDef → TypeDef := fun o => { o with methods := o.methods ++ [i] }
  match changeFirst self f ci.objects with
  | some l => some { ci with objects := l }
  | none =>
    match changeFirst self f ci.records with
    | some l => some { ci with records := l }
    | none => (changeFirst self f ci.enums).map fun l => { ci with enums := l }

/-- `add_uniffitrait_meta`: mod.rs:1071-1094. -/
def addBuiltin (ci : Ci) (self : String) (i : Metadata) : Option Ci :=
  let f : TypeDef → TypeDef := fun o => { o with builtins := o.builtins ++ [i] }
  match changeFirst self f ci.objects with
  | some l => some { ci with objects := l }
  | none =>
    match changeFirst self f ci.enums with
    | some l => some { ci with enums := l }
    | none => (changeFirst self f ci.records).map fun l => { ci with records := l }

/-- `add_trait_method_meta`: mod.rs:1133-1166. -/
def addTraitMethod (ci : Ci) (t : String) (index : UInt32) (i : Metadata) : Option Ci :=
  match ci.callbacks.find? fun o => defName o.item = some t with
  | some cbi =>
    if cbi.methods.length ≠ index.toNat then none
    else (changeFirst t (fun o => { o with methods := o.methods ++ [i] }) ci.callbacks).map
      fun l => { ci with callbacks := l }
  | none => addMethod ci t i

/-- `add_object_trait_impl`: mod.rs:1168-1183; `Type::name`, uniffi_meta/src/types.rs:170-179. -/
def addImpl (ci : Ci) (t : MTy) (i : Metadata) : Option Ci :=
  (implOwner t).bind fun o =>
    (changeFirst o.2 (fun o => { o with impls := o.impls ++ [i] }) ci.objects).map fun l =>
      { ci with objects := l }

/-- `add_custom_type_definition`: mod.rs:960-979. -/
def addCustomDef : List Metadata → Metadata → Option (List Metadata)
  | [], i => some [i]
  | old :: l, i =>
    match old, i with
    | .customType m' n' o' b' d', .customType m n _ b d =>
      if n' = n then
        if b' = b ∧ m' = m then
          if d.isSome ∧ d'.isNone then some (.customType m' n' o' b' d :: l) else some (old :: l)
        else none
      else (addCustomDef l i).map (old :: ·)
    | _, _ => none

/-- `add_item_to_ci`: macro_metadata/ci.rs:67-122, with the functions of interface/mod.rs:928-999 and
1096-1131 it calls. `none` is an error or, for a namespace, the panic. -/
def addToCi (ci : Ci) (i : Metadata) : Option Ci :=
  match i with
  | .namespace_ .. => none
  | .udlFile .. => some ci
  | .func f =>
    if ci.functions.any fun g => defName g = some f.name then none
    else some { ci with functions := ci.functions ++ [i] }
  | .record _ n .. =>
    if ci.records.any fun o => defName o.item = some n then none
    else some { ci with records := ci.records ++ [{ item := i }] }
  | .enum _ n .. =>
    if ci.enums.any fun o => defName o.item = some n then none
    else some { ci with enums := ci.enums ++ [{ item := i }] }
  | .object .. => some { ci with objects := ci.objects ++ [{ item := i }] }
  | .callbackInterface .. => some { ci with callbacks := ci.callbacks ++ [{ item := i }] }
  | .customType .. => (addCustomDef ci.customs i).map fun l => { ci with customs := l }
  | .constructor c => addCtor ci c.selfName i
  | .method m => addMethod ci m.selfName i
  | .traitMethod t x _ => addTraitMethod ci t x i
  | .uniffiTrait t => addBuiltin ci (firstMethod t).selfName i
  | .objectTraitImpl t _ => addImpl ci t i

/-- `add_group_to_ci`: ci.rs:38-55. The items come in the order of a `BTreeSet`. -/
def addAllToCi : Ci → List Metadata → Option Ci
  | ci, [] => some ci
  | ci, i :: is => (addToCi ci i).bind fun ci => addAllToCi ci is

end Verif.Gen.Assemble
