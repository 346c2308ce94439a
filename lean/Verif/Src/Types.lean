import Verif.Src.PublicSpec
/-
What the types in signatures mean: uniffi_parse_rs/src/types.rs.
-/
namespace Verif.Src
open Verif.Meta

/-- `Type`: types.rs:38-102. -/
inductive STy where
  | unit | uint8 | int8 | uint16 | int16 | uint32 | int32 | uint64 | int64 | float32 | float64
  | boolean | string | str | systemTime | duration
  | record (modulePath name : String)
  | enum (modulePath name : String)
  | object (modulePath name : String)
  | trait (modulePath name : String) (exportTy : ExportTy)
  | option (t : STy)
  | vec (t : STy)
  | arc (t : STy)
  | box (t : STy)
  | slice (t : STy)
  | hashMap (key value : STy)
  | hashSet (t : STy)
  | result (ok err : STy)
  | custom (modulePath name : String) (builtin : STy)
  | ref (mutable : Bool) (t : STy)
  | selfTy
  | unexpectedCallbackError
  | udl (t : MTy)
  deriving DecidableEq, Repr

/-! ### Conversion to the types of the metadata -/

/-- `trait_to_uniffi_meta`: types.rs:210-225. -/
def traitMeta (modulePath name : String) : ExportTy → MTy
  | .traitInterface kind => .object modulePath name (.trait kind)
  | .callbackInterface => .callbackInterface modulePath name

/-- The `Self` arms: types.rs:161-167, 196-202. -/
def selfMeta : Option MTy → Res MTy
  | some t => .ok t
  | none => .error .invalidType

/-- `try_into_uniffi_meta`: types.rs:109-207. -/
def STy.toMeta (self : Option MTy) : STy → Res MTy
  | .uint8 => .ok .uint8 | .int8 => .ok .int8 | .uint16 => .ok .uint16 | .int16 => .ok .int16
  | .uint32 => .ok .uint32 | .int32 => .ok .int32 | .uint64 => .ok .uint64 | .int64 => .ok .int64
  | .float32 => .ok .float32 | .float64 => .ok .float64 | .boolean => .ok .boolean | .string => .ok .string
  | .systemTime => .ok .timestamp | .duration => .ok .duration
  | .record m n => .ok (.record m n)
  | .enum m n => .ok (.enum m n)
  | .option t => do .ok (.optional (← t.toMeta self))
  | .vec .uint8 => .ok .bytes
  | .vec t => do .ok (.sequence (← t.toMeta self))
  | .hashMap k v => do .ok (.map (← k.toMeta self) (← v.toMeta self))
  | .hashSet t => do .ok (.set (← t.toMeta self))
  | .object m n => .ok (.object m n .struct)
  | .arc (.object m n) => .ok (.object m n .struct)
  | .arc (.trait m n (.traitInterface kind)) => .ok (traitMeta m n (.traitInterface kind))
  | .arc .selfTy => selfMeta self
  | .arc (.udl t) => .ok t
  | .arc _ => .error .invalidType
  | .box (.trait m n .callbackInterface) => .ok (.callbackInterface m n)
  | .box (.udl (.callbackInterface m n)) => .ok (.callbackInterface m n)
  | .box t => do .ok (.box (← t.toMeta self))
  | .custom m n t => do .ok (.custom m n (← t.toMeta self))
  | .selfTy => selfMeta self
  | .udl t => .ok t
  | .unit | .str | .trait _ _ _ | .slice _ | .result _ _ | .ref _ _ | .unexpectedCallbackError =>
    .error .invalidType

/-! ### Resolving -/

/-- A computation that may fail and uses the caches. -/
abbrev M (α : Type) := FullCache → Res α × FullCache

def M.pure {α : Type} (a : α) : M α := fun c => (.ok a, c)
def M.fail {α : Type} (e : Err) : M α := fun c => (.error e, c)
/-- The operator `?`. -/
def M.bind {α β : Type} (m : M α) (f : α → M β) : M β := fun c =>
  match m c with
  | (.ok a, c) => f a c
  | (.error e, c) => (.error e, c)

/-- `RPath::resolve` for a type. -/
def M.resolve (ir : Ir) (p : RPath) (path : Path) : M RPath := fun c =>
  ((resolveTop ir p path .type c.lookups).1, { c with lookups := (resolveTop ir p path .type c.lookups).2 })

/-- `public_path_to_item`. -/
def M.publicPath (ir : Ir) (p : RPath) : M ItemNames := publicPathTop ir p

/-- `ResolveTypeContext::generic_params`: types.rs:575. -/
abbrev Env := List (Ident × STy)

/-- The function `_resolve_type`, as an argument of the functions it calls: the place, the type,
`paths_seen` and `generic_params`. -/
abbrev Rec := RPath → Ty → List String → Env → M STy

/-- `GenericArgs::resolve_arg`: types.rs:722-757. A path followed by `<>` is taken as one without. -/
def resolveArg (rec : Rec) (p : RPath) (params : Env) (arg : Ty) : M STy :=
  match arg with
  | .path ⟨false, [ident]⟩ [] =>
    match params.lookup ident with
    | some t => .pure t
    | none => rec p arg [] []
  | _ => rec p arg [] []

/-- The loop of `resolve_generic_params`: types.rs:697-718. The result is a map; names of parameters are
different. -/
def resolveParams (rec : Rec) (generic p : RPath) (params : Env) : List (Ident × Option Ty) → List Ty → M Env
  | [], _ => .pure []
  | (ident, _) :: ps, arg :: args =>
    (resolveArg rec p params arg).bind fun t =>
    (resolveParams rec generic p params ps args).bind fun ts => .pure ((ident, t) :: ts)
  | (ident, some default) :: ps, [] =>
    (rec generic default [] []).bind fun t =>
    (resolveParams rec generic p params ps []).bind fun ts => .pure ((ident, t) :: ts)
  | (_, none) :: _, [] => .fail .missingGenericArg

/-- `resolve_generic_params`: types.rs:671-720. -/
def resolveGenerics (rec : Rec) (generic p : RPath) (params : Env) (ps : List (Ident × Option Ty)) (args : List Ty) :
    M Env :=
  if args.length > ps.length then .fail .tooManyGenericArgs else resolveParams rec generic p params ps args

/-- `resolve1`: types.rs:625-633. -/
def resolve1 (rec : Rec) (p : RPath) (params : Env) (f : STy → STy) : List Ty → M STy
  | [arg] => (resolveArg rec p params arg).bind fun t => .pure (f t)
  | _ => .fail .invalidGenericArgLength

/-- `resolve2`: types.rs:635-646. -/
def resolve2 (rec : Rec) (p : RPath) (params : Env) (f : STy → STy → STy) : List Ty → M STy
  | [arg1, arg2] =>
    (resolveArg rec p params arg1).bind fun t1 =>
    (resolveArg rec p params arg2).bind fun t2 => .pure (f t1 t2)
  | _ => .fail .invalidGenericArgLength

/-- `check_empty`: types.rs:618-623. -/
def checkEmpty {α : Type} (args : List Ty) (m : M α) : M α :=
  if args.isEmpty then m else .fail .invalidGenericArg

/-- The builtin types: types.rs:434-487, with `has_generic_args`, items.rs:80-91. -/
def resolveBuiltin (rec : Rec) (p : RPath) (params : Env) (args : List Ty) : Builtin → M STy
  | .unitType => checkEmpty args (.pure .unit)
  | .boolean => checkEmpty args (.pure .boolean)
  | .string => checkEmpty args (.pure .string)
  | .str => checkEmpty args (.pure .str)
  | .uint8 => checkEmpty args (.pure .uint8)
  | .int8 => checkEmpty args (.pure .int8)
  | .uint16 => checkEmpty args (.pure .uint16)
  | .int16 => checkEmpty args (.pure .int16)
  | .uint32 => checkEmpty args (.pure .uint32)
  | .int32 => checkEmpty args (.pure .int32)
  | .uint64 => checkEmpty args (.pure .uint64)
  | .int64 => checkEmpty args (.pure .int64)
  | .float32 => checkEmpty args (.pure .float32)
  | .float64 => checkEmpty args (.pure .float64)
  | .systemTime => checkEmpty args (.pure .systemTime)
  | .duration => checkEmpty args (.pure .duration)
  | .unexpectedUniFFICallbackError => checkEmpty args (.pure .unexpectedCallbackError)
  | .option => resolve1 rec p params .option args
  | .vec => resolve1 rec p params .vec args
  | .arc => resolve1 rec p params .arc args
  | .box => resolve1 rec p params .box args
  | .hashMap => resolve2 rec p params .hashMap args
  | .hashSet => resolve1 rec p params .hashSet args
  | .result => resolve2 rec p params .result args
  | .from_ | .uniffiMacro _ | .uniffiDerive _ => checkEmpty args (.fail .invalidType)

/-- The item that a path in a type denotes: types.rs:386-505. The place of a type is a module, hence
`file_id` does not panic. -/
def resolveItem (ir : Ir) (rec : Rec) (p : RPath) (args : List Ty) (seen : List String) (params : Env) (q : RPath) :
    M STy :=
  match q.getLast? with
  | none => .fail .internal
  | some (.decl _ .record _ _ _ _) =>
    checkEmpty args ((M.publicPath ir q).bind fun n => .pure (.record n.modulePath n.name))
  | some (.decl _ .enum _ _ _ _) =>
    checkEmpty args ((M.publicPath ir q).bind fun n => .pure (.enum n.modulePath n.name))
  | some (.decl _ .object _ _ _ _) =>
    checkEmpty args ((M.publicPath ir q).bind fun n => .pure (.object n.modulePath n.name))
  | some (.decl _ (.alias ps target) _ _ _ _) =>
    if pathString q ∈ seen then .fail .cycleDetected
    else
      match RPath.parent q with
      | .error e => .fail e
      | .ok generic =>
        (resolveGenerics rec generic p params ps args).bind fun env =>
          rec generic target (pathString q :: seen) env
  | some (.builtin b) => resolveBuiltin rec p params args b
  | some (.decl _ (.trait _) _ _ _ _) => .fail .traitWithoutDyn
  | some (.decl _ (.custom builtin) ident _ _ _) =>
    match RPath.parent q with
    | .error e => .fail e
    | .ok mpath => (rec mpath builtin seen []).bind fun t => .pure (.custom (pathString mpath) ident.name t)
  | some (.udl _ t) => .pure (.udl t)
  | some _ => .fail .invalidType

/-- The trait of a `dyn` type: types.rs:520-560. -/
def resolveDyn (p q : RPath) : M STy :=
  match q.getLast? with
  | none => .fail .internal
  | some (.decl _ (.trait exportTy) ident _ _ _) => .pure (.trait (pathString p) ident.name exportTy)
  | some (.udl _ (.object m n (.trait kind))) => .pure (.trait m n (.traitInterface kind))
  | some (.udl _ (.callbackInterface m n)) => .pure (.trait m n .callbackInterface)
  | some _ => .fail .expectedTrait

/-- `_resolve_type`: types.rs:347-565. The first argument bounds the depth of the recursion. -/
def resolveTy (ir : Ir) : Nat → Rec
  | 0, _, _, _, _ => .fail .fuel
  | n + 1, p, ty, seen, params =>
    match ty with
    | .reference mutable t => (resolveTy ir n p t seen params).bind fun t => .pure (.ref mutable t)
    | .unit => .pure .unit
    | .slice t => (resolveTy ir n p t seen params).bind fun t => .pure (.slice t)
    | .path path args =>
      if path = ⟨false, [⟨false, "Self"⟩]⟩ ∧ args = [] then .pure .selfTy
      else (M.resolve ir p path).bind fun q => resolveItem ir (resolveTy ir n) p args seen params q
    | .dyn [path] => (M.resolve ir p path).bind fun q => resolveDyn p q
    | .dyn _ => .fail .invalidDynTrait
    | .other => .fail .invalidType

/-- `resolve_type`: types.rs:240-248. -/
def resolveType (ir : Ir) (n : Nat) (p : RPath) (ty : Ty) : M STy := resolveTy ir n p ty [] []

/-! ### Arguments and results -/

def M.ofRes {α : Type} (r : Res α) : M α := fun c => (r, c)

/-- `resolve_uniffi_meta_type`: types.rs:229-238. -/
def resolveMeta (ir : Ir) (n : Nat) (p : RPath) (ty : Ty) (self : Option MTy) : M MTy :=
  (resolveType ir n p ty).bind fun t => .ofRes (t.toMeta self)

/-- `RPath::resolve_arg` after the type is resolved: types.rs:257-297. -/
def argMeta (self : Option MTy) : STy → Res (MTy × PassBy)
  | .ref _ .str => .ok (.string, .ref)
  | .ref _ (.trait m n exportTy) => .ok (traitMeta m n exportTy, .ref)
  | .ref mutable (.slice t) => do
    let ty ← (STy.vec t).toMeta self
    .ok (ty, if mutable && ty == .bytes then .mutRef else .ref)
  | .ref _ t => do .ok (← t.toMeta self, .ref)
  | t => do .ok (← t.toMeta self, .value)

/-- `RPath::resolve_arg`: types.rs:250-298. -/
def resolveArgType (ir : Ir) (n : Nat) (p : RPath) (ty : Ty) (self : Option MTy) : M (MTy × PassBy) :=
  (resolveType ir n p ty).bind fun t => .ofRes (argMeta self t)

/-- `resolve_return_type` after the type is resolved: types.rs:307-327. The result type and the error type. -/
def returnMeta (self : Option MTy) : STy → Res (Option MTy × Option MTy)
  | .unit => .ok (none, none)
  | .result .unit e => do .ok (none, some (← e.toMeta self))
  | .result t e => do
    let ok ← t.toMeta self
    .ok (some ok, some (← e.toMeta self))
  | .ref _ _ => .error .invalidReturnType
  | t => do .ok (some (← t.toMeta self), none)

/-- `resolve_return_type`: types.rs:300-328. -/
def resolveReturn (ir : Ir) (n : Nat) (p : RPath) (ty : Ty) (self : Option MTy) : M (Option MTy × Option MTy) :=
  (resolveType ir n p ty).bind fun t => .ofRes (returnMeta self t)

/-- `resolve_self_type` after the type is resolved: types.rs:336-344. The result is `takes_self_by_arc`. -/
def selfByArc : STy → Res Bool
  | .ref false .selfTy => .ok false
  | .arc .selfTy => .ok true
  | _ => .error .invalidSelfType

/-- `resolve_self_type`: types.rs:330-345. -/
def resolveSelf (ir : Ir) (n : Nat) (p : RPath) (ty : Ty) : M Bool :=
  (resolveType ir n p ty).bind fun t => .ofRes (selfByArc t)

end Verif.Src
