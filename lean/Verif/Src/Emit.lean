import Verif.Src.Parse
import Verif.Src.Types
/-
From the items of the sources to the metadata: the `*_metadata` functions of uniffi_parse_rs.
-/
namespace Verif.Src
open Verif.Meta

/-- `uniffi_meta::Metadata` as this crate makes it. `flag` is `takes_self_by_arc` of a method and `remote` of a record,
enum or object; `Verif.Meta.Metadata` leaves them out since the macros always write `false`. -/
inductive Out where
  | data (flag : Bool) (m : Metadata)
  | fromUnexpected (ty : MTy)
  deriving DecidableEq

/-- `iter().map(f).collect::<Result<Vec<_>>>()`. -/
def M.all {α β : Type} (f : α → M β) : List α → M (List β)
  | [] => .pure []
  | a :: as => (f a).bind fun b => (M.all f as).bind fun bs => .pure (b :: bs)

/-! ### Defaults -/

/-- The loop at the start of `create_default_value_metadata`: attrs/defaults.rs:57-60. -/
def baseType : MTy → MTy
  | .custom _ _ t => baseType t
  | t => t

/-- `lit_into_uniffi_meta` for an integer: attrs/defaults.rs:89-103. `base10_parse` is to `i64` or to `u64`. -/
def intDefault (z : Int) (t : MTy) : Res MLit :=
  match t with
  | .int8 | .int16 | .int32 | .int64 =>
    if -2 ^ 63 ≤ z ∧ z < 2 ^ 63 then .ok (.int z .decimal t) else .error .syn
  | .uint8 | .uint16 | .uint32 | .uint64 =>
    if 0 ≤ z ∧ z < 2 ^ 64 then .ok (.uint z.toNat .decimal t) else .error .syn
  | _ => .error .invalidDefault

/-- `create_default_value_metadata` and `lit_into_uniffi_meta`: attrs/defaults.rs:52-116. -/
def createDefault : DefSrc → MTy → Res MDef
  | .default, _ => .ok .default
  | .emptySeq, _ => .ok (.literal .emptySequence)
  | .optNone, _ => .ok (.literal .optNone)
  | .optSome d, ty =>
    match baseType ty with
    | .optional t => do .ok (.literal (.optSome (← createDefault d t)))
    | _ => .error .invalidDefault
  | .int z _, ty => do .ok (.literal (← intDefault z (baseType ty)))
  | .float d _, ty =>
    match baseType ty with
    | .float32 => .ok (.literal (.float d .float32))
    | .float64 => .ok (.literal (.float d .float64))
    | _ => .error .invalidDefault
  | .str s, ty => if baseType ty = .string then .ok (.literal (.string s)) else .error .invalidDefault
  | .bool b, ty => if baseType ty = .boolean then .ok (.literal (.boolean b)) else .error .invalidDefault
  | .otherLiteral, _ => .error .invalidDefault

/-- `DefaultMap::get_uniffi_meta`: attrs/defaults.rs:163-173; records.rs:90-95. -/
def optDefault (d : Option DefSrc) (ty : MTy) : Res (Option MDef) :=
  match d with
  | none => .ok none
  | some d => do .ok (some (← createDefault d ty))

/-! ### Functions -/

/-- `Argument::create_metadata`: functions.rs:120-138. -/
def argMetadata (ir : Ir) (n : Nat) (p : RPath) (defaults : List (Ident × DefSrc)) (self : Option MTy)
    (a : Ident × Ty) : M MArg :=
  (resolveArgType ir n p a.2 self).bind fun r =>
  (M.ofRes (optDefault (defaults.lookup a.1) r.1)).bind fun d =>
  .pure { name := a.1.name, ty := r.1, passBy := r.2, optional := false, default := d }

/-- `_return_type_and_throws`: functions.rs:164-179. -/
def returnMetadata (ir : Ir) (n : Nat) (p : RPath) (output : Option Ty) (self : Option MTy) :
    M (Option MTy × Option MTy) :=
  match output with
  | none => .pure (none, none)
  | some ty => resolveReturn ir n p ty self

/-- `fn_metadata`: functions.rs:52-79. -/
def fnMetadata (ir : Ir) (n : Nat) (item : RPath) (f : PFn) : M Out :=
  (M.ofRes (RPath.parent item)).bind fun p =>
  (M.publicPath ir item).bind fun names =>
  (returnMetadata ir n p f.output none).bind fun ret =>
  (M.all (argMetadata ir n p f.attrs.defaults none) f.args).bind fun args =>
  .pure (.data false (.func {
    modulePath := names.modulePath, name := names.name, origName := names.origName,
    isAsync := f.isAsync, inputs := args, returnType := ret.1, throws := ret.2, checksum := none,
    docstring := f.attrs.docstring }))

/-- `let (name, orig_name) = match &self.attrs.name { .. }`: records.rs:86-89, enums.rs:155-159, objects.rs:109-113,
163-167, traits.rs:151-155. -/
def namePair (attr : Option String) (ident : String) : String × Option String :=
  match attr with
  | none => (ident, none)
  | some n => (n, some ident)

/-- `to_constructor_metadata`: objects.rs:91-132. -/
def consMetadata (ir : Ir) (n : Nat) (p : RPath) (selfName : String) (selfTy : MTy) (f : PFn) : M Out :=
  (returnMetadata ir n p f.output (some selfTy)).bind fun ret =>
  if ret.1 = some selfTy then
    (M.all (argMetadata ir n p f.attrs.defaults none) f.args).bind fun args =>
    .pure (.data false (.constructor {
      modulePath := pathString p, selfName := selfName,
      name := (namePair f.attrs.name f.ident.name).1, origName := (namePair f.attrs.name f.ident.name).2,
      isAsync := f.isAsync, inputs := args, throws := ret.2, checksum := none, docstring := f.attrs.docstring }))
  else .fail .invalidReturnType

/-- What `to_method_metadata` and `to_trait_method_metadata` have in common: objects.rs:152-196, traits.rs:139-185. The
result is `takes_self_by_arc` and the rest. -/
def methodParts (ir : Ir) (n : Nat) (p : RPath) (selfTy : MTy) (m : PMethod) : M (Bool × MFn) :=
  (returnMetadata ir n p m.fn.output (some selfTy)).bind fun ret =>
  (resolveSelf ir n p m.receiver).bind fun arc =>
  (M.all (argMetadata ir n p m.fn.attrs.defaults (some selfTy)) m.fn.args).bind fun args =>
  .pure (arc, {
    modulePath := pathString p, name := (namePair m.fn.attrs.name m.fn.ident.name).1,
    origName := (namePair m.fn.attrs.name m.fn.ident.name).2, isAsync := m.fn.isAsync, inputs := args,
    returnType := ret.1, throws := ret.2, checksum := none, docstring := m.fn.attrs.docstring })

/-- `to_method_metadata`: objects.rs:152-196. -/
def methodMetadata (ir : Ir) (n : Nat) (p : RPath) (selfName : String) (selfTy : MTy) (m : PMethod) : M Out :=
  (methodParts ir n p selfTy m).bind fun r => .pure (.data r.1 (.method ⟨selfName, r.2⟩))

/-- The loop over the methods of a trait: traits.rs:112-117. -/
def traitMethods (ir : Ir) (n : Nat) (p : RPath) (traitName : String) (selfTy : MTy) : Nat → List PMethod → M (List Out)
  | _, [] => .pure []
  | i, m :: ms =>
    (methodParts ir n p selfTy m).bind fun r =>
    (traitMethods ir n p traitName selfTy (i + 1) ms).bind fun rest =>
    .pure (.data r.1 (.traitMethod traitName (UInt32.ofNat i) r.2) :: rest)

/-! ### Types -/

/-- `create_field_metadata`: records.rs:75-104. -/
def fieldMetadata (ir : Ir) (n : Nat) (p : RPath) (f : PField) : M MField :=
  (resolveMeta ir n p f.ty none).bind fun ty =>
  let ident := match f.ident with | some i => i.name | none => ""
  (M.ofRes (optDefault f.attrs.default ty)).bind fun d =>
  .pure {
    name := (namePair f.attrs.name ident).1, origName := (namePair f.attrs.name ident).2, ty := ty, default := d,
    docstring := f.attrs.docstring }

/-- `create_variant_metadata`: enums.rs:148-174. -/
def variantMetadata (ir : Ir) (n : Nat) (p : RPath) (flat : Bool) (v : PVariant) : M MVariant :=
  (if flat then .pure [] else M.all (fieldMetadata ir n p) v.fields).bind fun fs =>
  .pure {
    name := (namePair v.attrs.name v.ident.name).1, origName := (namePair v.attrs.name v.ident.name).2,
    discr := v.discr, fields := fs, docstring := v.attrs.docstring }

/-- A method of a built-in trait: attrs/utraits.rs:67-79 and so on. -/
def utraitMethod (modulePath selfName name : String) (args : List MArg) (ret : MTy) : MMethod :=
  ⟨selfName, {
    modulePath := modulePath, name := name, origName := none, isAsync := false, inputs := args,
    returnType := some ret, throws := none, checksum := none, docstring := none }⟩

/-- `uniffi_trait_method_metadata`: attrs/utraits.rs:52-183. `selfName` is the name of `selfTy`, which is a record, an
enum or an object. -/
def utraitMetadata (t : UTraits) (p : RPath) (selfName : String) (selfTy : MTy) : List Out :=
  let mp := pathString p
  let other : MArg := { name := "other", ty := selfTy, passBy := .ref, optional := false, default := none }
  let out (t : MUTrait) : List Out := [.data false (.uniffiTrait t)]
  (if t.debug then out (.debug (utraitMethod mp selfName "uniffi_trait_debug" [] .string)) else []) ++
  (if t.display then out (.display (utraitMethod mp selfName "uniffi_trait_display" [] .string)) else []) ++
  (if t.eq then out (.eq (utraitMethod mp selfName "uniffi_trait_eq_eq" [other] .boolean)
    (utraitMethod mp selfName "uniffi_trait_eq_ne" [other] .boolean)) else []) ++
  (if t.hash then out (.hash (utraitMethod mp selfName "uniffi_trait_hash" [] .uint64)) else []) ++
  (if t.ord then out (.ord (utraitMethod mp selfName "uniffi_trait_ord_cmp" [other] .int8)) else [])

/-- `record_metadata` with the arm of `create_metadata`: records.rs:44-63, modules.rs:226-242. -/
def recordMetadata (ir : Ir) (n : Nat) (p item : RPath) (a : TypeAttrs) (fields : List PField) : M (List Out) :=
  (M.publicPath ir item).bind fun names =>
  (M.all (fun f => (M.ofRes (RPath.parent item)).bind fun q => fieldMetadata ir n q f) fields).bind fun fs =>
  .pure (utraitMetadata a.utraits p names.name (.record names.modulePath names.name) ++
    [.data a.remote (.record names.modulePath names.name names.origName fs a.docstring)])

/-- `enum_metadata` with the arm of `create_metadata`: enums.rs:49-73, modules.rs:243-259. -/
def enumMetadata (ir : Ir) (n : Nat) (p item : RPath) (a : EnumAttrs) (variants : List PVariant) : M (List Out) :=
  (M.ofRes (RPath.parent item)).bind fun q =>
  (M.publicPath ir item).bind fun names =>
  (M.all (variantMetadata ir n q (a.shape == .error true)) variants).bind fun vs =>
  .pure (utraitMetadata a.utraits p names.name (.enum names.modulePath names.name) ++
    [.data a.remote (.enum names.modulePath names.name names.origName a.shape a.discrType vs a.nonExhaustive a.docstring)])

/-- `obj_metadata` with the arm of `create_metadata`: objects.rs:57-72, modules.rs:260-277. -/
def objectMetadata (ir : Ir) (p item : RPath) (a : TypeAttrs) : M (List Out) :=
  (M.publicPath ir item).bind fun names =>
  .pure (utraitMetadata a.utraits p names.name (.object names.modulePath names.name .struct) ++
    [.data a.remote (.object names.modulePath names.name names.origName .struct a.docstring)])

/-- `trait_metadata`: traits.rs:68-119. -/
def traitMetadata (ir : Ir) (n : Nat) (item : RPath) (exportTy : ExportTy) (docstring : Option String)
    (methods : List PMethod) : M (List Out) :=
  (M.ofRes (RPath.parent item)).bind fun p =>
  (M.publicPath ir item).bind fun names =>
  let head : Metadata := match exportTy with
    | .traitInterface kind => .object names.modulePath names.name names.origName (.trait kind) docstring
    | .callbackInterface => .callbackInterface names.modulePath names.name docstring
  (traitMethods ir n p names.name (traitMeta names.modulePath names.name exportTy) 0 methods).bind fun ms =>
  .pure (.data false head :: ms)

/-- `impl_metadata`: impls.rs:44-76. -/
def implMetadata (ir : Ir) (n : Nat) (p : RPath) (name : Option String) (self : Ty) (cs : List PFn) (ms : List PMethod) :
    M (List Out) :=
  (resolveMeta ir n p self none).bind fun selfTy =>
  (M.ofRes (match name, udlName selfTy with
    | some s, _ => .ok s
    | none, some s => .ok s
    | none, none => .error .invalidSelfType)).bind fun selfName =>
  (M.all (consMetadata ir n p selfName selfTy) cs).bind fun cs =>
  (M.all (methodMetadata ir n p selfName selfTy) ms).bind fun ms =>
  .pure (cs ++ ms)

/-- `custom_type_metadata`: custom_types.rs:17-35. -/
def customMetadata (ir : Ir) (n : Nat) (item : RPath) (docstring : Option String) (builtin : Ty) : M Out :=
  (M.ofRes (RPath.parent item)).bind fun p =>
  (resolveMeta ir n p builtin none).bind fun b =>
  (M.publicPath ir item).bind fun names =>
  .pure (.data false (.customType names.modulePath names.name names.origName b docstring))

/-- `resolve_from_impl`: trait_impls.rs:38-53. -/
def fromImpl (ir : Ir) (n : Nat) (p : RPath) (args : List Ty) (self : Ty) : M (Option MTy) :=
  (resolve1 (resolveTy ir n) p [] id args).bind fun t =>
  if t = .unexpectedCallbackError then (resolveMeta ir n p self none).bind fun ty => .pure (some ty)
  else .pure none

/-- `resolve_trait_impl`: trait_impls.rs:16-36. -/
def traitImpl (ir : Ir) (n : Nat) (p : RPath) (trait : Option (Path × List Ty)) (self : Ty) : M (Option MTy) :=
  match trait with
  | none => .pure none
  | some (path, args) => fun c =>
    match M.resolve ir p path c with
    | (.ok q, c) =>
      match q.getLast? with
      | some (.builtin .from_) => fromImpl ir n p args self c
      | some _ => (.ok none, c)
      | none => (.error .internal, c)
    | (.error _, c) => (.ok none, c)

/-- `if let Ok(Some(..)) = module_path.resolve_trait_impl(..)`: modules.rs:302-311. -/
def unresolvedMetadata (ir : Ir) (n : Nat) (p : RPath) (trait : Option (Path × List Ty)) (self : Ty) : M (List Out) :=
  fun c =>
    match traitImpl ir n p trait self c with
    | (.ok (some ty), c) => (.ok [.fromUnexpected ty], c)
    | (_, c) => (.ok [], c)

/-! ### Modules -/

mutual
/-- What lookups see of an item. -/
def PItem.erase : PItem → Item
  | .module id ident vis items => .module id ident vis (eraseAll items)
  | .fn id vis f => .decl id .fn f.ident vis f.attrs.name false
  | .record id a vis ident _ => .decl id .record ident vis a.name a.remote
  | .enum id a vis ident _ => .decl id .enum ident vis a.name a.remote
  | .object id a vis ident => .decl id .object ident vis a.name a.remote
  | .trait id exportTy a vis ident _ => .decl id (.trait exportTy) ident vis a.name false
  | .impl id _ _ _ _ => .other id
  | .unresolvedImpl id _ _ => .other id
  | .custom id _ ident builtin => .decl id (.custom builtin) ident .pub none false
  | .plain i => i
def eraseAll : List PItem → List Item
  | [] => []
  | i :: is => i.erase :: eraseAll is
end

/-- The program as lookups see it after `resolve_items`. -/
def eraseCrates (cs : List (Ident × PItem)) : Ir := ⟨cs.map fun c => (c.1, c.2.erase)⟩

mutual
/-- One round of the loop of `create_metadata`: modules.rs:218-314. The metadata is put into a set; here it is in the
order in which it is made. -/
def emitItem (ir : Ir) (n : Nat) (p : RPath) (i : PItem) : M (List Out) :=
  match i with
  | .module id ident vis items => emitItems ir n (p ++ [.module id ident vis (eraseAll items)]) items
  | .fn id vis f => (fnMetadata ir n (p ++ [(PItem.fn id vis f).erase]) f).bind fun o => .pure [o]
  | .record id a vis ident fields => recordMetadata ir n p (p ++ [(PItem.record id a vis ident fields).erase]) a fields
  | .enum id a vis ident variants => enumMetadata ir n p (p ++ [(PItem.enum id a vis ident variants).erase]) a variants
  | .object id a vis ident => objectMetadata ir p (p ++ [(PItem.object id a vis ident).erase]) a
  | .trait id t a vis ident methods =>
    traitMetadata ir n (p ++ [(PItem.trait id t a vis ident methods).erase]) t a.docstring methods
  | .impl _ name self cs ms => implMetadata ir n p name self cs ms
  | .unresolvedImpl _ trait self => unresolvedMetadata ir n p trait self
  | .custom id doc ident builtin =>
    (customMetadata ir n (p ++ [(PItem.custom id doc ident builtin).erase]) doc builtin).bind fun o => .pure [o]
  | .plain _ => .pure []
/-- The loop of `create_metadata`: modules.rs:211-317. The metadata from UDL, which is copied, is left out. -/
def emitItems (ir : Ir) (n : Nat) (p : RPath) (is : List PItem) : M (List Out) :=
  match is with
  | [] => .pure []
  | i :: is => (emitItem ir n p i).bind fun a => (emitItems ir n p is).bind fun b => .pure (a ++ b)
end

/-- `into_metadata_group_map`: ir.rs:153-169. The root module is its own path; the groups are in the order in which they
are made. Documentation of crates is left out. -/
def emitCrates (ir : Ir) (n : Nat) : List (Ident × PItem) → M (List (String × List Out))
  | [] => .pure []
  | (_, .module id ident vis items) :: cs =>
    (emitItems ir n [.module id ident vis (eraseAll items)] items).bind fun os =>
    (emitCrates ir n cs).bind fun rest => .pure ((ident.name, os) :: rest)
  | _ :: cs => emitCrates ir n cs

/-- `into_uniffi_meta`: lib.rs:96-103. The outer result is that of `resolve_items`. -/
def metadataOf (n : Nat) (cs : List (SCrate Meta)) : SynRes (Res (List (String × List Out))) := do
  let items ← read cs
  .ok (emitCrates (eraseCrates items) n items {}).1

end Verif.Src
