import Verif.Meta.Buffer
import Verif.Meta.Types
/-
The `MetadataBuffer` expressions the macros generate.
`none` is a compile error reported by the macro.
-/
namespace Verif.Meta
open Verif
open Op (value)

/-- uniffi_macros/src/export/trait_interface.rs:218-222. -/
def TraitKind.code : TraitKind → UInt8
  | .rustOnly => Core.kRustOnly
  | .both => Core.kBoth
  | .foreignOnly => Core.kForeignOnly

/-- `TYPE_ID_META`: uniffi_core/src/ffi_converter_impls.rs:65, 109, 166, 216, 241, 290, 324, 379, 434,
523; ffi/foreignbytes.rs:98, 207; uniffi_macros/src/record.rs:131-133, enum_.rs:265-267,
error.rs:164-166, object.rs:227-229, custom.rs:268-271, export/trait_interface.rs:260-263,
export/callback_interface.rs:188-192. -/
def RTy.typeId : RTy → List Op
  | .u8 => [value Core.tU8]
  | .i8 => [value Core.tI8]
  | .u16 => [value Core.tU16]
  | .i16 => [value Core.tI16]
  | .u32 => [value Core.tU32]
  | .i32 => [value Core.tI32]
  | .u64 => [value Core.tU64]
  | .i64 => [value Core.tI64]
  | .f32 => [value Core.tF32]
  | .f64 => [value Core.tF64]
  | .bool => [value Core.tBool]
  | .string => [value Core.tString]
  | .systemTime => [value Core.tSystemTime]
  | .duration => [value Core.tDuration]
  | .byteSlice => [value Core.tVec, .buf [value Core.tU8]]
  | .object m n => [value Core.tInterface, .str m, .str n]
  | .traitObject m n k => [value Core.tTraitInterface, .str m, .str n, value k.code]
  | .callbackInterface m n => [value Core.tCallbackInterface, .str m, .str n]
  | .record m n => [value Core.tRecord, .str m, .str n]
  | .enum m n => [value Core.tEnum, .str m, .str n]
  | .custom m n t => [value Core.tCustom, .str m, .str n, .buf t.typeId]
  | .option t => [value Core.tOption, .buf t.typeId]
  | .box t => [value Core.tBox, .buf t.typeId]
  | .vec t => [value Core.tVec, .buf t.typeId]
  | .hashMap k v => [value Core.tHashMap, .buf k.typeId, .buf v.typeId]
  | .hashSet t => [value Core.tHashSet, .buf t.typeId]

/-- `()` or a type: ffi_converter_impls.rs:560. -/
def optTypeId : Option RTy → List Op
  | none => [value Core.tUnit]
  | some t => t.typeId

/-- Return types; ffi_converter_impls.rs:635-643 for `Result`. -/
def RetSrc.typeId : RetSrc → List Op
  | .plain t => optTypeId t
  | .result t e => [value Core.tResult, .buf (optTypeId t), .buf (optTypeId e)]

/-- `base10_digits` of an integer literal, with the sign: default.rs:85, enum_.rs:340-344. -/
def intDigits (z : Int) : String :=
  String.ofList (if z < 0 then '-' :: Nat.toDigits 10 z.natAbs else Nat.toDigits 10 z.natAbs)

/-- `DefaultValue::metadata_calls`: default.rs:71-135. -/
def DefSrc.calls : DefSrc → Option (List Op)
  | .int _ true => none
  | .float _ true => none
  | .str s => some [value Core.dLiteral, value Core.lStr, .str s]
  | .int z false => some [value Core.dLiteral, value Core.lInt, .str (intDigits z)]
  | .float d false => some [value Core.dLiteral, value Core.lFloat, .str d]
  | .bool b => some [value Core.dLiteral, value Core.lBool, .bool b]
  | .otherLiteral => none
  | .emptySeq => some [value Core.dLiteral, value Core.lEmptySeq]
  | .optNone => some [value Core.dLiteral, value Core.lNone]
  | .optSome d => d.calls.map fun c => [value Core.dLiteral, value Core.lSome] ++ c
  | .default => some [value Core.dDefault]

/-- `default_value_metadata_calls`: default.rs:138-149. -/
def defaultCalls : Option DefSrc → Option (List Op)
  | none => some [.bool false]
  | some d => d.calls.map fun c => .bool true :: c

/-- `orig_name_metadata`: uniffi_macros/src/util.rs:139-151. -/
def origCalls : Option String → List Op
  | none => [.bool false]
  | some s => [.bool true, .str s]

/-- `try_metadata_value_from_usize`: util.rs:153-157. -/
def lenValue (n : Nat) : Option UInt8 := if n < 256 then some (UInt8.ofNat n) else none

/-- The calls for a list, or the first error. -/
def callsOf {α : Type} (f : α → Option (List Op)) : List α → Option (List Op)
  | [] => some []
  | a :: as => (f a).bind fun x => (callsOf f as).map fun y => x ++ y

/-- `NamedArg::arg_metadata`: uniffi_macros/src/fnsig.rs:571-586. -/
def ArgSrc.calls (a : ArgSrc) : Option (List Op) :=
  (defaultCalls a.default).map fun d =>
    [.str a.name, .buf a.ty.typeId, .bool (a.passBy != .value), .bool (a.passBy == .mutRef)] ++ d

/-- `FnSignature::metadata_expr`: fnsig.rs:295-385. -/
def FnSrc.calls (f : FnSrc) : Option (List Op) :=
  (lenValue f.args.length).bind fun n =>
  (callsOf ArgSrc.calls f.args).map fun args =>
    let tail : List Op := .str f.name :: origCalls f.origName ++ [.bool f.isAsync, value n] ++ args
      ++ [.buf f.ret.typeId, .longStr f.docstring]
    match f.kind with
    | .function => [value Core.func, .str f.modulePath] ++ tail
    | .method s => [value Core.method, .str f.modulePath, .str s] ++ tail
    | .traitMethod s i => [value Core.traitMethod, .str f.modulePath, .str s, .u32 i] ++ tail
    | .constructor s => [value Core.constructor, .str f.modulePath, .str s] ++ tail

/-- The fields of `record_meta_static_var`: uniffi_macros/src/record.rs:200-231; the same calls for
the fields of a variant: enum_.rs:364-391. -/
def FieldSrc.calls (f : FieldSrc) : Option (List Op) :=
  (defaultCalls f.default).map fun d =>
    [.str f.name] ++ origCalls f.origName ++ [.buf f.ty.typeId] ++ d ++ [.longStr f.docstring]

/-- `variant_value`: enum_.rs:303-351. Discriminants that are not integer literals are not
modelled; a suffix is dropped, so it needs no model. -/
def discrCalls : Option Int → List Op
  | none => [.bool false]
  | some z => [.bool true, value Core.lInt, .str (intDigits z)]

/-- One variant of `variant_metadata`: enum_.rs:358-410. -/
def VariantSrc.calls (v : VariantSrc) : Option (List Op) :=
  (lenValue v.fields.length).bind fun n =>
  (callsOf FieldSrc.calls v.fields).map fun fields =>
    [.str v.name] ++ origCalls v.origName ++ discrCalls v.discr ++ [value n] ++ fields
      ++ [.longStr v.docstring]

/-- One variant of `flat_error_variant_metadata`: error.rs:205-216. -/
def VariantSrc.flatCalls (v : VariantSrc) : Option (List Op) :=
  some ([.str v.name] ++ origCalls v.origName ++ [.longStr v.docstring])

/-- `variant_metadata` and `flat_error_variant_metadata`: enum_.rs:353-412, error.rs:200-218. -/
def variantsCalls (calls : VariantSrc → Option (List Op)) (vs : List VariantSrc) :
    Option (List Op) :=
  (lenValue vs.length).bind fun n => (callsOf calls vs).map fun c => value n :: c

/-- `EnumShape::as_u8`: uniffi_meta/src/lib.rs:360-366. -/
def Shape.code : Shape → UInt8
  | .enum => 0
  | .error false => 1
  | .error true => 2

/-- enum_.rs:289-295. -/
def discrTypeCalls : Option RTy → List Op
  | none => [.bool false]
  | some t => [.bool true, .buf t.typeId]

/-- `UniffiTraitDiscriminants`: lib.rs:500-509. -/
def UTraitSrc.code : UTraitSrc → UInt8
  | .debug _ => 0
  | .display _ => 1
  | .eq .. => 2
  | .hash _ => 3
  | .ord _ => 4

/-- The methods packed in the metadata of a built-in trait, in order. -/
def UTraitSrc.methods : UTraitSrc → List FnSrc
  | .debug f => [f]
  | .display f => [f]
  | .eq e n => [e, n]
  | .hash f => [f]
  | .ord f => [f]

/-- The `MetadataBuffer` expression of an item. -/
def Item.calls : Item → Option (List Op)
  -- uniffi_macros/src/setup_scaffolding.rs:53-56
  | .namespace_ c n => some [value Core.namespace_, .str c, .str n]
  -- uniffi_bindgen/src/scaffolding/templates/UdlMetadata.rs:6-9
  | .udlFile m n s => some [value Core.udlFile, .str m, .str n, .str s]
  | .fn f => f.calls
  -- record.rs:233-245
  | .record m n o fields d =>
    (lenValue fields.length).bind fun len =>
    (callsOf FieldSrc.calls fields).map fun c =>
      [value Core.record, .str m, .str n] ++ origCalls o ++ [value len] ++ c ++ [.longStr d]
  -- enum_.rs:274-301
  | .enum m n o dt vs ne d =>
    (variantsCalls VariantSrc.calls vs).map fun c =>
      [value Core.enum, .str m, .str n] ++ origCalls o ++ [value Shape.enum.code]
        ++ discrTypeCalls dt ++ c ++ [.bool ne, .longStr d]
  -- error.rs:173-198
  | .error m n o flat vs ne d =>
    (variantsCalls (if flat then VariantSrc.flatCalls else VariantSrc.calls) vs).map fun c =>
      [value Core.enum, .str m, .str n] ++ origCalls o ++ [value (Shape.error flat).code, .bool false]
        ++ c ++ [.bool ne, .longStr d]
  -- object.rs:256-288; here the codes of uniffi_meta are used
  | .object m n o .struct d =>
    some ([value Codes.interface, .str m, .str n] ++ origCalls o ++ [.longStr d])
  | .object m n o (.trait k) d =>
    some ([value Codes.traitInterface, .str m, .str n] ++ origCalls o ++ [.longStr d] ++
      [value (match k with
        | .rustOnly => Codes.kRustOnly
        | .both => Codes.kBoth
        | .foreignOnly => Codes.kForeignOnly)])
  -- export/callback_interface.rs:273-289
  | .callbackInterface m n d => some [value Core.callbackInterface, .str m, .str n, .longStr d]
  -- export/utrait.rs:29-160
  | .uniffiTrait t =>
    (callsOf (fun f => f.calls.map fun c => [.buf c]) t.methods).map fun c =>
      [value Core.uniffiTrait, value t.code] ++ c
  -- export.rs:98-104
  | .objectTraitImpl m n t =>
    some [value Core.objectTraitImpl, .buf [value Core.tInterface], .str m, .str n, .buf t.typeId]
  -- custom.rs:390-409
  | .custom m n t d => some [value Core.customType, .str m, .str n, .buf t.typeId, .longStr d]

/-- The bytes exported for an item, when the crate compiles. -/
def Item.emit (i : Item) : Option Bytes := i.calls.bind Meta.emit

/-- The value the checksum function exported with an item returns. The macros create one for
functions, methods, constructors and trait methods: fnsig.rs:387-412. -/
def Item.scaffoldingChecksum : Item → Option UInt16
  | .fn f => f.calls.bind emitChecksum
  | _ => none

end Verif.Meta
