import Verif.Meta.Types
/-
What the bindings generators should learn about an exported item. Nothing here refers to the bytes
the metadata is made of.
-/
namespace Verif.Meta

/-- What a Rust type is called in the metadata: the same type, except that `Vec<u8>` and byte
slices are `bytes`. -/
def RTy.toMeta : RTy → MTy
  | .u8 => .uint8 | .i8 => .int8 | .u16 => .uint16 | .i16 => .int16
  | .u32 => .uint32 | .i32 => .int32 | .u64 => .uint64 | .i64 => .int64
  | .f32 => .float32 | .f64 => .float64 | .bool => .boolean | .string => .string
  | .systemTime => .timestamp | .duration => .duration
  | .byteSlice => .bytes
  | .object m n => .object m n .struct
  | .traitObject m n k => .object m n (.trait k)
  | .callbackInterface m n => .callbackInterface m n
  | .record m n => .record m n
  | .enum m n => .enum m n
  | .custom m n t => .custom m n t.toMeta
  | .option t => .optional t.toMeta
  | .box t => .box t.toMeta
  | .vec .u8 => .bytes
  | .vec t => .sequence t.toMeta
  | .hashMap k v => .map k.toMeta v.toMeta
  | .hashSet t => .set t.toMeta

/-- A documentation comment; none is the same as an empty one. -/
def docOf (s : String) : Option String := if s = "" then none else some s

/-- A custom type takes the defaults of the type it is made from. -/
def defaultType : MTy → MTy
  | .custom _ _ t => t
  | t => t

/-- The literal `z` as a value of an integer type; `none` when the type is not an integer type or
does not contain `z`. Negative values for an unsigned 64-bit integer are taken as signed: the
discriminants of enums are read with this type. -/
def intMeaning (z : Int) : MTy → Option MLit
  | .uint8 => if 0 ≤ z ∧ z < 2 ^ 8 then some (.uint z.toNat .decimal .uint8) else none
  | .uint16 => if 0 ≤ z ∧ z < 2 ^ 16 then some (.uint z.toNat .decimal .uint16) else none
  | .uint32 => if 0 ≤ z ∧ z < 2 ^ 32 then some (.uint z.toNat .decimal .uint32) else none
  | .uint64 =>
    if 0 ≤ z ∧ z < 2 ^ 64 then some (.uint z.toNat .decimal .uint64)
    else if -2 ^ 63 ≤ z ∧ z < 0 then some (.int z .decimal .int64) else none
  | .int8 => if -2 ^ 7 ≤ z ∧ z < 2 ^ 7 then some (.int z .decimal .int8) else none
  | .int16 => if -2 ^ 15 ≤ z ∧ z < 2 ^ 15 then some (.int z .decimal .int16) else none
  | .int32 => if -2 ^ 31 ≤ z ∧ z < 2 ^ 31 then some (.int z .decimal .int32) else none
  | .int64 => if -2 ^ 63 ≤ z ∧ z < 2 ^ 63 then some (.int z .decimal .int64) else none
  | _ => none

/-- A default for a value of type `ty`; `none` when it is rejected for this type. -/
def DefSrc.meaning : DefSrc → MTy → Option MDef
  | .default, _ => some .default
  | .bool b, _ => some (.literal (.boolean b))
  | .emptySeq, _ => some (.literal .emptySequence)
  | .str s, ty => if defaultType ty = .string then some (.literal (.string s)) else none
  | .int z _, ty => (intMeaning z (defaultType ty)).map .literal
  | .float d _, ty =>
    if defaultType ty = .float32 ∨ defaultType ty = .float64 then
      some (.literal (.float d (defaultType ty)))
    else none
  | .optNone, ty =>
    match defaultType ty with
    | .optional _ => some (.literal .optNone)
    | _ => none
  | .optSome d, ty =>
    match defaultType ty with
    | .optional t => (d.meaning t).map fun v => .literal (.optSome v)
    | _ => none
  | .otherLiteral, _ => none

/-- An optional part, `none` when it is present and rejected. -/
def optMeaning {α β : Type} (f : α → Option β) : Option α → Option (Option β)
  | none => some none
  | some a => (f a).map some

/-- The elements of a list in order, `none` when one is rejected. -/
def listMeaning {α β : Type} (f : α → Option β) : List α → Option (List β)
  | [] => some []
  | a :: as => (f a).bind fun b => (listMeaning f as).map fun bs => b :: bs

/-- A function argument. -/
def ArgSrc.meaning (a : ArgSrc) : Option MArg :=
  (optMeaning (·.meaning a.ty.toMeta) a.default).map fun d =>
    { name := a.name, ty := a.ty.toMeta, passBy := a.passBy, optional := false, default := d }

/-- The returned type. -/
def RetSrc.returns : RetSrc → Option MTy
  | .plain t => t.map RTy.toMeta
  | .result t _ => t.map RTy.toMeta

/-- The error type. -/
def RetSrc.throws : RetSrc → Option MTy
  | .plain _ => none
  | .result _ e => e.map RTy.toMeta

/-- A function with checksum `c`. -/
def FnSrc.meaning (f : FnSrc) (c : UInt16) : Option MFn :=
  (listMeaning ArgSrc.meaning f.args).map fun args =>
    { modulePath := f.modulePath, name := f.name, origName := f.origName, isAsync := f.isAsync,
      inputs := args, returnType := f.ret.returns, throws := f.ret.throws, checksum := some c,
      docstring := docOf f.docstring }

/-- A field. -/
def FieldSrc.meaning (f : FieldSrc) : Option MField :=
  (optMeaning (·.meaning f.ty.toMeta) f.default).map fun d =>
    { name := f.name, origName := f.origName, ty := f.ty.toMeta, default := d,
      docstring := docOf f.docstring }

/-- A variant. -/
def VariantSrc.meaning (v : VariantSrc) : Option MVariant :=
  (optMeaning (intMeaning · .uint64) v.discr).bind fun d =>
  (listMeaning FieldSrc.meaning v.fields).map fun fs =>
    { name := v.name, origName := v.origName, discr := d, fields := fs,
      docstring := docOf v.docstring }

/-- A variant of a flat error: only the names are kept. -/
def VariantSrc.flatMeaning (v : VariantSrc) : Option MVariant :=
  some { name := v.name, origName := v.origName, discr := none, fields := [],
         docstring := docOf v.docstring }

/-- The return type of a constructor is the object itself. -/
def constructs (selfName : String) : Option MTy → Prop
  | some (.object _ n .struct) => n = selfName
  | _ => False

instance (s : String) (t : Option MTy) : Decidable (constructs s t) := by
  unfold constructs; split <;> infer_instance

/-- A method packed in a built-in trait. -/
def FnSrc.methodMeaning (f : FnSrc) (c : UInt16) : Option MMethod :=
  match f.kind with
  | .method s => (f.meaning c).map fun m => { selfName := s, fn := m }
  | _ => none

/-- The metadata of an item. `c` is the checksum of a callable; `c1` and `c2` are the checksums of
the methods packed in a built-in trait. -/
def Item.meaning (c c1 c2 : UInt16) : Item → Option Metadata
  | .namespace_ k n => some (.namespace_ k n)
  | .udlFile m n s => some (.udlFile m n s)
  | .fn f =>
    match f.kind with
    | .function => (f.meaning c).map .func
    | .method s => (f.meaning c).map fun m => .method { selfName := s, fn := m }
    | .traitMethod s i => (f.meaning c).map (.traitMethod s i)
    | .constructor s =>
      if constructs s f.ret.returns then
        (f.meaning c).map fun m => .constructor
          { modulePath := m.modulePath, selfName := s, name := m.name, origName := m.origName,
            isAsync := m.isAsync, inputs := m.inputs, throws := m.throws, checksum := m.checksum,
            docstring := m.docstring }
      else none
  | .record m n o fields d =>
    (listMeaning FieldSrc.meaning fields).map fun fs => .record m n o fs (docOf d)
  | .enum m n o dt vs ne d =>
    (listMeaning VariantSrc.meaning vs).map fun vs =>
      .enum m n o .enum (dt.map RTy.toMeta) vs ne (docOf d)
  | .error m n o false vs ne d =>
    (listMeaning VariantSrc.meaning vs).map fun vs => .enum m n o (.error false) none vs ne (docOf d)
  | .error m n o true vs ne d =>
    (listMeaning VariantSrc.flatMeaning vs).map fun vs =>
      .enum m n o (.error true) none vs ne (docOf d)
  | .object m n o imp d => some (.object m n o imp (docOf d))
  | .callbackInterface m n d => some (.callbackInterface m n (docOf d))
  | .uniffiTrait (.debug f) => (f.methodMeaning c1).map fun f => .uniffiTrait (.debug f)
  | .uniffiTrait (.display f) => (f.methodMeaning c1).map fun f => .uniffiTrait (.display f)
  | .uniffiTrait (.hash f) => (f.methodMeaning c1).map fun f => .uniffiTrait (.hash f)
  | .uniffiTrait (.ord f) => (f.methodMeaning c1).map fun f => .uniffiTrait (.ord f)
  | .uniffiTrait (.eq e n) =>
    (e.methodMeaning c1).bind fun e => (n.methodMeaning c2).map fun n => .uniffiTrait (.eq e n)
  | .objectTraitImpl m n t => some (.objectTraitImpl (.object m n .struct) t.toMeta)
  | .custom m n t d => some (.customType m n none t.toMeta (docOf d))

end Verif.Meta
