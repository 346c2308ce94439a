import Verif.Checksum.Interface
/-
The items of an interface as a user knows them: what a function, method, constructor, record, enum,
object, callback interface and custom type consists of, apart from documentation and what is derived
from the rest. Each relation `isX` says that a value of the code describes the item; everything
that the item does not mention is arbitrary.
-/
namespace Verif.Checksum.Item
open Verif.Checksum
open Verif.Meta (MTy Impl TraitKind PassBy Radix)

mutual
  /-- A literal. -/
  inductive Lit where
    | boolean (b : Bool)
    | string (s : String)
    | uint (n : Nat) (radix : Radix) (ty : MTy)
    | int (z : Int) (radix : Radix) (ty : MTy)
    | float (digits : String) (ty : MTy)
    | enum (variant : String) (ty : MTy)
    | emptySequence | emptyMap | emptySet | none
    | some (inner : Dflt)
  /-- A default value: the default of the type, or a literal. -/
  inductive Dflt where
    | default
    | literal (l : Lit)
end

structure Arg where
  name : String
  ty : MTy
  passBy : PassBy
  optional : Bool
  default : Option Dflt

structure Fn where
  name : String
  modulePath : String
  isAsync : Bool
  args : List Arg
  ret : Option MTy
  throws : Option MTy
  checksumFn : String

structure Ctor where
  name : String
  objectName : String
  objectModulePath : String
  isAsync : Bool
  args : List Arg
  throws : Option MTy
  checksumFn : String
  selfType : MTy

structure Meth where
  name : String
  isAsync : Bool
  args : List Arg
  ret : Option MTy
  throws : Option MTy
  selfByArc : Bool
  checksumFn : String

inductive UTrait where
  | debug (fmt : Meth)
  | display (fmt : Meth)
  | eq (eq ne : Meth)
  | hash (hash : Meth)
  | ord (cmp : Meth)

structure Field where
  name : String
  ty : MTy
  default : Option Dflt

structure Rec where
  name : String
  modulePath : String
  remote : Bool
  fields : List Field
  ctors : List Ctor
  methods : List Meth
  traits : List UTrait

structure Variant where
  name : String
  discr : Option Lit
  fields : List Field

/-- Whether an enum is an error, and a flat one. -/
inductive Shape where
  | enum
  | error (flat : Bool)

structure Enum where
  name : String
  modulePath : String
  remote : Bool
  discrType : Option MTy
  variants : List Variant
  shape : Shape
  nonExhaustive : Bool
  ctors : List Ctor
  methods : List Meth
  traits : List UTrait

structure TraitImpl where
  ty : MTy
  trait_ : MTy

structure Obj where
  name : String
  imp : Impl
  modulePath : String
  remote : Bool
  ctors : List Ctor
  methods : List Meth
  traits : List UTrait
  traitImpls : List TraitImpl

structure Callback where
  name : String
  modulePath : String
  methods : List Meth

structure Custom where
  name : String
  modulePath : String
  builtin : MTy

/-! Which values describe an item -/

variable {α : Type}

/-- `Option<T>`. -/
def isOpt (R : α → V → Prop) : Option α → V → Prop
  | none, v => v = .optNone
  | some a, v => ∃ w, v = .optSome w ∧ R a w

/-- The items of a list, one by one. -/
def isList (R : α → V → Prop) : List α → List V → Prop
  | [], vs => vs = []
  | a :: as, vs => ∃ w ws, vs = w :: ws ∧ R a w ∧ isList R as ws

/-- `Vec<T>`. -/
def isSeq (R : α → V → Prop) (as : List α) (v : V) : Prop :=
  ∃ ws, v = .seq ws ∧ ws.length < 2 ^ 64 ∧ isList R as ws

def isType (t : MTy) (v : V) : Prop := v = ofType t

def ofRadix : Radix → V
  | .decimal => .variant 0 []
  | .octal => .variant 1 []
  | .hexadecimal => .variant 2 []

def ofPassBy : PassBy → V
  | .value => .variant 0 []
  | .ref => .variant 1 []
  | .mutRef => .variant 2 []

mutual
  /-- `LiteralMetadata`: uniffi_meta/src/lib.rs:285-305. -/
  def ofLit : Lit → V
    | .boolean b => .variant 0 [.bool b]
    | .string s => .variant 1 [.str s]
    | .uint n r t => .variant 2 [.u64 n, ofRadix r, ofType t]
    | .int z r t => .variant 3 [.i64 z, ofRadix r, ofType t]
    | .float d t => .variant 4 [.str d, ofType t]
    | .enum n t => .variant 5 [.str n, ofType t]
    | .emptySequence => .variant 6 []
    | .emptyMap => .variant 7 []
    | .emptySet => .variant 8 []
    | .none => .variant 9 []
    | .some d => .variant 10 [.box (ofDflt d)]
  /-- `DefaultValueMetadata`: lib.rs:325-331. -/
  def ofDflt : Dflt → V
    | .default => .variant 0 []
    | .literal l => .variant 1 [ofLit l]
end

mutual
  /-- The integers fit `u64` and `i64`. -/
  def Lit.Fits : Lit → Prop
    | .uint n _ _ => n < 2 ^ 64
    | .int z _ _ => -2 ^ 63 ≤ z ∧ z < 2 ^ 63
    | .some d => d.Fits
    | _ => True
  def Dflt.Fits : Dflt → Prop
    | .default => True
    | .literal l => l.Fits
end

def isLit (l : Lit) (v : V) : Prop := v = ofLit l ∧ l.Fits
def isDflt (d : Dflt) (v : V) : Prop := v = ofDflt d ∧ d.Fits

/-- function.rs:184-191. -/
def isArg (a : Arg) (v : V) : Prop :=
  ∃ d, isOpt isDflt a.default d ∧
    v = .struct [.str a.name, ofType a.ty, ofPassBy a.passBy, .bool a.optional, d]

/-- function.rs:47-69. -/
def isFn (f : Fn) (v : V) : Prop :=
  ∃ args ret throws ffi doc checksum,
    isSeq isArg f.args args ∧ isOpt isType f.ret ret ∧ isOpt isType f.throws throws ∧
    v = .struct [.str f.name, .str f.modulePath, .bool f.isAsync, args, ret, ffi, doc, throws,
      .str f.checksumFn, checksum]

/-- object.rs:361-385. -/
def isCtor (f : Ctor) (v : V) : Prop :=
  ∃ args throws ffi doc checksum,
    isSeq isArg f.args args ∧ isOpt isType f.throws throws ∧
    v = .struct [.str f.name, .str f.objectName, .str f.objectModulePath, .bool f.isAsync, args, ffi,
      doc, throws, .str f.checksumFn, checksum, ofType f.selfType]

/-- object.rs:491-517. The type the method belongs to does not count. -/
def isMeth (f : Meth) (v : V) : Prop :=
  ∃ selfType args ret throws ffi doc checksum,
    isSeq isArg f.args args ∧ isOpt isType f.ret ret ∧ isOpt isType f.throws throws ∧
    v = .struct [.str f.name, .bool f.isAsync, selfType, args, ret, ffi, doc, throws,
      .bool f.selfByArc, .str f.checksumFn, checksum]

/-- object.rs:645-652. -/
def isUTrait : UTrait → V → Prop
  | .debug m, v => ∃ w, isMeth m w ∧ v = .variant 0 [w]
  | .display m, v => ∃ w, isMeth m w ∧ v = .variant 1 [w]
  | .eq m n, v => ∃ w x, isMeth m w ∧ isMeth n x ∧ v = .variant 2 [w, x]
  | .hash m, v => ∃ w, isMeth m w ∧ v = .variant 3 [w]
  | .ord m, v => ∃ w, isMeth m w ∧ v = .variant 4 [w]

/-- record.rs:189-196. -/
def isField (f : Field) (v : V) : Prop :=
  ∃ d doc, isOpt isDflt f.default d ∧ v = .struct [.str f.name, ofType f.ty, d, doc]

/-- record.rs:61-72. -/
def isRec (r : Rec) (v : V) : Prop :=
  ∃ fields ctors methods traits doc,
    isSeq isField r.fields fields ∧ isSeq isCtor r.ctors ctors ∧ isSeq isMeth r.methods methods ∧
    isSeq isUTrait r.traits traits ∧
    v = .struct [.str r.name, .str r.modulePath, .bool r.remote, fields, ctors, methods, traits, doc]

/-- enum_.rs:370-377. -/
def isVariant (x : Variant) (v : V) : Prop :=
  ∃ d fields doc, isOpt isLit x.discr d ∧ isSeq isField x.fields fields ∧
    v = .struct [.str x.name, d, fields, doc]

/-- uniffi_meta/src/lib.rs:354-358. -/
def ofShape : Shape → V
  | .enum => .variant 0 []
  | .error flat => .variant 1 [.bool flat]

/-- enum_.rs:177-192. -/
def isEnum (e : Enum) (v : V) : Prop :=
  ∃ discrType variants ctors methods traits doc,
    isOpt isType e.discrType discrType ∧ isSeq isVariant e.variants variants ∧
    isSeq isCtor e.ctors ctors ∧ isSeq isMeth e.methods methods ∧ isSeq isUTrait e.traits traits ∧
    v = .struct [.str e.name, .str e.modulePath, .bool e.remote, discrType, variants,
      ofShape e.shape, .bool e.nonExhaustive, ctors, methods, traits, doc]

/-- uniffi_meta/src/lib.rs:527-537. -/
def isTraitImpl (i : TraitImpl) (v : V) : Prop := v = .struct [ofType i.ty, ofType i.trait_]

/-- object.rs:82-115. -/
def isObj (o : Obj) (v : V) : Prop :=
  ∃ ctors methods traits impls clone free init doc,
    isSeq isCtor o.ctors ctors ∧ isSeq isMeth o.methods methods ∧ isSeq isUTrait o.traits traits ∧
    isSeq isTraitImpl o.traitImpls impls ∧
    v = .struct [.str o.name, ofImpl o.imp, .str o.modulePath, .bool o.remote, ctors, methods, traits,
      impls, clone, free, init, doc]

/-- callbacks.rs:45-60. -/
def isCallback (c : Callback) (v : V) : Prop :=
  ∃ methods init doc, isSeq isMeth c.methods methods ∧
    v = .struct [.str c.name, .str c.modulePath, methods, init, doc]

/-- custom_type.rs:12-19. -/
def isCustom (c : Custom) (v : V) : Prop :=
  ∃ doc, v = .struct [.str c.name, .str c.modulePath, ofType c.builtin, doc]

end Verif.Checksum.Item
