import Verif.Src.Types
import Verif.Meta.Spec
/-
Which types can cross the boundary, and what the macros call them.
-/
namespace Verif.Src
open Verif.Meta

/-- `Crosses self t r`: a value of type `t` can cross the boundary, and the macros see it as `r`; `self` is
the type `Self`. -/
inductive Crosses (self : Option RTy) : STy → RTy → Prop
  | u8 : Crosses self .uint8 .u8
  | i8 : Crosses self .int8 .i8
  | u16 : Crosses self .uint16 .u16
  | i16 : Crosses self .int16 .i16
  | u32 : Crosses self .uint32 .u32
  | i32 : Crosses self .int32 .i32
  | u64 : Crosses self .uint64 .u64
  | i64 : Crosses self .int64 .i64
  | f32 : Crosses self .float32 .f32
  | f64 : Crosses self .float64 .f64
  | bool : Crosses self .boolean .bool
  | string : Crosses self .string .string
  | systemTime : Crosses self .systemTime .systemTime
  | duration : Crosses self .duration .duration
  | record {m n} : Crosses self (.record m n) (.record m n)
  | enum {m n} : Crosses self (.enum m n) (.enum m n)
  /-- An object is shared; behind a reference it is written without `Arc`. -/
  | object {m n} : Crosses self (.object m n) (.object m n)
  | arcObject {m n} : Crosses self (.arc (.object m n)) (.object m n)
  | arcTrait {m n kind} : Crosses self (.arc (.trait m n (.traitInterface kind))) (.traitObject m n kind)
  | boxTrait {m n} : Crosses self (.box (.trait m n .callbackInterface)) (.callbackInterface m n)
  | self {r} : self = some r → Crosses self .selfTy r
  | arcSelf {r} : self = some r → Crosses self (.arc .selfTy) r
  | option {t r} : Crosses self t r → Crosses self (.option t) (.option r)
  | vec {t r} : Crosses self t r → Crosses self (.vec t) (.vec r)
  | box {t r} : Crosses self t r → Crosses self (.box t) (.box r)
  | hashMap {k v r s} : Crosses self k r → Crosses self v s → Crosses self (.hashMap k v) (.hashMap r s)
  | hashSet {t r} : Crosses self t r → Crosses self (.hashSet t) (.hashSet r)
  | custom {m n t r} : Crosses self t r → Crosses self (.custom m n t) (.custom m n r)

/-- An argument, and how it is passed. -/
inductive ArgCrosses (self : Option RTy) : STy → RTy → PassBy → Prop
  | value {t r} : Crosses self t r → ArgCrosses self t r .value
  | ref {mutable t r} : Crosses self t r → ArgCrosses self (.ref mutable t) r .ref
  | str {mutable} : ArgCrosses self (.ref mutable .str) .string .ref
  | trait {mutable m n kind} :
      ArgCrosses self (.ref mutable (.trait m n (.traitInterface kind))) (.traitObject m n kind) .ref
  | callback {mutable m n} : ArgCrosses self (.ref mutable (.trait m n .callbackInterface)) (.callbackInterface m n) .ref
  | bytes : ArgCrosses self (.ref false (.slice .uint8)) .byteSlice .ref
  /-- Bytes that the function may change. -/
  | mutBytes : ArgCrosses self (.ref true (.slice .uint8)) .byteSlice .mutRef
  | slice {mutable t r} : t ≠ .uint8 → Crosses self t r → ArgCrosses self (.ref mutable (.slice t)) (.vec r) .ref

/-- A result. -/
inductive RetCrosses (self : Option RTy) : STy → RetSrc → Prop
  | unit : RetCrosses self .unit (.plain none)
  | value {t r} : Crosses self t r → RetCrosses self t (.plain (some r))
  | resultUnit {e re} : Crosses self e re → RetCrosses self (.result .unit e) (.result none (some re))
  | result {t r e re} : Crosses self t r → Crosses self e re → RetCrosses self (.result t e) (.result (some r) (some re))

/-- There is no type from a UDL file in the type. -/
def STy.noUdl : STy → Bool
  | .udl _ => false
  | .option t | .vec t | .arc t | .box t | .slice t | .hashSet t | .custom _ _ t | .ref _ t => t.noUdl
  | .hashMap k v | .result k v => k.noUdl && v.noUdl
  | _ => true

end Verif.Src
