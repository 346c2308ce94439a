import Verif.Call.Model
/-
The argument buffer calling convention: `FfiSerialize` and the `ffi_buffer` scaffolding functions.
uniffi_core/src/ffi/ffiserialize.rs.
-/
namespace Verif.FfiBuffer
open Verif Verif.Wire Verif.Call

/-- `FfiBufferElement`, a union whose largest members have eight bytes: ffiserialize.rs:14-28.
The model keeps its bytes; pointers have eight. -/
abbrev Elem := Bytes

/-- Byte order of the machine. The union is accessed in native order. -/
inductive Endian where
  | little
  | big

/-- A number stored in native order. -/
def Endian.enc : Endian → Nat → Nat → Bytes
  | .little, n, v => leBytes n v
  | .big, n, v => beBytes n v
/-- A number read in native order. -/
def Endian.dec : Endian → Bytes → Nat
  | .little, b => leNat b
  | .big, b => beNat b

/-- Assigning an `n`-byte member of the union: the first `n` bytes change, the others stay. -/
def Elem.set (o : Endian) (n v : Nat) (e : Elem) : Elem := o.enc n v ++ e.drop n
/-- Reading an `n`-byte member of the union. -/
def Elem.get (o : Endian) (n : Nat) (e : Elem) : Nat := o.dec (e.take n)

/-- The types that implement `FfiSerialize`. -/
inductive FTy where
  | int (t : IntTy)
  | f32 | f64 | bool | unit | ptr | handle | rustBuffer | foreignBytes | foreignBytesMut | status
  deriving DecidableEq, Repr

/-- Values of those types. Pointers and handles are numbers; floats are their bits. -/
inductive FVal where
  | int (t : IntTy) (z : Int)
  | f32 (bits : Nat)
  | f64 (bits : Nat)
  | bool (b : Bool)
  | unit
  | ptr (p : Nat)
  | handle (h : Nat)
  | rustBuffer (capacity len data : Nat)
  | foreignBytes (len : Int) (data : Nat)
  | foreignBytesMut (len : Int) (data : Nat)
  | status (code : Code) (capacity len data : Nat)
  deriving DecidableEq, Repr

/-- The type of a value. -/
def FVal.ty : FVal → FTy
  | .int t _ => .int t
  | .f32 _ => .f32
  | .f64 _ => .f64
  | .bool _ => .bool
  | .unit => .unit
  | .ptr _ => .ptr
  | .handle _ => .handle
  | .rustBuffer _ _ _ => .rustBuffer
  | .foreignBytes _ _ => .foreignBytes
  | .foreignBytesMut _ _ => .foreignBytesMut
  | .status _ _ _ _ => .status

/-- Values the Rust type can hold. -/
def FVal.Valid : FVal → Prop
  | .int t z => t.InRange z
  | .f32 b => b < 2 ^ 32
  | .f64 b => b < 2 ^ 64
  | .ptr p => p < 2 ^ 64
  | .handle h => h < 2 ^ 64
  | .rustBuffer c l d => c < 2 ^ 64 ∧ l < 2 ^ 64 ∧ d < 2 ^ 64
  | .foreignBytes l d => IntTy.i32.InRange l ∧ d < 2 ^ 64
  | .foreignBytesMut l d => IntTy.i32.InRange l ∧ d < 2 ^ 64
  | .status _ c l d => c < 2 ^ 64 ∧ l < 2 ^ 64 ∧ d < 2 ^ 64
  | _ => True

/-- `FfiSerialize::SIZE`: ffiserialize.rs:106, 135, 149, 163, 176, 184, 197, 209, 226, 242, 258. -/
def FTy.size : FTy → Nat
  | .unit => 0
  | .rustBuffer => 3
  | .foreignBytes => 2
  | .foreignBytesMut => 2
  | .status => 4
  | _ => 1

/-- `buf[i].member = value`; `none` is the index panic. -/
def setAt (o : Endian) (buf : List Elem) (i n v : Nat) : Option (List Elem) :=
  match buf[i]? with
  | some e => some (buf.set i (e.set o n v))
  | none => none

/-- `buf[i].member`. -/
def getAt (o : Endian) (buf : List Elem) (i n : Nat) : Option Nat := (buf[i]?).map (Elem.get o n)

/-- `FfiSerialize::put`: ffiserialize.rs:113-115, 141-144, 155-158, 169-171, 178, 190-192,
203-205, 215-219, 232-235, 248-251, 268-271. -/
def put (o : Endian) (buf : List Elem) : FVal → Option (List Elem)
  | .int t z => setAt o buf 0 t.width (toUnsigned t.width z)
  | .f32 b => setAt o buf 0 4 b
  | .f64 b => setAt o buf 0 8 b
  | .bool b => setAt o buf 0 1 (if b then 1 else 0)
  | .unit => some buf
  | .ptr p => setAt o buf 0 8 p
  | .handle h => setAt o buf 0 8 h
  | .rustBuffer c l d =>
    (setAt o buf 0 8 c).bind fun b => (setAt o b 1 8 l).bind fun b => setAt o b 2 8 d
  | .foreignBytes l d => (setAt o buf 0 4 (toUnsigned 4 l)).bind fun b => setAt o b 1 8 d
  | .foreignBytesMut l d => (setAt o buf 0 4 (toUnsigned 4 l)).bind fun b => setAt o b 1 8 d
  | .status code c l d =>
    (setAt o buf 0 1 (toUnsigned 1 code.toInt)).bind fun b =>
      match b with
      | [] => none
      | e :: b => ((setAt o b 0 8 c).bind fun b => (setAt o b 1 8 l).bind fun b =>
          setAt o b 2 8 d).map (e :: ·)

/-- `FfiSerialize::get`: ffiserialize.rs:108-111, 137-140, 151-154, 165-168, 176, 186-189,
199-202, 211-214, 228-231, 244-247, 260-267. -/
def get (o : Endian) (buf : List Elem) : FTy → Option FVal
  | .int t => (getAt o buf 0 t.width).map fun v => .int t (if t.signed then toSigned t.width v else v)
  | .f32 => (getAt o buf 0 4).map .f32
  | .f64 => (getAt o buf 0 8).map .f64
  | .bool => (getAt o buf 0 1).map fun v => .bool (toSigned 1 v = 1)
  | .unit => some .unit
  | .ptr => (getAt o buf 0 8).map .ptr
  | .handle => (getAt o buf 0 8).map .handle
  | .rustBuffer => (getAt o buf 0 8).bind fun c => (getAt o buf 1 8).bind fun l =>
      (getAt o buf 2 8).map fun d => .rustBuffer c l d
  | .foreignBytes => (getAt o buf 0 4).bind fun l => (getAt o buf 1 8).map fun d =>
      .foreignBytes (toSigned 4 l) d
  | .foreignBytesMut => (getAt o buf 0 4).bind fun l => (getAt o buf 1 8).map fun d =>
      .foreignBytesMut (toSigned 4 l) d
  | .status => (getAt o buf 0 1).bind fun k =>
      (getAt o (buf.drop 1) 0 8).bind fun c => (getAt o (buf.drop 1) 1 8).bind fun l =>
        (getAt o (buf.drop 1) 2 8).map fun d =>
          .status (match Code.ofInt (toSigned 1 k) with | some c => c | none => .unexpected) c l d

/-- `FfiSerialize::write`, repeated for a list of values: ffiserialize.rs:83-88. Each writes to
what is left of the slice and moves past its slots. The result is the whole buffer afterwards. -/
def writeAll (o : Endian) : List FVal → List Elem → Option (List Elem)
  | [], buf => some buf
  | v :: vs, buf => (put o buf v).bind fun b =>
      if b.length < v.ty.size then none
      else (writeAll o vs (b.drop v.ty.size)).map (b.take v.ty.size ++ ·)

/-- `FfiSerialize::read`, repeated: ffiserialize.rs:74-78. -/
def readAll (o : Endian) : List FTy → List Elem → Option (List FVal × List Elem)
  | [], buf => some ([], buf)
  | t :: ts, buf => (get o buf t).bind fun v =>
      if buf.length < t.size then none
      else (readAll o ts (buf.drop t.size)).map fun r => (v :: r.1, r.2)

/-- The argument-buffer version of a scaffolding function: uniffi_macros/src/export/scaffolding.rs
336-356. `fn` is the ordinary scaffolding function: arguments to return value and status. -/
def ffiBufferFn (o : Endian) (params : List FTy) (fn : List FVal → FVal × FVal)
    (argBuf retBuf : List Elem) : Option (List Elem) :=
  (readAll o params argBuf).bind fun r =>
    let (ret, st) := fn r.1
    writeAll o [ret, st] retBuf

end Verif.FfiBuffer
