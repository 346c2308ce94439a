import Verif.Wire.Rust
/-
The compile-time metadata buffer: uniffi_core/src/metadata.rs:96-291.
-/
namespace Verif.Meta
open Verif
open Verif.Wire (utf8)

/-- `BUF_SIZE`: metadata.rs:100. -/
def bufSize : Nat := 32768

/-- `MetadataBuffer`: metadata.rs:121-124. -/
structure Buf where
  bytes : Bytes
  size : Nat

/-- `MetadataBuffer::new`: metadata.rs:127-132. -/
def Buf.new : Buf := ⟨List.replicate bufSize 0, 0⟩

/-- `self.bytes[self.size] = value; self.size += 1`. `none`: the index is out of bounds, which like a
failed assertion stops compilation. -/
def Buf.push (b : Buf) (v : UInt8) : Option Buf :=
  if b.size < b.bytes.length then some ⟨b.bytes.set b.size v, b.size + 1⟩ else none

/-- The loops of metadata.rs:147-151, 203-207 and 225-229. -/
def Buf.pushAll (b : Buf) : Bytes → Option Buf
  | [] => some b
  | v :: vs => (b.push v).bind fun b => b.pushAll vs

/-- `concat_value`: metadata.rs:159-164. -/
def Buf.concatValue (b : Buf) (v : UInt8) : Option Buf :=
  if b.size < bufSize then b.push v else none

/-- `concat`: metadata.rs:142-153. -/
def Buf.concat (b other : Buf) : Option Buf :=
  if b.size + other.size ≤ bufSize then b.pushAll (other.bytes.take other.size) else none

/-- `concat_u32`: metadata.rs:170-179. -/
def Buf.concatU32 (b : Buf) (v : Nat) : Option Buf :=
  if b.size + 4 ≤ bufSize then
    b.pushAll [UInt8.ofNat (v % 256), UInt8.ofNat (v / 2 ^ 8 % 256), UInt8.ofNat (v / 2 ^ 16 % 256),
      UInt8.ofNat (v / 2 ^ 24 % 256)]
  else none

/-- `concat_bool`: metadata.rs:185-187. -/
def Buf.concatBool (b : Buf) (v : Bool) : Option Buf := b.concatValue (if v then 1 else 0)

/-- `concat_str`: metadata.rs:196-209. -/
def Buf.concatStr (b : Buf) (s : String) : Option Buf :=
  if (utf8 s).length < 256 then
    if b.size + (utf8 s).length < bufSize then
      (b.push (UInt8.ofNat (utf8 s).length)).bind fun b => b.pushAll (utf8 s)
    else none
  else none

/-- `concat_long_str`: metadata.rs:217-231. `string.len() as u16` truncates. -/
def Buf.concatLongStr (b : Buf) (s : String) : Option Buf :=
  if b.size + (utf8 s).length + 1 < bufSize then
    (b.pushAll (leBytes 2 ((utf8 s).length % 2 ^ 16))).bind fun b => b.pushAll (utf8 s)
  else none

/-- `into_array::<SIZE>`: metadata.rs:237-245; reading beyond the buffer stops compilation. -/
def Buf.intoArray (b : Buf) (size : Nat) : Option Bytes :=
  if size ≤ b.bytes.length then some (b.bytes.take size) else none

/-- One step of `calc_checksum`: metadata.rs:285-286. -/
def fnvStep (hash : UInt64) (b : UInt8) : UInt64 := (hash ^^^ b.toUInt64) * 0x100000001b3

/-- Metadata.rs:290. -/
def fold16 (hash : UInt64) : UInt16 :=
  (hash ^^^ (hash >>> 16) ^^^ (hash >>> 32) ^^^ (hash >>> 48)).toUInt16

/-- `calc_checksum(bytes, size)`: metadata.rs:276-291. The loop reads `bytes[0..size]`. -/
def calcChecksum (bytes : Bytes) (size : Nat) : UInt16 :=
  fold16 ((bytes.take size).foldl fnvStep 0xcbf29ce484222325)

/-- `MetadataBuffer::checksum`: metadata.rs:251-253. -/
def Buf.checksum (b : Buf) : UInt16 := calcChecksum b.bytes b.size

/-- One call in a chain of `concat…` calls. -/
inductive Op where
  | value (v : UInt8)
  | u32 (v : UInt32)
  | bool (v : Bool)
  | str (s : String)
  | longStr (s : String)
  /-- `.concat(buffer)`, the buffer being built by a chain of calls itself. -/
  | buf (ops : List Op)

mutual
  /-- A call applied to a buffer. -/
  def Op.run (b : Buf) : Op → Option Buf
    | .value v => b.concatValue v
    | .u32 v => b.concatU32 v.toNat
    | .bool v => b.concatBool v
    | .str s => b.concatStr s
    | .longStr s => b.concatLongStr s
    | .buf ops => (runAll Buf.new ops).bind fun other => b.concat other
  /-- A chain of calls. -/
  def runAll (b : Buf) : List Op → Option Buf
    | [] => some b
    | op :: ops => (op.run b).bind fun b => runAll b ops
end

/-- The exported array: `static X: [u8; CONST.size] = CONST.into_array()`, where
`const CONST: MetadataBuffer = <chain of calls on MetadataBuffer::new()>`:
uniffi_macros/src/util.rs:129-133. -/
def emit (ops : List Op) : Option Bytes :=
  (runAll Buf.new ops).bind fun b => b.intoArray b.size

/-- The exported checksum function: util.rs:114-127. -/
def emitChecksum (ops : List Op) : Option UInt16 := (runAll Buf.new ops).map Buf.checksum

end Verif.Meta
