import Verif.Jni.Simple
/-
The native memory that Rust and Kotlin share (Kotlin JNI): buffers, strings and boxes. Memory is a set of
blocks; a pointer is the address of a block and an offset into it. Using memory in a way the code must not
(out of bounds, not aligned, not written, not allocated) is an explicit error, `misuse`.
-/
namespace Verif.Jni
open Verif.Wire (IntTy Val)

/-- The language whose generated code runs. -/
inductive Side where
  | rust
  | kotlin
  deriving DecidableEq, Repr

/-- How a run can end before its end. -/
inductive Err where
  /-- no memory left -/
  | oom
  /-- undefined behaviour -/
  | misuse
  /-- an error returned by Rust or an exception of Kotlin -/
  | failed
  /-- the bound on recursion of the model was too small -/
  | fuel
  deriving DecidableEq, Repr

/-- What was allocated at an address. -/
inductive Block where
  /-- a buffer from `ffibuffer::alloc`; a byte may not have been written yet -/
  | buffer (size : Nat) (bytes : Nat → Option Nat)
  /-- the text of a Rust `String`, and the capacity of the string -/
  | text (s : String) (cap : Nat)
  /-- a Rust `Box` -/
  | boxed (v : Val)

/-- Address to block. -/
abbrev Heap := Nat → Option Block

/-- The heap with another block, or none, at an address. -/
def Heap.set (h : Heap) (a : Nat) (b : Option Block) : Heap := fun x => if x = a then b else h x

/-- A run that uses the heap. -/
def M (α : Type) := Heap → Except Err (α × Heap)

/-- The run that does nothing. -/
def M.pure {α : Type} (a : α) : M α := fun h => .ok (a, h)

/-- One run after another; an error ends both. -/
def M.bind {α β : Type} (c : M α) (k : α → M β) : M β := fun h =>
  match c h with
  | .ok (a, h') => k a h'
  | .error e => .error e

instance : Monad M where
  pure := M.pure
  bind := M.bind

/-- The run that ends with an error. -/
def M.fail {α : Type} (e : Err) : M α := fun _ => .error e

/-- The value, or a failed run. -/
def M.some! {α : Type} (e : Err) : Option α → M α
  | some a => M.pure a
  | none => M.fail e

/-- What the rest of the system decides: where new blocks are put (`none` means that there is no
memory) and the capacity of the strings of a program. -/
structure Machine where
  newAddr : Heap → Option Nat
  strCap : Heap → String → Nat

/-- What is assumed of it: new blocks are put at free addresses that fit a pointer and are not null;
a string fits its capacity, and the capacity fits `isize`. -/
structure Machine.Ok (k : Machine) : Prop where
  fresh : ∀ h a, k.newAddr h = some a → h a = none ∧ 0 < a ∧ a < 2 ^ 64
  cap : ∀ h s, s.utf8ByteSize < 2 ^ 63 → s.utf8ByteSize ≤ k.strCap h s ∧ k.strCap h s < 2 ^ 63

/-- Putting a block at a new address. -/
def newBlock (k : Machine) (b : Block) : M Nat := fun h =>
  match k.newAddr h with
  | none => .error .oom
  | some a => .ok (a, h.set a (some b))

/-- `uniffi_core/src/ffi/ffibuffer.rs:32-50` (`alloc`). -/
def allocBuffer (k : Machine) (capacity : Nat) : M Nat :=
  if capacity = 0 then M.pure 0
  else if 2 ^ 63 - 1 < capacity then M.fail .failed
  else newBlock k (.buffer capacity fun _ => none)

/-- `ffibuffer.rs:58-72` (`free`): the capacity must be the one given to `alloc`. -/
def freeBuffer (a capacity : Nat) : M Unit := fun h =>
  if capacity = 0 then .ok ((), h) else
  match h a with
  | some (.buffer size _) => if size = capacity then .ok ((), h.set a none) else .error .misuse
  | _ => .error .misuse

/-- The bytes of a number of `n` bytes, lowest first, written from an offset on. (Both languages use the
byte order of the machine, `FfiBuffer.kt`, `SequenceFfi.kt:6`; which one it is does not matter.) -/
def writeLE (bytes : Nat → Option Nat) (off : Nat) : Nat → Nat → Nat → Option Nat
  | 0, _ => bytes
  | n + 1, x => writeLE (fun i => if i = off then some (x % 256) else bytes i) (off + 1) n (x / 256)

/-- The number in the `n` bytes from an offset on, if all were written. -/
def readLE (bytes : Nat → Option Nat) (off : Nat) : Nat → Option Nat
  | 0 => some 0
  | n + 1 => do
    let b ← bytes off
    let r ← readLE bytes (off + 1) n
    some (b + 256 * r)

/-- Writing a number of `n` bytes: `ffibuffer.rs:93-98` (Rust), `FfiBuffer.kt:4-37` (Kotlin). Rust writes
without a check, to an address that must be aligned to `n`; buffers themselves are aligned to 8
(`ffibuffer.rs:47`), so this is a matter of the offset. The `java.nio.ByteBuffer` of Kotlin checks the
bounds and does not care about alignment. -/
def store (s : Side) (b off n x : Nat) : M Unit := fun h =>
  match h b with
  | some (.buffer size bytes) =>
    match s with
    | .rust =>
      if off + n ≤ size ∧ off % n = 0 then .ok ((), h.set b (some (.buffer size (writeLE bytes off n x))))
      else .error .misuse
    | .kotlin =>
      if off + n ≤ size then .ok ((), h.set b (some (.buffer size (writeLE bytes off n x))))
      else .error .failed
  | _ => .error .misuse

/-- Reading a number of `n` bytes: `ffibuffer.rs:83-85` (Rust), `FfiBuffer.kt:3-35` (Kotlin). -/
def load (s : Side) (b off n : Nat) : M Nat := fun h =>
  match h b with
  | some (.buffer size bytes) =>
    match s with
    | .rust =>
      if off + n ≤ size ∧ off % n = 0 then
        match readLE bytes off n with
        | some x => .ok (x, h)
        | none => .error .misuse
      else .error .misuse
    | .kotlin =>
      if off + n ≤ size then
        match readLE bytes off n with
        | some x => .ok (x, h)
        | none => .error .misuse
      else .error .failed
  | _ => .error .misuse

/-- The memory of a Rust string: nothing is allocated for a capacity of 0. The address, the length and the
capacity. -/
def newText (k : Machine) (str : String) : M (Nat × Nat × Nat) := fun h =>
  let cap := k.strCap h str
  if cap = 0 then .ok ((1, str.utf8ByteSize, 0), h) else
  match k.newAddr h with
  | none => .error .oom
  | some a => .ok ((a, str.utf8ByteSize, cap), h.set a (some (.text str cap)))

/-- `String::from_raw_parts`, after which the memory belongs to the string. -/
def takeText (a len cap : Nat) : M String := fun h =>
  if cap = 0 then (if len = 0 then .ok ("", h) else .error .misuse) else
  match h a with
  | some (.text str c) =>
    if c = cap ∧ str.utf8ByteSize = len then .ok (str, h.set a none) else .error .misuse
  | _ => .error .misuse

/-- `ffibuffer.rs:174-191` (`write_string`). Kotlin calls it (`FfiBuffer.kt:44-46`,
`scaffolding/templates/ffi_buffer.rs:63-79`), so its bounds are not checked there either. -/
def writeText (k : Machine) (b off : Nat) (str : String) : M Unit := do
  let (a, len, cap) ← newText k str
  store .rust b off 8 a
  store .rust b (off + 8) 8 len
  store .rust b (off + 16) 8 cap

/-- `ffibuffer.rs:144-161` (`read_string`); Kotlin: `ffi_buffer.rs:46-60`. -/
def readText (b off : Nat) : M String := do
  let a ← load .rust b off 8
  let len ← load .rust b (off + 8) 8
  let cap ← load .rust b (off + 16) 8
  takeText a len cap

/-- `ffibuffer.rs` (`write_buffer`); Kotlin: `FfiBuffer.kt:52-54`, `ffi_buffer.rs:99-115`. -/
def writeBuffer (b off a cap : Nat) : M Unit := do
  store .rust b off 8 a
  store .rust b (off + 8) 8 cap

/-- `ffibuffer.rs:205-220` (`read_buffer`); Kotlin: `FfiBuffer.kt:48-50`, `ffi_buffer.rs:82-96`. -/
def readBuffer (b off : Nat) : M (Nat × Nat) := do
  let a ← load .rust b off 8
  let cap ← load .rust b (off + 8) 8
  pure (a, cap)

/-- `Box::into_raw`. The memory of a type without size is not modelled apart: it gets an address too. -/
def newBox (k : Machine) (v : Val) : M Nat := newBlock k (.boxed v)

/-- `Box::from_raw`, after which the box belongs to the caller. -/
def takeBox (a : Nat) : M Val := fun h =>
  match h a with
  | some (.boxed v) => .ok (v, h.set a none)
  | _ => .error .misuse

/-- The buffer for items of Kotlin: `ffiBufferAlloc` takes a 32-bit number (`SequenceFfi.kt:6`,
`scaffolding/templates/ffi_buffer.rs:17-28`), so the size wraps around; a negative one is a huge capacity,
which `alloc` refuses. The address and the capacity. -/
def kotlinAlloc (k : Machine) (size : Nat) : M (Nat × Nat) := do
  let c := castTo .i32 size
  if c < 0 then M.fail .failed
  let a ← allocBuffer k c.toNat
  pure (a, c.toNat)

/-- The buffer for items of Rust: `scaffolding/templates/sequence.rs:9-10`. -/
def rustAlloc (k : Machine) (size : Nat) : M (Nat × Nat) := do
  let a ← allocBuffer k size
  pure (a, size)

/-- The buffer for items of a list, map or set. -/
def itemsAlloc (s : Side) (k : Machine) (size : Nat) : M (Nat × Nat) :=
  match s with
  | .rust => rustAlloc k size
  | .kotlin => kotlinAlloc k size

end Verif.Jni
