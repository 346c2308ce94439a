import Verif.Bytes
/-
`RustBuffer` over a heap of allocations (uniffi_core/src/ffi/rustbuffer.rs), the foreign buffer
builders, and `ForeignBytes` (uniffi_core/src/ffi/foreignbytes.rs).

Simplifications: `usize` is 64 bits wide, so the `try_into` conversions between `u64` and `usize`
cannot fail; running out of memory (which aborts the process) is not modelled; a reallocation
always moves.
-/
namespace Verif.Buffer
open Verif

/-- `isize::MAX`: the largest size of a Rust allocation. -/
def isizeMax : Nat := 2 ^ 63 - 1

/-- A raw data pointer: null, the dangling non-null pointer of an empty `Vec`, or the start of the
allocation with that number. -/
inductive Ptr where
  | null
  | dangling
  | at (id : Nat)
  deriving DecidableEq, Repr

/-- The allocations made so far: `some bytes` if live (as many bytes as were asked for), `none` if
released. `released` lists the released allocations, latest first. -/
structure Heap where
  cells : List (Option Bytes) := []
  released : List Nat := []
  deriving DecidableEq, Repr

/-- What happens when code runs: a result, a panic (with the heap after unwinding), or undefined
behaviour (access to memory that is not a live allocation of that size). -/
inductive Out (α : Type) where
  | ok (h : Heap) (a : α)
  | panic (h : Heap)
  | ub
  deriving DecidableEq, Repr

def Out.bind {α β : Type} : Out α → (Heap → α → Out β) → Out β
  | .ok h a, f => f h a
  | .panic h, _ => .panic h
  | .ub, _ => .ub

/-- Freedom of the Rust allocator: how far a growing vector over-allocates, and what uninitialised
memory contains. -/
structure Alloc where
  grow : Nat → Nat → Nat
  le_grow : ∀ cap needed, needed ≤ grow cap needed
  junk : Nat → UInt8

/-- `std`'s current policy (RawVec::grow_amortized for one-byte elements). -/
def stdAlloc : Alloc where
  grow cap needed := max (max (2 * cap) needed) 8
  le_grow := by intro cap needed; omega
  junk := fun _ => 0

/-- Allocate; an allocation of size zero is the dangling pointer. -/
def Heap.alloc (h : Heap) (bs : Bytes) : Heap × Ptr :=
  if bs = [] then (h, .dangling) else ({ h with cells := h.cells ++ [some bs] }, .at h.cells.length)

/-- The bytes at a pointer, if it points at a live allocation. -/
def Heap.get (h : Heap) : Ptr → Option Bytes
  | .at id => (h.cells[id]?).join
  | _ => none

/-- Release the allocation `id`. -/
def Heap.release (h : Heap) (id : Nat) : Heap :=
  { cells := h.cells.set id none, released := id :: h.released }

/-- Replace the contents of a live allocation. -/
def Heap.put (h : Heap) (id : Nat) (bs : Bytes) : Heap :=
  { h with cells := h.cells.set id (some bs) }

/-! ### `Vec<u8>` by its raw parts -/

/-- The raw parts of a `Vec<u8>`. -/
structure RVec where
  ptr : Ptr
  len : Nat
  cap : Nat
  deriving DecidableEq, Repr

/-- `Vec::from_raw_parts`: undefined unless the parts describe a live allocation of that
capacity (or an empty vector). -/
def Heap.fromRawParts (h : Heap) (p : Ptr) (len cap : Nat) : Out RVec :=
  if cap = 0 then .ok h { ptr := .dangling, len, cap }
  else match h.get p with
    | some bs => if bs.length = cap ∧ len ≤ cap then .ok h { ptr := p, len, cap } else .ub
    | none => .ub

/-- The elements of a vector. -/
def RVec.contents (h : Heap) (v : RVec) : Bytes :=
  match h.get v.ptr with
  | some bs => bs.take v.len
  | none => []

/-- Dropping a vector. -/
def RVec.drop (h : Heap) (v : RVec) : Out Unit :=
  if v.cap = 0 then .ok h ()
  else match v.ptr, h.get v.ptr with
    | .at id, some _ => .ok (h.release id) ()
    | _, _ => .ub

/-- A vector with the elements `bs` and the uninitialised spare capacity `spare`. -/
def Heap.vec (h : Heap) (bs spare : Bytes) : Heap × RVec :=
  ((h.alloc (bs ++ spare)).1,
    { ptr := (h.alloc (bs ++ spare)).2, len := bs.length, cap := (bs ++ spare).length })

/-- `Vec::reserve`: nothing if there is room, else reallocate to at least `len + additional`,
keeping the elements; panics with "capacity overflow" (and drops the vector while unwinding) above
`isize::MAX`. -/
def RVec.reserve (a : Alloc) (h : Heap) (v : RVec) (additional : Nat) : Out RVec :=
  if additional ≤ v.cap - v.len then .ok h v
  else if isizeMax < v.len + additional then
    match v.drop h with
    | .ok h _ => .panic h
    | .panic h => .panic h
    | .ub => .ub
  else
    let old := v.contents h
    let spare := (List.range (a.grow v.cap (v.len + additional) - v.len)).map a.junk
    (v.drop h).bind fun h _ => .ok (h.vec old spare).1 (h.vec old spare).2

/-! ### `RustBuffer` -/

/-- rustbuffer.rs:53-63. -/
structure RustBuffer where
  capacity : Nat
  len : Nat
  data : Ptr
  deriving DecidableEq, Repr

/-- ffidefault.rs:50-54: the null buffer returned when a call fails. -/
def RustBuffer.ffiDefault : RustBuffer := { capacity := 0, len := 0, data := .null }

/-- rustbuffer.rs:146-151. -/
def RustBuffer.fromVec (v : RVec) : RustBuffer :=
  { capacity := v.cap, len := v.len, data := v.ptr }

/-- rustbuffer.rs:133-135; `vec![0; size]` panics above `isize::MAX`. -/
def RustBuffer.newWithSize (h : Heap) (size : Nat) : Out RustBuffer :=
  if isizeMax < size then .panic h
  else .ok (h.vec (List.replicate size 0) []).1 (fromVec (h.vec (List.replicate size 0) []).2)

/-- rustbuffer.rs:163-182. -/
def RustBuffer.destroyIntoVec (h : Heap) (b : RustBuffer) : Out RVec :=
  if b.data = .null then
    if b.capacity ≠ 0 then .panic h
    else if b.len ≠ 0 then .panic h
    else .ok h { ptr := .dangling, len := 0, cap := 0 }
  else if b.len ≤ b.capacity then h.fromRawParts b.data b.len b.capacity
  else .panic h

/-- rustbuffer.rs:190-192. -/
def RustBuffer.destroy (h : Heap) (b : RustBuffer) : Out Unit :=
  (b.destroyIntoVec h).bind fun h v => v.drop h

/-! ### The exported buffer functions

The result of a call through `rust_call`: the returned value and whether the status says success
(`rust_call` itself is modelled in Verif/Call). -/

/-- A finished call: heap, returned value, did it succeed. `none` is undefined behaviour. -/
abbrev Called (α : Type) := Option (Heap × α × Bool)

/-- rustcalls.rs:164-181: a panic becomes the default value and a failure status. -/
def rustCall {α : Type} (dflt : α) : Out α → Called α
  | .ok h a => some (h, a, true)
  | .panic h => some (h, dflt, false)
  | .ub => none

/-- `uniffi_rustbuffer_alloc`, rustbuffer.rs:211-213. -/
def ffiAlloc (h : Heap) (size : Nat) : Called RustBuffer :=
  rustCall .ffiDefault (RustBuffer.newWithSize h size)

/-- foreignbytes.rs:35-40: a borrowed view of foreign memory. `data` is the memory pointed at, or
`none` for null. -/
structure ForeignBytes where
  len : Int
  data : Option Bytes
  deriving DecidableEq, Repr

/-- foreignbytes.rs:53-71 (`as_slice`). The foreign memory must be at least `len` long. -/
def ForeignBytes.asSlice (h : Heap) (f : ForeignBytes) : Out Bytes :=
  match f.data with
  | none => if f.len = 0 then .ok h [] else .panic h
  | some mem =>
      if f.len < 0 then .panic h
      else if f.len.toNat ≤ mem.length then .ok h (mem.take f.len.toNat)
      else .ub

/-- `uniffi_rustbuffer_from_bytes`, rustbuffer.rs:223-231. -/
def ffiFromBytes (h : Heap) (f : ForeignBytes) : Called RustBuffer :=
  rustCall .ffiDefault ((f.asSlice h).bind fun h bs =>
    .ok (h.vec bs []).1 (.fromVec (h.vec bs []).2))

/-- `uniffi_rustbuffer_free`, rustbuffer.rs:239-244. -/
def ffiFree (h : Heap) (b : RustBuffer) : Called Unit := rustCall () (b.destroy h)

/-- `uniffi_rustbuffer_reserve`, rustbuffer.rs:261-275. -/
def ffiReserve (a : Alloc) (h : Heap) (b : RustBuffer) (additional : Nat) : Called RustBuffer :=
  rustCall .ffiDefault ((b.destroyIntoVec h).bind fun h v =>
    (v.reserve a h additional).bind fun h v => .ok h (.fromVec v))

/-- The bytes of a buffer: the first `len` bytes at `data`. -/
def RustBuffer.bytes (h : Heap) (b : RustBuffer) : Bytes :=
  match h.get b.data with
  | some bs => bs.take b.len
  | none => []

/-! ### Foreign buffer builders -/

/-- Store `bs` at `data + off` from foreign code; undefined outside a live allocation. -/
def memmove (h : Heap) (p : Ptr) (off : Nat) (bs : Bytes) : Option Heap :=
  if bs = [] then some h
  else match p, h.get p with
    | .at id, some old =>
        if off + bs.length ≤ old.length then
          some (h.put id (old.take off ++ bs ++ old.drop (off + bs.length)))
        else none
    | _, _ => none

/-- What a builder call does: the new state, an exception (with the heap; the builder keeps its
old buffer field), or undefined behaviour. -/
inductive Built where
  | ok (h : Heap) (b : RustBuffer)
  | raised (h : Heap) (b : RustBuffer)
  | ub
  deriving DecidableEq, Repr

/-- `__init__`: python/templates/RustBufferTemplate.py:245-247,
ruby/templates/RustBufferBuilder.rb:3-6. -/
def builderNew (h : Heap) : Built :=
  match ffiAlloc h 16 with
  | none => .ub
  | some (h, b, true) => .ok h { b with len := 0 }
  | some (h, b, false) => .raised h b

/-- `_reserve` followed by the copy and `len += n`: python/templates/RustBufferTemplate.py:259-277,
ruby/templates/RustBufferBuilder.rb:23-27 and 317-331. -/
def builderWrite (a : Alloc) (h : Heap) (b : RustBuffer) (bs : Bytes) : Built :=
  if b.len + bs.length > b.capacity then
    match ffiReserve a h b bs.length with
    | none => .ub
    | some (h, b', true) => store h b'
    | some (h, _, false) => .raised h b
  else store h b
where
  store (h : Heap) (b : RustBuffer) : Built :=
    match memmove h b.data b.len bs with
    | none => .ub
    | some h => .ok h { b with len := b.len + bs.length }

/-- A whole lowering: a new builder, any number of writes, `finalize`. -/
def build (a : Alloc) (h : Heap) (chunks : List Bytes) : Built :=
  match builderNew h with
  | .ok h b => go h b chunks
  | r => r
where
  go (h : Heap) (b : RustBuffer) : List Bytes → Built
    | [] => .ok h b
    | c :: cs => match builderWrite a h b c with
      | .ok h b => go h b cs
      | r => r

/-- `alloc_with_builder`: on an exception the builder is discarded, which frees its buffer
(python/templates/RustBufferTemplate.py:33-45 and 254-257,
ruby/templates/RustBufferTemplate.rb:40-50). -/
def lower (a : Alloc) (h : Heap) (chunks : List Bytes) : Option (Heap × Option RustBuffer) :=
  match build a h chunks with
  | .ok h b => some (h, some b)
  | .raised h b => (ffiFree h b).map fun r => (r.1, none)
  | .ub => none

/-! ### Histories of buffer calls -/

/-- One step of the foreign side or of Rust; `i` picks one of the buffers the foreign side holds. -/
inductive Op where
  | alloc (size : Nat)
  | fromBytes (bs : Bytes)
  | free (i : Nat)
  | reserve (i additional : Nat)
  /-- write within the capacity and set the length, as the builders and `lowerIntoRustBuffer` do -/
  | fill (i off : Nat) (bs : Bytes) (len : Nat)
  /-- pass the buffer to a Rust function, which lifts from it and drops the vector -/
  | toRust (i : Nat)
  /-- a Rust function returns a vector with those elements and spare capacity -/
  | fromRust (bs spare : Bytes)
  deriving Repr

/-- The heap and the buffers the foreign side currently holds. -/
structure World where
  heap : Heap := {}
  held : List RustBuffer := []
  deriving DecidableEq, Repr

/-- Hand a buffer to the foreign side if the call succeeded. -/
def World.give (w : World) : Called RustBuffer → Option World
  | none => none
  | some (h, b, true) => some { heap := h, held := b :: w.held }
  | some (h, _, false) => some { w with heap := h }

/-- One step; `none` is undefined behaviour. Consuming a buffer removes it from `held`: each buffer
value is used once. An index out of range, or a write outside the capacity, is not a step. -/
def World.step (a : Alloc) (w : World) : Op → Option World
  | .alloc size => w.give (ffiAlloc w.heap size)
  | .fromBytes bs => w.give (ffiFromBytes w.heap { len := bs.length, data := some bs })
  | .fromRust bs spare =>
      some { heap := (w.heap.vec bs spare).1, held := .fromVec (w.heap.vec bs spare).2 :: w.held }
  | .free i => match w.held[i]? with
      | none => some w
      | some b => (ffiFree w.heap b).map fun r => { heap := r.1, held := w.held.eraseIdx i }
  | .toRust i => match w.held[i]? with
      | none => some w
      | some b => match b.destroy w.heap with
        | .ok h _ => some { heap := h, held := w.held.eraseIdx i }
        | .panic h => some { heap := h, held := w.held.eraseIdx i }
        | .ub => none
  | .reserve i additional => match w.held[i]? with
      | none => some w
      | some b => World.give { w with held := w.held.eraseIdx i } (ffiReserve a w.heap b additional)
  | .fill i off bs len => match w.held[i]? with
      | none => some w
      | some b =>
          if off + bs.length ≤ b.capacity ∧ len ≤ b.capacity then
            (memmove w.heap b.data off bs).map fun h =>
              { heap := h, held := { b with len := len } :: w.held.eraseIdx i }
          else some w

/-- A whole history. -/
def World.run (a : Alloc) (w : World) : List Op → Option World
  | [] => some w
  | op :: ops => (w.step a op).bind fun w => w.run a ops

end Verif.Buffer
