import Verif.Jni.Memory
import Verif.Jni.Layout
import Verif.Jni.FfiTypes
/-
How the generated code of Rust and Kotlin (JNI) passes values: as arguments of native functions (`lower`, `lift`)
and in buffers (`write`, `read`).
-/
namespace Verif.Jni
open Verif.Wire (IntTy Val)

/-- The value of an argument of a native function. Floats are their bits; `true` is 1. -/
inductive FfiVal where
  | num (t : Ffi) (n : Int)
  | null (t : Ffi)
  | str (s : String)
  | arr (t : Ffi) (items : List Int)
  | buf (addr cap : Nat)
  deriving DecidableEq, Repr

/-- The type of an argument. -/
def FfiVal.ty : FfiVal → Ffi
  | .num t _ => t
  | .null t => t
  | .str _ => .string
  | .arr t _ => t
  | .buf _ _ => .byteBuffer

/-- `pipeline/nodes.rs` (`FfiType::default_kt`) and Rust's `Default`: 0, `false` or null. -/
def FfiVal.dflt (t : Ffi) : FfiVal :=
  match t with
  | .int8 | .int16 | .int32 | .int64 | .float32 | .float64 | .boolean => .num t 0
  | _ => .null t

/-- What the generated code was made from, and the machine it runs on. -/
structure World where
  nss : List (List TypeDef)
  layout : LayoutMap
  ffi : FfiMap
  machine : Machine

/-- The fields of a record. -/
def World.recordFields (w : World) (n : Name) : Option (List Ty) :=
  w.nss.flatten.findSome? fun d => match d with
    | .record n' fields => if n' = n then some fields else none
    | _ => none

/-- The variants of an enum that is not passed as a message. -/
def World.enumVariants (w : World) (n : Name) : Option (List (List Ty)) :=
  w.nss.flatten.findSome? fun d => match d with
    | .enum n' false variants => if n' = n then some variants else none
    | _ => none

/-- Is a value `null` in Kotlin? A box is the value in it there. -/
def isNull : Val → Bool
  | .none => true
  | .box v => isNull v
  | _ => false

/-- An optional value that was read. Kotlin has no option around a null. -/
def someOf (s : Side) (v : Val) : Val :=
  match s with
  | .rust => .some v
  | .kotlin => if isNull v then .none else .some v

/-! ### Items in a buffer -/

/-- Values with their types and offsets. -/
abbrev Slots := List (Ty × Nat × Val)

/-- The items of a list, one item size apart: `sequence.rs:11-15`, `SequenceFfi.kt:7-11`. -/
def listSlots (t : Ty) (step : Nat) : Nat → List Val → Slots
  | _, [] => []
  | o, v :: vs => (t, o, v) :: listSlots t step (o + step) vs

/-- The keys and values of a map: `map.rs:11-16`, `MapFfi.kt:6-11`. -/
def entrySlots (kt vt : Ty) (voff step : Nat) : Nat → List (Val × Val) → Slots
  | _, [] => []
  | o, (k, v) :: es => (kt, o, k) :: (vt, o + voff, v) :: entrySlots kt vt voff step (o + step) es

/-- The fields of a record or variant, with their offsets. -/
def fieldSlots : List Ty → List Nat → List Val → Slots
  | t :: ts, o :: os, v :: vs => (t, o, v) :: fieldSlots ts os vs
  | _, _, _ => []

/-- Where the items of a list are: `sequence.rs:25-32`, `SequenceFfi.kt:17-25`. -/
def listPlaces (t : Ty) (step : Nat) : Nat → Nat → List (Ty × Nat)
  | _, 0 => []
  | o, n + 1 => (t, o) :: listPlaces t step (o + step) n

/-- Where the keys and values of a map are: `map.rs:27-36`, `MapFfi.kt:19-28`. -/
def entryPlaces (kt vt : Ty) (voff step : Nat) : Nat → Nat → List (Ty × Nat)
  | _, 0 => []
  | o, n + 1 => (kt, o) :: (vt, o + voff) :: entryPlaces kt vt voff step (o + step) n

/-- Writing values one after another, in the block `b` at `off` and their own offsets. -/
def writeSlots (write : Ty → Val → Nat → Nat → M Unit) (b off : Nat) : Slots → M Unit
  | [] => pure ()
  | (t, o, v) :: rest => do
    write t v b (off + o)
    writeSlots write b off rest

/-- Reading values one after another. -/
def readPlaces (read : Ty → Nat → Nat → M Val) (b off : Nat) : List (Ty × Nat) → M (List Val)
  | [] => pure []
  | (t, o) :: rest => do
    let v ← read t b (off + o)
    let vs ← readPlaces read b off rest
    pure (v :: vs)

/-- A buffer with the values: `lower_into_parts` (`sequence.rs:5-18`, `map.rs:5-19`, `set.rs:5-18`) and
`lowerToBuffer` (`SequenceFfi.kt:5-13`, `MapFfi.kt:3-13`, `SetFfi.kt:3-12`). The address and the
capacity. Offsets of Kotlin are 32-bit numbers too; they pass the end of the buffer before they wrap around, so
this is not modelled. -/
def lowerItems (s : Side) (k : Machine) (write : Ty → Val → Nat → Nat → M Unit) (size : Nat) (slots : Slots) :
    M (Nat × Nat) := do
  let (a, cap) ← itemsAlloc s k size
  writeSlots write a 0 slots
  pure (a, cap)

/-- `lift_from_parts` (`sequence.rs:20-39`, `map.rs:21-43`, `set.rs:20-39`) and `liftFromBuffer`
(`SequenceFfi.kt:15-29`, `MapFfi.kt:15-33`, `SetFfi.kt:14-29`): the values, after which the buffer is
freed. `places` says where the values of so many items are. The capacity of a `java.nio.ByteBuffer` is a
32-bit number; `NewDirectByteBuffer` refuses larger ones. Items without size: division by zero. An error ends
the model's run, so the buffer being freed after an error is not modelled. -/
def liftItems (s : Side) (read : Ty → Nat → Nat → M Val) (step : Nat) (places : Nat → List (Ty × Nat))
    (a cap : Nat) : M (List Val) := do
  if s = .kotlin ∧ 2 ^ 31 ≤ cap then M.fail .failed
  if step = 0 then M.fail .failed
  let vs ← readPlaces read a 0 (places (cap / step))
  freeBuffer a cap
  pure vs

/-- Values two by two. -/
def pairs : List Val → List (Val × Val)
  | k :: v :: rest => (k, v) :: pairs rest
  | _ => []

/-- `HashMap::insert`, `MutableMap.put`: an entry with the same key gets the new value. Entries are listed
in the order of their first insertion. -/
def mapInsert : List (Val × Val) → Val × Val → List (Val × Val)
  | [], e => [e]
  | (k, v) :: rest, e => if k = e.1 then (k, e.2) :: rest else (k, v) :: mapInsert rest e

/-- `HashSet::insert`, `MutableSet.add`. -/
def setInsert (vs : List Val) (v : Val) : List Val := if v ∈ vs then vs else vs ++ [v]

/-! ### Numbers -/

/-- The bits of an integer. -/
def intBits (t : IntTy) (n : Int) : Nat := (n % (2 ^ (8 * t.width) : Int)).toNat

/-- The FFI type of an integer. -/
def intFfi : IntTy → Ffi
  | .i8 | .u8 => .int8
  | .i16 | .u16 => .int16
  | .i32 | .u32 => .int32
  | .i64 | .u64 => .int64

/-- An integer as an argument. -/
def lowerInt (s : Side) (t : IntTy) (n : Int) : Int :=
  match s with
  | .rust => Rust.lowerInt t n
  | .kotlin => Kotlin.lowerInt t n

/-- An integer from an argument. -/
def liftInt (s : Side) (t : IntTy) (n : Int) : Int :=
  match s with
  | .rust => Rust.liftInt t n
  | .kotlin => Kotlin.liftInt t n

/-- An item of an array of primitive values: `runtime/src/lift_lower.rs:194-530`, `LiftLower.kt:49-77`. -/
def arrItem (s : Side) : Ty → Val → Option Int
  | .int t, .int n => some (lowerInt s t n)
  | .f32, .float bits => some bits
  | .f64, .float bits => some bits
  | _, _ => none

/-- An item from an array. -/
def itemOfArr (s : Side) : Ty → Int → Option Val
  | .int t, n => some (.int (liftInt s t n))
  | .f32, n => some (.float n.toNat)
  | .f64, n => some (.float n.toNat)
  | _, _ => none

/-- Options passed as one value, `OptionalFfi.kt:51-71`, `optional.rs:49-72`, `LiftLower.kt:79-176`,
`lift_lower.rs:81-165`. `none`: no function is generated for the type. -/
def lowerSmallOption (s : Side) (t : Ty) (v : Val) : Option FfiVal :=
  match t, v with
  | .int _, .none => some (.num .int64 (match s with | .rust => Rust.lowerOptionInt none | .kotlin => Kotlin.lowerOptionInt none))
  | .int _, .some (.int n) => some (.num .int64 (match s with | .rust => Rust.lowerOptionInt (some n) | .kotlin => Kotlin.lowerOptionInt (some n)))
  | .bool, .none => some (.num .int64 (match s with | .rust => Rust.lowerOptionBool none | .kotlin => Kotlin.lowerOptionBool none))
  | .bool, .some (.bool b) => some (.num .int64 (match s with | .rust => Rust.lowerOptionBool (some b) | .kotlin => Kotlin.lowerOptionBool (some b)))
  | .f32, .none => some (.num .int32 (match s with | .rust => Rust.lowerOptionF32 none | .kotlin => Kotlin.lowerOptionF32 none))
  | .f32, .some (.float b) => some (.num .int32 (match s with | .rust => Rust.lowerOptionF32 (some b) | .kotlin => Kotlin.lowerOptionF32 (some b)))
  | .f64, .none => some (.num .int64 (match s with | .rust => Rust.lowerOptionF64 none | .kotlin => Kotlin.lowerOptionF64 none))
  | .f64, .some (.float b) => some (.num .int64 (match s with | .rust => Rust.lowerOptionF64 (some b) | .kotlin => Kotlin.lowerOptionF64 (some b)))
  | .string, .none => some (.null .string)
  | .string, .some (.str x) => some (.str x)
  | .iface _, .none => some (.num .int64 0)
  | .iface _, .some (.handle h) => some (.num .int64 (castTo .i64 h))
  | _, _ => none

/-- The other direction. Kotlin takes a handle that is negative for null (`OptionalFfi.kt:64`), Rust only 0
(`optional.rs:65`). -/
def liftSmallOption (s : Side) (t : Ty) (f : FfiVal) : Option Val :=
  let wrap (c : Val → Val) (o : Option Val) : Val := match o with | none => .none | some x => c x
  match t, f with
  | .int t, .num .int64 n =>
    some (wrap .some ((match s with | .rust => Rust.liftOptionInt t n | .kotlin => Kotlin.liftOptionInt t n).map Val.int))
  | .bool, .num .int64 n =>
    some (wrap .some ((match s with | .rust => Rust.liftOptionBool n | .kotlin => Kotlin.liftOptionBool n).map Val.bool))
  | .f32, .num .int32 n =>
    some (wrap .some ((match s with | .rust => Rust.liftOptionF32 n.toNat | .kotlin => Kotlin.liftOptionF32 n.toNat).map Val.float))
  | .f64, .num .int64 n =>
    some (wrap .some ((match s with | .rust => Rust.liftOptionF64 n.toNat | .kotlin => Kotlin.liftOptionF64 n.toNat).map Val.float))
  | .string, .null .string => some .none
  | .string, .str x => some (.some (.str x))
  | .iface _, .num .int64 n =>
    match s with
    | .rust => some (if n ≠ 0 then .some (.handle (castTo .u64 n).toNat) else .none)
    | .kotlin => some (if 0 < n then .some (.handle (castTo .u64 n).toNat) else .none)
  | _, _ => none

/-! ### The generated functions -/

/-- The functions generated for each type. -/
structure Fns where
  write : Side → Ty → Val → Nat → Nat → M Unit
  read : Side → Ty → Nat → Nat → M Val
  lower : Side → Ty → Val → M (List FfiVal)
  lift : Side → Ty → List FfiVal → M Val

/-- Each value with the function for its type. -/
def lowerAll (lower : Ty → Val → M (List FfiVal)) : List Ty → List Val → M (List (List FfiVal))
  | [], [] => pure []
  | t :: ts, v :: vs => do
    let p ← lower t v
    let ps ← lowerAll lower ts vs
    pure (p :: ps)
  | _, _ => M.fail .failed

/-- Each group of arguments with the function for its type. -/
def liftAll (lift : Ty → List FfiVal → M Val) : List Ty → List (List FfiVal) → M (List Val)
  | [], [] => pure []
  | t :: ts, p :: ps => do
    let v ← lift t p
    let vs ← liftAll lift ts ps
    pure (v :: vs)
  | _, _ => M.fail .failed

/-- A list, map or set in a buffer of its own. Which values, how far apart and how many bytes in all. -/
def World.itemsOf (w : World) : Ty → Val → Option (Slots × Nat)
  | .seq t, .seq vs | .set t, .set vs => do
    let step ← w.layout.itemSize t
    some (listSlots t step 0 vs, vs.length * step)
  | .map kt vt, .map es => do
    let (voff, step) ← w.layout.entry kt vt
    some (entrySlots kt vt voff step 0 es, es.length * step)
  | _, _ => none

/-- The size of an item and the places of so many items. -/
def World.placesOf (w : World) : Ty → Option (Nat × (Nat → List (Ty × Nat)))
  | .seq t | .set t => do
    let step ← w.layout.itemSize t
    some (step, listPlaces t step 0)
  | .map kt vt => do
    let (voff, step) ← w.layout.entry kt vt
    some (step, entryPlaces kt vt voff step 0)
  | _ => none

/-- The list, map or set of the values read. -/
def collect : Ty → List Val → Val
  | .map _ _, vs => .map ((pairs vs).foldl mapInsert [])
  | .set _, vs => .set (vs.foldl setInsert [])
  | _, vs => .seq vs

/-- Lowering a list, map or set into a buffer of its own. -/
def World.lowerBuf (w : World) (r : Fns) (s : Side) (t : Ty) (v : Val) : M (Nat × Nat) := do
  let (slots, size) ← M.some! .failed (w.itemsOf t v)
  lowerItems s w.machine (r.write s) size slots

/-- Lifting it. -/
def World.liftBuf (w : World) (r : Fns) (s : Side) (t : Ty) (a cap : Nat) : M Val := do
  let (step, places) ← M.some! .failed (w.placesOf t)
  let vs ← liftItems s (r.read s) step places a cap
  pure (collect t vs)

/-- A box from a value. Rust has the box already (`box.rs:5-13`). Kotlin passes the value in it to Rust
(`BoxFfi.kt:3-11`), which makes the box (`box.rs:53-70`). -/
def World.boxOf (w : World) (r : Fns) (s : Side) (t : Ty) (v : Val) : M Nat :=
  match s with
  | .rust => newBox w.machine v
  | .kotlin => do
    let f ← r.lower .kotlin t v
    let v' ← r.lift .rust t f
    newBox w.machine v'

/-- The value in a box, which is gone then. Rust: `box.rs:15-23`. Kotlin asks Rust for it (`BoxFfi.kt:13-16`,
`box.rs:72-92`). -/
def World.unbox (w : World) (r : Fns) (s : Side) (t : Ty) (a : Nat) : M Val :=
  match s with
  | .rust => takeBox a
  | .kotlin => do
    let v ← takeBox a
    let f ← r.lower .rust t v
    r.lift .kotlin t f

/-- Writing a value at an offset of a buffer, given the functions for its parts. Cited at each case:
scaffolding/templates (Rust) and bindings/templates/shared (Kotlin). Custom types are represented by the
value they are converted to; the user's conversions are left out (`custom.rs:30-39`, `CustomFfi.kt:30-35`). Handles are
numbers; what objects they stand for is not modelled here (`class.rs`, `ClassFfi.kt:59-61`). -/
def World.write (w : World) (r : Fns) (s : Side) (t : Ty) (v : Val) (b off : Nat) : M Unit :=
  match t, v with
  -- `FfiBuffer.kt:3-37`, `ffibuffer.rs:102-111`
  | .int t, .int n => store s b off t.width (intBits t n)
  | .f32, .float bits => store s b off 4 bits
  | .f64, .float bits => store s b off 8 bits
  | .bool, .bool x => store s b off 1 (if x then 1 else 0)
  | .string, .str x => writeText w.machine b off x
  | .iface _, .handle h => store s b off 8 h
  -- `optional.rs:74-90`, `OptionalFfi.kt:73-80`
  | .option _, .none => store s b off 1 0
  | .option t, .some v =>
    if s = .kotlin ∧ isNull v then store s b off 1 0 else do
      store s b off 1 1
      let o ← M.some! .failed (w.layout.someOffset t)
      r.write s t v b (off + o)
  -- `sequence.rs:61-68`, `map.rs:61-68`, `set.rs:57-64`, `SequenceFfi.kt:45-48`, `MapFfi.kt:35-38`,
  -- `SetFfi.kt:31-34`
  | .seq _, .seq _ | .set _, .set _ | .map _ _, .map _ => do
    let (a, cap) ← w.lowerBuf r s t v
    writeBuffer b off a cap
  -- `box.rs:45-51`, `BoxFfi.kt:18-20`
  | .box t, .box v => do
    let a ← w.boxOf r s t v
    store s b off 8 a
  -- `record.rs:46-56`, `RecordFfi.kt:49-53`
  | .record n, .record vs => do
    let fields ← M.some! .failed (w.recordFields n)
    let offs ← M.some! .failed (w.layout.recordOffsets fields)
    writeSlots (r.write s) b off (fieldSlots fields offs vs)
  -- `enum.rs:103-135`, `EnumFfi.kt:19-21` and `104-115`
  | .enum n, .variant i vs => do
    let variants ← M.some! .failed (w.enumVariants n)
    let fields ← M.some! .failed (variants[i]?)
    let offs ← M.some! .failed (w.layout.variantOffsets fields)
    store s b off 4 (intBits .i32 i)
    writeSlots (r.write s) b off (fieldSlots fields offs vs)
  | .custom _ t, v => r.write s t v b off
  | _, _ => M.fail .failed

/-- Reading a value at an offset of a buffer; what it owns is freed. -/
def World.read (w : World) (r : Fns) (s : Side) (t : Ty) (b off : Nat) : M Val :=
  match t with
  | .int t => do
    let x ← load s b off t.width
    pure (.int (castTo t x))
  | .f32 => do
    let x ← load s b off 4
    pure (.float x)
  | .f64 => do
    let x ← load s b off 8
    pure (.float x)
  | .bool => do
    let x ← load s b off 1
    pure (.bool (x == 1))
  | .string => do
    let x ← readText b off
    pure (.str x)
  | .iface _ => do
    let x ← load s b off 8
    pure (.handle x)
  -- `optional.rs:92-106`, `OptionalFfi.kt:82-87`
  | .option t => do
    let x ← load s b off 1
    if x = 1 then do
      let o ← M.some! .failed (w.layout.someOffset t)
      let v ← r.read s t b (off + o)
      pure (someOf s v)
    else pure .none
  -- `sequence.rs:70-75`, `map.rs:70-75`, `set.rs:66-71`, `SequenceFfi.kt:50-53`, `MapFfi.kt:40-43`,
  -- `SetFfi.kt:36-39`
  | .seq _ | .set _ | .map _ _ => do
    let (a, cap) ← readBuffer b off
    w.liftBuf r s t a cap
  -- `box.rs:39-43`, `BoxFfi.kt:22-24`
  | .box t => do
    let a ← load s b off 8
    let v ← w.unbox r s t a
    pure (.box v)
  -- `record.rs:58-68`, `RecordFfi.kt:55-61`
  | .record n => do
    let fields ← M.some! .failed (w.recordFields n)
    let offs ← M.some! .failed (w.layout.recordOffsets fields)
    let vs ← readPlaces (r.read s) b off (fields.zip offs)
    pure (.record vs)
  -- `enum.rs:137-172`, `EnumFfi.kt:23-25` and `117-137`
  | .enum n => do
    let variants ← M.some! .failed (w.enumVariants n)
    let x ← load s b off 4
    let i := castTo .i32 x
    if i < 0 then M.fail .failed
    let fields ← M.some! .failed (variants[i.toNat]?)
    let offs ← M.some! .failed (w.layout.variantOffsets fields)
    let vs ← readPlaces (r.read s) b off (fields.zip offs)
    pure (.variant i.toNat vs)
  | .custom _ t => r.read s t b off
  | _ => M.fail .failed

/-- Taking a value apart into arguments. Bytes, durations and timestamps are in Jni/Simple.lean; callback
interfaces are left out. -/
def World.lower (w : World) (r : Fns) (s : Side) (t : Ty) (v : Val) : M (List FfiVal) :=
  match t, v with
  -- `runtime/src/lift_lower.rs:19-60`, `LiftLower.kt:1-35`
  | .int t, .int n => pure [.num (intFfi t) (lowerInt s t n)]
  | .f32, .float bits => pure [.num .float32 bits]
  | .f64, .float bits => pure [.num .float64 bits]
  | .bool, .bool x => pure [.num .boolean (if x then 1 else 0)]
  | .string, .str x => pure [.str x]
  | .iface _, .handle h => pure [.num .int64 (castTo .i64 h)]
  | .option t, v =>
    match standard (.option t) with
    | some _ => do
      let f ← M.some! .failed (lowerSmallOption s t v)
      pure [f]
    -- `optional.rs:7-30`, `OptionalFfi.kt:14-32`
    | none => do
      let ffi ← M.some! .failed (w.ffi.get t)
      match v with
      | .none => pure (.num .boolean 0 :: ffi.map .dflt)
      | .some v =>
        if s = .kotlin ∧ isNull v then pure (.num .boolean 0 :: ffi.map .dflt) else do
          let f ← r.lower s t v
          pure (.num .boolean 1 :: f)
      | _ => M.fail .failed
  -- `sequence.rs:43-49`, `SequenceFfi.kt:33-36` and for primitive items `lift_lower.rs:194-530`
  | .seq t, .seq vs =>
    if seqFfi t = .byteBuffer then do
      let (a, cap) ← w.lowerBuf r s (.seq t) (.seq vs)
      pure [.buf a cap]
    else do
      let items ← M.some! .failed (vs.mapM (arrItem s t))
      pure [.arr (seqFfi t) items]
  -- `map.rs:45-51`, `set.rs:41-47`, `MapFfi.kt:3-13`, `SetFfi.kt:3-12`
  | .set _, .set _ | .map _ _, .map _ => do
    let (a, cap) ← w.lowerBuf r s t v
    pure [.buf a cap]
  -- `box.rs:25-30`, `BoxFfi.kt:3-11`
  | .box t, .box v => do
    let a ← w.boxOf r s t v
    pure [.num .int64 (castTo .i64 a)]
  -- `record.rs:3-24`, `RecordFfi.kt:12-30`
  | .record n, .record vs => do
    let fields ← M.some! .failed (w.recordFields n)
    let pieces ← lowerAll (r.lower s) fields vs
    pure (packRecord pieces)
  -- `enum.rs:4-59`, `EnumFfi.kt:5-8` and `37-72`
  | .enum n, .variant i vs => do
    let variants ← M.some! .failed (w.enumVariants n)
    let fields ← M.some! .failed (variants[i]?)
    let ffi ← M.some! .failed (w.ffi.get (.enum n))
    let per ← M.some! .failed (fields.mapM w.ffi.get)
    let alloc ← M.some! .failed (allocVariant ffi per)
    let pieces ← lowerAll (r.lower s) fields vs
    M.some! .failed (packVariant .dflt ffi alloc (.num .int32 (castTo .i32 i)) pieces)
  -- `custom.rs:3-11`, `CustomFfi.kt:3-9`
  | .custom _ t, v => r.lower s t v
  | _, _ => M.fail .failed

/-- Putting a value together from arguments. -/
def World.lift (w : World) (r : Fns) (s : Side) (t : Ty) (fs : List FfiVal) : M Val :=
  match t, fs with
  | .int t, [.num _ n] => pure (.int (liftInt s t n))
  | .f32, [.num _ n] => pure (.float n.toNat)
  | .f64, [.num _ n] => pure (.float n.toNat)
  | .bool, [.num _ n] => pure (.bool (n == 1))
  | .string, [.str x] => pure (.str x)
  | .iface _, [.num _ n] => pure (.handle (castTo .u64 n).toNat)
  | .option t, fs =>
    match standard (.option t) with
    | some _ =>
      match fs with
      | [f] => M.some! .failed (liftSmallOption s t f)
      | _ => M.fail .failed
    -- `optional.rs:32-48`, `OptionalFfi.kt:34-49`
    | none =>
      match fs with
      | .num .boolean n :: rest =>
        if n = 1 then do
          let v ← r.lift s t rest
          pure (someOf s v)
        else pure .none
      | _ => M.fail .failed
  -- `sequence.rs:51-57`, `SequenceFfi.kt:38-41`
  | .seq t, [f] =>
    match f with
    | .buf a cap => w.liftBuf r s (.seq t) a cap
    | .arr _ items => do
      let vs ← M.some! .failed (items.mapM (itemOfArr s t))
      pure (.seq vs)
    | _ => M.fail .failed
  -- `map.rs:53-59`, `set.rs:49-55`, `MapFfi.kt:15-33`, `SetFfi.kt:14-29`
  | .set t, [.buf a cap] => w.liftBuf r s (.set t) a cap
  | .map kt vt, [.buf a cap] => w.liftBuf r s (.map kt vt) a cap
  -- `box.rs:32-37`, `BoxFfi.kt:13-16`
  | .box t, [.num _ n] => do
    let v ← w.unbox r s t (castTo .u64 n).toNat
    pure (.box v)
  -- `record.rs:26-44`, `RecordFfi.kt:32-47`
  | .record n, fs => do
    let fields ← M.some! .failed (w.recordFields n)
    let per ← M.some! .failed (fields.mapM w.ffi.get)
    let pieces ← M.some! .failed (unpackRecord (recordIndices 0 per) fs)
    let vs ← liftAll (r.lift s) fields pieces
    pure (.record vs)
  -- `enum.rs:61-101`, `EnumFfi.kt:10-17` and `74-102`
  | .enum n, .num _ d :: rest => do
    let variants ← M.some! .failed (w.enumVariants n)
    if d < 0 then M.fail .failed
    let fields ← M.some! .failed (variants[d.toNat]?)
    let ffi ← M.some! .failed (w.ffi.get (.enum n))
    let per ← M.some! .failed (fields.mapM w.ffi.get)
    let alloc ← M.some! .failed (allocVariant ffi per)
    let pieces ← M.some! .failed (unpackVariant alloc (.num .int32 d :: rest))
    let vs ← liftAll (r.lift s) fields pieces
    pure (.variant d.toNat vs)
  -- `custom.rs:13-28`, `CustomFfi.kt:11-28`
  | .custom _ t, fs => r.lift s t fs
  | _, _ => M.fail .failed

/-- The generated functions, which call each other; the number bounds how deep. -/
def World.fns (w : World) : Nat → Fns
  | 0 => ⟨fun _ _ _ _ _ => M.fail .fuel, fun _ _ _ _ => M.fail .fuel, fun _ _ _ => M.fail .fuel,
      fun _ _ _ => M.fail .fuel⟩
  | n + 1 => ⟨w.write (w.fns n), w.read (w.fns n), w.lower (w.fns n), w.lift (w.fns n)⟩

end Verif.Jni
