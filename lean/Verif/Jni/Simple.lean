import Verif.Jni.Types
/-
Simple values as arguments of native functions (Kotlin JNI). Integers are numbers, floats are their bits.
-/
namespace Verif.Jni
open Verif.Wire (IntTy)

/-- A conversion between integer types, `as` in Rust and `toByte`, `toUByte`, ... in Kotlin: the low bits
are kept. -/
def castTo (t : IntTy) (n : Int) : Int :=
  let r := n % (2 ^ (8 * t.width) : Int)
  if t.signed = true ∧ (2 ^ (8 * t.width - 1) : Int) ≤ r then r - (2 ^ (8 * t.width) : Int) else r

/-- The signed type of the same width, which is what the JVM has: `ffi_types.rs:13-20`. -/
def jniTy : IntTy → IntTy
  | .u8 | .i8 => .i8
  | .u16 | .i16 => .i16
  | .u32 | .i32 => .i32
  | .u64 | .i64 => .i64

/-- `i64::MAX` and `Long.MAX_VALUE`. -/
def i64Max : Int := 2 ^ 63 - 1

namespace Rust

/-- `runtime/src/lift_lower.rs:19-31` and `33-43`. -/
def lowerInt (t : IntTy) (v : Int) : Int := castTo (jniTy t) v

/-- `runtime/src/lift_lower.rs:19-31` and `33-43`. -/
def liftInt (t : IntTy) (n : Int) : Int := castTo t n

/-- `lift_lower.rs:94-99`. -/
def lowerOptionInt : Option Int → Int
  | none => i64Max
  | some v => castTo .i64 v

/-- `lift_lower.rs:86-92`. -/
def liftOptionInt (t : IntTy) (n : Int) : Option Int :=
  if n = i64Max then none else some (castTo t n)

/-- `lift_lower.rs:118-123`. -/
def lowerOptionBool : Option Bool → Int
  | none => i64Max
  | some b => if b then 1 else 0

/-- `lift_lower.rs:110-116`. -/
def liftOptionBool (n : Int) : Option Bool :=
  if n = i64Max then none else some (n == 1)

/-- `lift_lower.rs:134-144`. The bits of the float and of the `i32` passed. -/
def lowerOptionF32 : Option Nat → Nat
  | none => 0xFFFF_FFFF
  | some bits => if bits = 0xFFFF_FFFF then 0xFFC0_0000 else bits

/-- `lift_lower.rs:125-132`. -/
def liftOptionF32 (bits : Nat) : Option Nat := if bits = 0xFFFF_FFFF then none else some bits

/-- `lift_lower.rs:155-165`. The bits of the float and of the `i64` passed. -/
def lowerOptionF64 : Option Nat → Nat
  | none => 0xFFFF_FFFF_FFFF_FFFF
  | some bits => if bits = 0xFFFF_FFFF_FFFF_FFFF then 0xFFF8_0000 else bits

/-- `lift_lower.rs:146-153`. -/
def liftOptionF64 (bits : Nat) : Option Nat := if bits = 0xFFFF_FFFF_FFFF_FFFF then none else some bits

/-- `scaffolding/templates/duration.rs:1-6`. A duration is its length in nanoseconds. -/
def lowerDuration (ns : Nat) : Int × Int :=
  (castTo .i64 (ns / 1000000000 : Nat), castTo .i32 (ns % 1000000000 : Nat))

/-- `Duration::new` takes whole seconds from the nanoseconds; it panics if the seconds overflow. -/
def newDuration (secs nanos : Nat) : Option Nat :=
  if secs + nanos / 1000000000 < 2 ^ 64 then some (secs * 1000000000 + nanos) else none

/-- `duration.rs:8-14`. -/
def liftDuration (seconds nanos : Int) : Option Nat :=
  newDuration (castTo .u64 seconds).toNat (castTo .u32 nanos).toNat

/-- `timestamp.rs:1-15` and `30-40`. An instant is its distance from the epoch in nanoseconds; `none` is a
panic. -/
def lowerTimestamp (ns : Int) : Option (Int × Int) :=
  let secs : Nat := ns.natAbs / 1000000000
  let sign : Int := if 0 ≤ ns then 1 else -1
  if (secs : Int) ≤ i64Max then some (sign * secs, castTo .i32 (ns.natAbs % 1000000000 : Nat)) else none

/-- Where `SystemTime` ends: its seconds are an `i64`. -/
def timeInRange (ns : Int) : Prop := -(2 ^ 63 * 1000000000) ≤ ns ∧ ns < 2 ^ 63 * 1000000000

instance (ns : Int) : Decidable (timeInRange ns) := by unfold timeInRange; exact inferInstance

/-- `timestamp.rs:17-28` and `42-48`. `wrapping_abs` keeps the smallest number, which as a `u64` is its
absolute value. -/
def liftTimestamp (seconds nanos : Int) : Option Int := do
  let off ← newDuration seconds.natAbs (castTo .u32 nanos).toNat
  let ns : Int := if 0 ≤ seconds then off else -off
  if timeInRange ns then some ns else none

end Rust

namespace Kotlin

/-- `bindings/templates/shared/LiftLower.kt:1-24`. -/
def lowerInt (t : IntTy) (v : Int) : Int := castTo (jniTy t) v

/-- `LiftLower.kt:1-24`. -/
def liftInt (t : IntTy) (n : Int) : Int := castTo t n

/-- `LiftLower.kt:79-119`. -/
def lowerOptionInt : Option Int → Int
  | none => i64Max
  | some v => castTo .i64 v

/-- `LiftLower.kt:79-119`. -/
def liftOptionInt (t : IntTy) (n : Int) : Option Int :=
  if n = i64Max then none else some (castTo t n)

/-- `LiftLower.kt:124-126`. -/
def lowerOptionBool : Option Bool → Int
  | none => i64Max
  | some b => if b then 1 else 0

/-- `LiftLower.kt:121-123`. -/
def liftOptionBool (n : Int) : Option Bool :=
  if n = i64Max then none else some (n == 1)

/-- `LiftLower.kt:140-153`. -/
def lowerOptionF32 : Option Nat → Nat
  | none => 0xFFFF_FFFF
  | some bits => if bits = 0xFFFF_FFFF then 0xFFC0_0000 else bits

/-- `LiftLower.kt:132-138`. -/
def liftOptionF32 (bits : Nat) : Option Nat := if bits = 0xFFFF_FFFF then none else some bits

/-- `LiftLower.kt:163-176`. -/
def lowerOptionF64 : Option Nat → Nat
  | none => 0xFFFF_FFFF_FFFF_FFFF
  | some bits => if bits = 0xFFFF_FFFF_FFFF_FFFF then 0xFFF8_0000 else bits

/-- `LiftLower.kt:155-161`. -/
def liftOptionF64 (bits : Nat) : Option Nat := if bits = 0xFFFF_FFFF_FFFF_FFFF then none else some bits

/-- `DurationFfi.kt:7-19`. A `java.time.Duration` is its length in nanoseconds, which may be negative; its
`seconds` are rounded down and its `nano` is the rest. `none` is an exception. -/
def lowerDuration (ns : Int) : Option (Int × Int) :=
  if ns / 1000000000 < 0 then none else some (ns / 1000000000, ns % 1000000000)

/-- `DurationFfi.kt:21-28`. `Duration.ofSeconds` throws if the seconds overflow. -/
def liftDuration (seconds nanos : Int) : Option Int :=
  let ns := seconds * 1000000000 + nanos
  if -(2 ^ 63 : Int) ≤ ns / 1000000000 ∧ ns / 1000000000 < 2 ^ 63 then some ns else none

/-- The instants of `java.time.Instant`: `Instant.MIN` to `Instant.MAX`. -/
def timeInRange (ns : Int) : Prop :=
  -31557014167219200 * 1000000000 ≤ ns ∧ ns < 31556889864403200 * 1000000000

instance (ns : Int) : Decidable (timeInRange ns) := by unfold timeInRange; exact inferInstance

/-- `TimestampFfi.kt:7-25`. -/
def lowerTimestamp (ns : Int) : Int × Int :=
  let sign : Int := if ns < 0 then -1 else 1
  (sign * (ns.natAbs / 1000000000 : Nat), (ns.natAbs % 1000000000 : Nat))

/-- `TimestampFfi.kt:27-33`. `none` is an exception: `-seconds` of the smallest number is the number itself,
whose instant is too late. -/
def liftTimestamp (seconds nanos : Int) : Option Int := do
  let off ← liftDuration (if 0 ≤ seconds then seconds else castTo .i64 (-seconds)) nanos
  let ns : Int := if 0 ≤ seconds then off else -off
  if timeInRange ns then some ns else none

end Kotlin

end Verif.Jni
