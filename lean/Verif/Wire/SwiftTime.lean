import Verif.Wire.Double
import Verif.Wire.Rust

/-!
# Durations and instants in Swift

Swift holds both in doubles: a duration is a `TimeInterval`, a number of seconds, and a `Date` is a
number of seconds since the beginning of 2001.  `Verif.Wire.Double.rnd` is the rounding of every
arithmetic operation.  Infinities and NaN are left out.
-/

namespace Verif.Wire.Swift

open Verif.Wire
open Verif.Wire.Double

/-- `FfiConverterDuration.read`: uniffi_bindgen/src/bindings/swift/templates/DurationHelper.swift:7-11.
Reading of integers as in C14. -/
def readDur (bs : Bytes) : Res ℚ :=
  (Wire.readInt .u64 bs).bind fun seconds rest => (Wire.readInt .u32 rest).bind fun nanos rest =>
    .ok (rnd (rnd seconds + rnd (rnd nanos / 1000000000))) rest

/-- `Double(Int64.max)`, which is rounded up. -/
def doubleMax : ℚ := rnd ((2 ^ 63 - 1 : ℤ) : ℚ)

/-- `FfiConverterDuration.write`: DurationHelper.swift:13-27.  `none` where the program ends.
`UInt64(value)` and `UInt32(..)` drop the fraction and end the program when the result does not fit. -/
def writeDur (value : ℚ) : Option Bytes :=
  if (⌊value⌋ : ℚ) > doubleMax then none
  else if value < 0 then none
  else
    let seconds := ⌊value⌋
    let nanos := ⌊rnd (rnd (value - rnd seconds) * 1000000000)⌋
    if seconds < 2 ^ 64 ∧ 0 ≤ nanos ∧ nanos < 2 ^ 32 then
      some (writeInt .u64 seconds ++ writeInt .u32 nanos)
    else none

/-- `Date.timeIntervalBetween1970AndReferenceDate`. -/
def epochShift : ℚ := 978307200

/-- `Date(timeIntervalSince1970:)`, as seconds since the reference date. -/
def since1970 (x : ℚ) : ℚ := rnd (x - epochShift)

/-- `FfiConverterTimestamp.read`: swift/templates/TimestampHelper.swift:7-23.  `addingTimeInterval` adds
to the seconds since the reference date. -/
def readTime (bs : Bytes) : Res ℚ :=
  (Wire.readInt .i64 bs).bind fun seconds rest => (Wire.readInt .u32 rest).bind fun nanos rest =>
    let base := since1970 (rnd seconds)
    if 0 ≤ seconds then .ok (rnd (base + rnd (rnd nanos / 1000000000))) rest
    else .ok (rnd (base + rnd (-rnd nanos / 1000000000))) rest

/-- `FfiConverterTimestamp.write`: TimestampHelper.swift:25-43.  `value` is in seconds since the
reference date; `timeIntervalSince1970` adds the shift. -/
def writeTime (value : ℚ) : Option Bytes :=
  let delta := rnd (value + epochShift)
  let sign : ℤ := if delta < 0 then -1 else 1
  let delta := if delta < 0 then -delta else delta
  if (⌊delta⌋ : ℚ) > doubleMax then none
  else
    let seconds := ⌊delta⌋
    let nanos := ⌊rnd (rnd (delta - rnd seconds) * 1000000000)⌋
    if seconds < 2 ^ 63 ∧ 0 ≤ nanos ∧ nanos < 2 ^ 32 then
      some (writeInt .i64 (sign * seconds) ++ writeInt .u32 nanos)
    else none

end Verif.Wire.Swift
