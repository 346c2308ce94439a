/-
Strings between Rust and the JVM (Kotlin JNI). A Rust string is a list of characters, a JVM string a list
of UTF-16 units. The encoding of `simd_cesu8::mutf8` and of the JVM is modified UTF-8, written out
here.
-/
namespace Verif.Jni

/-- The UTF-16 form of a character. -/
def utf16Char (c : Char) : List Nat :=
  if c.toNat < 0x10000 then [c.toNat]
  else [0xD800 + (c.toNat - 0x10000) / 0x400, 0xDC00 + (c.toNat - 0x10000) % 0x400]

/-- The JVM string with the same characters. -/
def utf16 (s : List Char) : List Nat := s.flatMap utf16Char

/-- Modified UTF-8: each UTF-16 unit by itself, and 0 as two bytes. -/
def mutf8Unit (u : Nat) : List Nat :=
  if u = 0 then [0xC0, 0x80]
  else if u < 0x80 then [u]
  else if u < 0x800 then [0xC0 + u / 64, 0x80 + u % 64]
  else [0xE0 + u / 4096, 0x80 + u / 64 % 64, 0x80 + u % 64]

/-- `GetStringUTFChars`: the bytes of a JVM string. -/
def mutf8Units (us : List Nat) : List Nat := us.flatMap mutf8Unit

/-- Reading the units back. -/
def readUnits : List Nat → Option (List Nat)
  | [] => some []
  | b :: rest =>
    if b < 0x80 then (readUnits rest).map (b :: ·)
    else match rest with
      | [] => none
      | c :: rest =>
        if b < 0xE0 then (readUnits rest).map (((b - 0xC0) * 64 + (c - 0x80)) :: ·)
        else match rest with
          | [] => none
          | d :: rest => (readUnits rest).map (((b - 0xE0) * 4096 + (c - 0x80) * 64 + (d - 0x80)) :: ·)

/-- The characters of UTF-16 units: a unit for the first half of a character must be followed by one for
the second half. -/
def readUtf16 : List Nat → Option (List Char)
  | [] => some []
  | u :: rest =>
    if 0xD800 ≤ u ∧ u < 0xDC00 then
      match rest with
      | [] => none
      | v :: rest =>
        if 0xDC00 ≤ v ∧ v < 0xE000 then
          (readUtf16 rest).map (Char.ofNat (0x10000 + (u - 0xD800) * 0x400 + (v - 0xDC00)) :: ·)
        else none
    else if 0xDC00 ≤ u ∧ u < 0xE000 then none
    else (readUtf16 rest).map (Char.ofNat u :: ·)

/-- `runtime/src/strings.rs:60-68`: the bytes handed to the JVM, ended by 0. -/
def jniString (s : List Char) : List Nat := mutf8Units (utf16 s) ++ [0]

/-- `NewStringUTF`, called at `strings.rs:51`: it reads bytes up to the first 0. -/
def newString (bytes : List Nat) : Option (List Nat) := readUnits (bytes.takeWhile (· ≠ 0))

/-- `strings.rs:15-29` (`decode_jni_string`). `none` is an error. -/
def decodeString (units : List Nat) : Option (List Char) :=
  (readUnits (mutf8Units units)).bind readUtf16

end Verif.Jni
