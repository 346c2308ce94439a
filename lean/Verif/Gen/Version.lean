import Verif.Wire.Rust
/-
The version check of the scaffolding: uniffi_core/src/lib.rs.
-/
namespace Verif.Gen
open Verif

/-- `a && b` where evaluating `b` may panic; `none` is a panic. -/
def andAlso (a : Option Bool) (b : Option Bool) : Option Bool :=
  match a with
  | none => none
  | some false => some false
  | some true => b

/-- `a[i] == b[i]`; indexing out of bounds panics. -/
def byteEq (a b : Bytes) (i : Nat) : Option Bool :=
  match a[i]?, b[i]? with
  | some x, some y => some (x == y)
  | _, _ => none

/-- `package_version.len() <= i || package_version[i] == bindgen_version[i]`. For `i = 0` the source
has `len() == 0`. -/
def byteCheck (a b : Bytes) (i : Nat) : Option Bool :=
  if a.length ≤ i then some true else byteEq a b i

/-- `check_compatible_version`: uniffi_core/src/lib.rs:123-166. `package` are the bytes of
`PACKAGE_VERSION`. -/
def checkCompatibleVersion (package bindgen : Bytes) : Option Bool :=
  andAlso (some (package.length == bindgen.length)) <|
  andAlso (byteCheck package bindgen 0) <|
  andAlso (byteCheck package bindgen 1) <|
  andAlso (byteCheck package bindgen 2) <|
  andAlso (byteCheck package bindgen 3) <|
  andAlso (byteCheck package bindgen 4) <|
  andAlso (byteCheck package bindgen 5) <|
  andAlso (byteCheck package bindgen 6) <|
  andAlso (byteCheck package bindgen 7) <|
  andAlso (byteCheck package bindgen 8) <|
  andAlso (byteCheck package bindgen 9) <|
  some (decide (package.length < 10))

end Verif.Gen
