import Verif.Meta.Types
/-
Default values in UDL: the lexer of integer literals (weedle2/src/literal.rs) and the conversion to
metadata (uniffi_udl/src/literal.rs). Text is a list of characters. White space and comments around a
literal are left out here; they are in Parse.lean.
-/
namespace Verif.Udl
open Verif.Meta

abbrev Text := List Char

/-- `char::to_digit` for radix 8, 10 and 16 (Rust core library). -/
def toDigit (radix : Nat) (c : Char) : Option Nat :=
  let d : Option Nat :=
    if 48 ≤ c.toNat ∧ c.toNat ≤ 57 then some (c.toNat - 48)
    else if 97 ≤ c.toNat ∧ c.toNat ≤ 102 then some (c.toNat - 87)
    else if 65 ≤ c.toNat ∧ c.toNat ≤ 70 then some (c.toNat - 55)
    else none
  match d with
  | some d => if d < radix then some d else none
  | none => none

/-- `is_dec_digit`, `is_hex_digit` and `is_oct_digit` of nom. -/
def isDigit (radix : Nat) (c : Char) : Bool := (toDigit radix c).isSome

/-- What follows the sign: `DecLit`, `HexLit`, `OctLit` in this order, weedle2/src/literal.rs:6-32. The
kind, the text taken and the text left. -/
def lexUnsigned (sign : Text) : Text → Option (Radix × Text × Text)
  | [] => none
  | c :: cs =>
    if c = '0' then
      match cs with
      | x :: ds =>
        if x = 'x' ∨ x = 'X' then
          some (.hexadecimal, sign ++ c :: x :: ds.takeWhile (isDigit 16), ds.dropWhile (isDigit 16))
        else some (.octal, sign ++ c :: cs.takeWhile (isDigit 8), cs.dropWhile (isDigit 8))
      | [] => some (.octal, sign ++ [c], [])
    else if isDigit 10 c then
      some (.decimal, sign ++ c :: cs.takeWhile (isDigit 10), cs.dropWhile (isDigit 10))
    else none

/-- `IntegerLit::parse`: weedle2/src/literal.rs:1-34. -/
def lexInt : Text → Option (Radix × Text × Text)
  | [] => none
  | c :: cs => if c = '-' then lexUnsigned ['-'] cs else lexUnsigned [] (c :: cs)

/-- `trim_start_matches("0x")`. -/
def trim0x : Text → Text
  | '0' :: 'x' :: cs => trim0x cs
  | cs => cs

/-- `Radix as u32`: uniffi_meta/src/lib.rs:319-323. -/
def radixNum : Radix → Nat
  | .decimal => 10
  | .octal => 8
  | .hexadecimal => 16

/-- The digits of `from_str_radix`, with a check for overflow at every digit (Rust core library). -/
def fromDigits (radix max : Nat) (acc : Nat) : Text → Option Nat
  | [] => some acc
  | c :: cs =>
    match toDigit radix c with
    | some d => if acc * radix + d ≤ max then fromDigits radix max (acc * radix + d) cs else none
    | none => none

/-- `u64::from_str_radix`: a plus sign is allowed, a minus sign is not a digit. -/
def u64FromStr (radix : Nat) : Text → Option Nat
  | [] => none
  | ['+'] => none
  | '+' :: cs => fromDigits radix (2 ^ 64 - 1) 0 cs
  | cs => fromDigits radix (2 ^ 64 - 1) 0 cs

/-- `i64::from_str_radix`. -/
def i64FromStr (radix : Nat) : Text → Option Int
  | [] => none
  | ['+'] => none
  | ['-'] => none
  | '-' :: cs => (fromDigits radix (2 ^ 63) 0 cs).map fun (n : Nat) => -(n : Int)
  | '+' :: cs => (fromDigits radix (2 ^ 63 - 1) 0 cs).map fun (n : Nat) => (n : Int)
  | cs => (fromDigits radix (2 ^ 63 - 1) 0 cs).map fun (n : Nat) => (n : Int)

/-- The text passed to `from_str_radix`: uniffi_udl/src/literal.rs:35-41. -/
def normalise : Text → Text
  | '-' :: cs => ('-' :: trim0x cs).map Char.toLower
  | cs => (trim0x cs).map Char.toLower

/-- The radix for the output: uniffi_udl/src/literal.rs:24-33. -/
def destRadix (radix : Radix) (string : Text) : Radix :=
  if string = ['0'] ∨ string.head? = some '-' then .decimal else radix

/-- `convert_integer`: uniffi_udl/src/literal.rs:16-58. The number is not compared with the range of the
type. -/
def convertInteger (radix : Radix) (string : Text) (ty : MTy) : Option MLit :=
  match ty with
  | .int8 | .int16 | .int32 | .int64 =>
    (i64FromStr (radixNum radix) (normalise string)).map fun z =>
      .int z (destRadix radix string) ty
  | .uint8 | .uint16 | .uint32 | .uint64 =>
    (u64FromStr (radixNum radix) (normalise string)).map fun n =>
      .uint n (destRadix radix string) ty
  | _ => none

/-- A default value in UDL: `DefaultValue`, weedle2/src/literal.rs:47-66. A number carries its text. -/
inductive Lit where
  | boolean (b : Bool)
  | emptyArray
  | emptyDictionary
  | float (text : String)
  | integer (text : Text)
  | null
  | string (s : String)
  /-- `Infinity`, `-Infinity` or `NaN`, which are refused. -/
  | other
  deriving DecidableEq, Repr

/-- The lexer, then `convert_integer`; the whole text has to be the literal. -/
def convertIntText (text : Text) (ty : MTy) : Option MLit :=
  match lexInt text with
  | some (radix, string, []) => convertInteger radix string ty
  | _ => none

/-- `convert_default_value`: uniffi_udl/src/literal.rs:12-101. A string for an enum becomes an enum
literal, which is left out. -/
def convert (l : Lit) : MTy → Option MLit
  | .boolean =>
    match l with
    | .boolean b => some (.boolean b)
    | _ => none
  | .string =>
    match l with
    | .string s => some (.string s)
    | _ => none
  | .sequence _ =>
    match l with
    | .emptyArray => some .emptySequence
    | _ => none
  | .map _ _ =>
    match l with
    | .emptyDictionary => some .emptyMap
    | _ => none
  | .optional t =>
    match l with
    | .null => some .optNone
    | l => (convert l t).map fun m => .optSome (.literal m)
  | .float32 =>
    match l with
    | .float d => some (.float d .float32)
    | _ => none
  | .float64 =>
    match l with
    | .float d => some (.float d .float64)
    | _ => none
  | ty =>
    match l with
    | .integer text => convertIntText text ty
    | _ => none

end Verif.Udl
