import Verif.Gen.DefaultSpec
import Verif.Udl.Literal
/-
The value of a default in UDL.
-/
namespace Verif.Udl
open Verif.Meta Verif.Gen.Default

/-- The text after the sign: `[1-9][0-9]*` is decimal, `0[xX][0-9A-Fa-f]+` hexadecimal and `0[0-7]*`
octal, as in WebIDL. -/
def natText : List Char → Option Nat
  | [] => none
  | c :: cs =>
    if c = '0' then
      match cs with
      | [] => some 0
      | x :: ds =>
        if x = 'x' ∨ x = 'X' then
          (if ds ≠ [] ∧ ds.all (isDigitOf 16) then some (numOf 16 ds) else none)
        else if cs.all (isDigitOf 8) then some (numOf 8 cs) else none
    else if (c :: cs).all (isDigitOf 10) then some (numOf 10 (c :: cs)) else none

/-- An integer literal. -/
def intText : List Char → Option Int
  | '-' :: cs => (natText cs).map fun (n : Nat) => -(n : Int)
  | cs => (natText cs).map fun (n : Nat) => (n : Int)

/-- The value of a default for a type; `none` when it is not a value of the type. Floating point numbers
that start with the point are left out. -/
def declaredUdl (l : Lit) : MTy → Option Val
  | .optional t => if l = .null then some .absent else declaredUdl l t
  | ty =>
    match l, ty with
    | .boolean b, .boolean => some (.bool b)
    | .string s, .string => some (.str s)
    | .emptyArray, .sequence _ => some .list
    | .emptyDictionary, .map _ _ => some .map
    | .float d, .float32 => rustFloat d.toList
    | .float d, .float64 => rustFloat d.toList
    | .integer text, ty => (intText text).bind (asInt ty)
    | _, _ => none

end Verif.Udl
