import Verif.Gen.Docs

/-!
# How compilers read comments and strings
-/

namespace Verif.Gen.DocsSpec

open Verif.Gen.Docs (Text isWhite blank)

/-- What is left after the end of a comment of Kotlin or Swift, which nest: `n` comments are open.  `none`
if the comment does not end. -/
def close : Nat → Text → Option Text
  | n, '*' :: '/' :: s => match n with
    | n + 2 => close (n + 1) s
    | _ => some s
  | n, '/' :: '*' :: s => close (n + 1) s
  | n, _ :: s => close n s
  | _, [] => none

/-- What is left after the end of a long string of Python. -/
def pyEnd : Text → Option Text
  | '\\' :: _ :: s => pyEnd s
  | '"' :: '"' :: '"' :: s => some s
  | _ :: s => pyEnd s
  | [] => none

def hexDigit (c : Char) : Bool := c.isDigit || ('a' ≤ c && c ≤ 'f') || ('A' ≤ c && c ≤ 'F')

/-- The value of a hexadecimal number. -/
def hexValue (s : Text) : Nat :=
  s.foldl (fun n c => 16 * n +
    if c.isDigit then c.toNat - 48 else if 'a' ≤ c then c.toNat - 87 else c.toNat - 55) 0

/-- The value of a string of Python that is written as `s`; `none` if Python refuses it.  Octal numbers and
names of characters are left out: `none` here says nothing about them. -/
def pyValue : Text → Option Text
  | [] => some []
  | '\\' :: '\n' :: s => pyValue s
  | '\\' :: '\\' :: s => (pyValue s).map ('\\' :: ·)
  | '\\' :: '\'' :: s => (pyValue s).map ('\'' :: ·)
  | '\\' :: '"' :: s => (pyValue s).map ('"' :: ·)
  | '\\' :: 'n' :: s => (pyValue s).map ('\n' :: ·)
  | '\\' :: 'r' :: s => (pyValue s).map ('\r' :: ·)
  | '\\' :: 't' :: s => (pyValue s).map ('\t' :: ·)
  | '\\' :: 'x' :: a :: b :: s =>
    if [a, b].all hexDigit then (pyValue s).map (Char.ofNat (hexValue [a, b]) :: ·) else none
  | '\\' :: 'u' :: a :: b :: c :: d :: s =>
    if [a, b, c, d].all hexDigit then (pyValue s).map (Char.ofNat (hexValue [a, b, c, d]) :: ·) else none
  | '\\' :: c :: s =>
    if c = 'x' ∨ c = 'u' ∨ c = 'U' ∨ c = 'N' ∨ c.isDigit then none
    else (pyValue s).map ('\\' :: c :: ·)
  | ['\\'] => none
  | c :: s => (pyValue s).map (c :: ·)

/-- The same white space is taken from the beginning of every line; lines of white space become empty.  It is
all the white space that the lines have in common. -/
def Dedented (ls ls' : List Text) : Prop :=
  ∃ p : Text, blank p = true ∧ (∀ l ∈ ls, blank l = false → p <+: l) ∧
    (∀ q : Text, blank q = true → (∀ l ∈ ls, q <+: l ∨ (blank l = true ∧ l <+: q)) →
      (∃ l ∈ ls, blank l = false) → q <+: p) ∧
    ls' = ls.map fun l => if blank l then [] else l.drop p.length

/-- The letters, digits and signs of a text: everything but white space, backslashes and asterisks. -/
def visible (s : Text) : Text := s.filter fun c => !isWhite c && c != '\\' && c != '*'

end Verif.Gen.DocsSpec
