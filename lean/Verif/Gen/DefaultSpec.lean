import Verif.Meta.Types
/-
What default values mean: the value the author of the Rust code declares, and the value each foreign
language gives to a piece of text. Only the part of the languages that default values need: numbers,
strings, and the fixed expressions for booleans, absence and empty collections.
-/
namespace Verif.Gen.Default
open Verif.Meta

/-- A value. A floating point number is `m * 10 ^ e` with a sign; rounding to the type is left out. -/
inductive Val where
  | bool (b : Bool)
  | int (z : Int)
  | float (neg : Bool) (m : Nat) (e : Int)
  | str (s : String)
  | absent
  | list | map | set | bytes
  deriving DecidableEq, Repr

/-! ### Numbers -/

/-- The value of a digit. -/
def digitVal (c : Char) : Option Nat :=
  if '0' ≤ c ∧ c ≤ '9' then some (c.toNat - '0'.toNat)
  else if 'a' ≤ c ∧ c ≤ 'f' then some (c.toNat - 'a'.toNat + 10)
  else if 'A' ≤ c ∧ c ≤ 'F' then some (c.toNat - 'A'.toNat + 10)
  else none

/-- A digit of base `b`. -/
def isDigitOf (b : Nat) (c : Char) : Bool :=
  match digitVal c with
  | some d => d < b
  | none => false

/-- The value of digits of base `b`, from `acc` on. -/
def numFrom (b : Nat) (acc : Nat) : List Char → Nat
  | [] => acc
  | c :: cs =>
    match digitVal c with
    | some d => numFrom b (b * acc + d) cs
    | none => numFrom b acc cs

/-- The value of digits of base `b`. -/
def numOf (b : Nat) (cs : List Char) : Nat := numFrom b 0 cs

/-- Digits of base `b`, at least one, and the text after them. -/
def scanDigits (b : Nat) (cs : List Char) : Option (Nat × List Char) :=
  let d := cs.takeWhile (isDigitOf b)
  if d = [] then none else some (numOf b d, cs.dropWhile (isDigitOf b))

/-- A number without sign and the text after it. `oct`: the language has octal numbers `0o…`. What a
leading zero means depends on the language; it is left out. -/
def scanNat (oct : Bool) : List Char → Option (Nat × List Char)
  | '0' :: c :: cs =>
    if c = 'x' then scanDigits 16 cs
    else if c = 'o' then (if oct then scanDigits 8 cs else none)
    else if isDigitOf 10 c then none
    else some (0, c :: cs)
  | cs => scanDigits 10 cs

/-- A number with an optional minus sign: whether it is there, the magnitude, the text after it. -/
def scanInt (oct : Bool) : List Char → Option (Bool × Nat × List Char)
  | '-' :: cs => (scanNat oct cs).map fun p => (true, p.1, p.2)
  | cs => (scanNat oct cs).map fun p => (false, p.1, p.2)

/-- The signed value. -/
def signed (neg : Bool) (n : Nat) : Int := if neg then -(n : Int) else n

/-- The values of an integer type, from the first to before the second number. -/
def intRange : MTy → Option (Int × Int)
  | .uint8 => some (0, 2 ^ 8)
  | .uint16 => some (0, 2 ^ 16)
  | .uint32 => some (0, 2 ^ 32)
  | .uint64 => some (0, 2 ^ 64)
  | .int8 => some (-2 ^ 7, 2 ^ 7)
  | .int16 => some (-2 ^ 15, 2 ^ 15)
  | .int32 => some (-2 ^ 31, 2 ^ 31)
  | .int64 => some (-2 ^ 63, 2 ^ 63)
  | _ => none

/-- A number as a value of an integer type, if it is one. -/
def asInt (ty : MTy) (z : Int) : Option Val :=
  match intRange ty with
  | some (lo, hi) => if lo ≤ z ∧ z < hi then some (.int z) else none
  | none => none

/-- A floating point number taken apart: the sign, the digits before the point, the digits after it
if there is a point, the exponent if there is one, and the text that is left. -/
structure FloatParts where
  neg : Bool
  int : List Char
  frac : Option (List Char)
  exp : Option (Bool × List Char)
  rest : List Char
  deriving DecidableEq, Repr

/-- The exponent. -/
def scanExp : List Char → Option (Bool × List Char) × List Char
  | [] => (none, [])
  | c :: cs =>
    if c = 'e' ∨ c = 'E' then
      let neg := cs.head? = some '-'
      let ds := if cs.head? = some '-' ∨ cs.head? = some '+' then cs.tail else cs
      (some (neg, ds.takeWhile (isDigitOf 10)), ds.dropWhile (isDigitOf 10))
    else (none, c :: cs)

/-- What follows the digits before the point. -/
def scanFrac (neg : Bool) (int : List Char) : List Char → FloatParts
  | '.' :: cs =>
    let e := scanExp (cs.dropWhile (isDigitOf 10))
    ⟨neg, int, some (cs.takeWhile (isDigitOf 10)), e.1, e.2⟩
  | cs =>
    let e := scanExp cs
    ⟨neg, int, none, e.1, e.2⟩

/-- Taking a floating point number apart. -/
def scanFloat : List Char → FloatParts
  | '-' :: cs => scanFrac true (cs.takeWhile (isDigitOf 10)) (cs.dropWhile (isDigitOf 10))
  | cs => scanFrac false (cs.takeWhile (isDigitOf 10)) (cs.dropWhile (isDigitOf 10))

/-- The digits after the point. -/
def FloatParts.fracDigits (p : FloatParts) : List Char :=
  match p.frac with
  | some f => f
  | none => []

/-- The exponent as a number. -/
def FloatParts.expVal (p : FloatParts) : Int :=
  match p.exp with
  | some (neg, ds) => signed neg (numOf 10 ds)
  | none => 0

/-- The value. A zero is written with exponent 0. -/
def FloatParts.val (p : FloatParts) : Val :=
  let m := numOf 10 (p.int ++ p.fracDigits)
  .float p.neg m (if m = 0 then 0 else p.expVal - p.fracDigits.length)

/-- What the languages agree on: there are digits, nothing is left over, and an exponent has
digits. -/
def FloatParts.ok (p : FloatParts) : Bool :=
  p.rest = [] && (p.int ≠ [] || p.fracDigits ≠ []) &&
    (match p.exp with
    | some (_, ds) => ds ≠ []
    | none => true)

/-- A floating point literal of Rust: digits before the point; a point, an exponent or both; no
exponent directly after the point. -/
def rustFloat (cs : List Char) : Option Val :=
  let p := scanFloat cs
  if p.ok && p.int ≠ [] && (p.frac.isSome || p.exp.isSome) && !(p.frac == some [] && p.exp.isSome)
  then some p.val else none

/-! ### The declared value -/

/-- The default a Rust type has (`Default::default()`), for the types that are not named. -/
def zeroVal : MTy → Option Val
  | .uint8 | .uint16 | .uint32 | .uint64 | .int8 | .int16 | .int32 | .int64 => some (.int 0)
  | .float32 | .float64 => some (.float false 0 0)
  | .boolean => some (.bool false)
  | .string => some (.str "")
  | .bytes => some .bytes
  | .optional _ => some .absent
  | .sequence _ => some .list
  | .map _ _ => some .map
  | .set _ => some .set
  | .custom _ _ t => zeroVal t
  | _ => none

/-- The value a default has for the author of the Rust code; `none` when it is not a value of the
type, or of a type with a name. A custom type takes the defaults of the type it is made from. -/
def declared : DefSrc → MTy → Option Val
  | d, .custom _ _ t => declared d t
  | .default, ty => zeroVal ty
  | .bool b, .boolean => some (.bool b)
  | .str s, .string => some (.str s)
  | .int z _, ty => asInt ty z
  | .float d _, .float32 => rustFloat d.toList
  | .float d _, .float64 => rustFloat d.toList
  | .optNone, .optional _ => some .absent
  | .optSome d, .optional t => declared d t
  | .emptySeq, .sequence _ => some .list
  | .emptySeq, .map _ _ => some .map
  | .emptySeq, .set _ => some .set
  | _, _ => none

/-- The value of a default in the metadata, for a type; `none` when it is not a value of the type, or
of a type with a name. -/
def valOf : MDef → MTy → Option Val
  | d, .custom _ _ t => valOf d t
  | .default, ty => zeroVal ty
  | .literal (.boolean b), .boolean => some (.bool b)
  | .literal (.string s), .string => some (.str s)
  | .literal (.int z _ t), ty => if t = ty then asInt ty z else none
  | .literal (.uint n _ t), ty => if t = ty then asInt ty n else none
  | .literal (.float d t), .float32 => if t = .float32 then rustFloat d.toList else none
  | .literal (.float d t), .float64 => if t = .float64 then rustFloat d.toList else none
  | .literal .optNone, .optional _ => some .absent
  | .literal (.optSome d), .optional t => valOf d t
  | .literal .emptySequence, .sequence _ => some .list
  | .literal .emptySequence, .map _ _ => some .map
  | .literal .emptySequence, .set _ => some .set
  | .literal .emptyMap, .map _ _ => some .map
  | .literal .emptySet, .set _ => some .set
  | _, _ => none

/-! ### Strings -/

/-- What a backslash and the character after it stand for. -/
inductive Esc where
  /-- one character -/
  | char (c : Char)
  /-- the two characters themselves -/
  | both
  /-- nothing, something that depends on more characters, or an error -/
  | other
  deriving DecidableEq, Repr

/-- The rules for strings in double quotes. -/
structure StrRules where
  /-- the character after a backslash -/
  escape : Char → Esc
  /-- a character that does not stand for itself, before the given text -/
  special : Char → List Char → Bool

/-- The content of a string, from after the opening quote; `none` when the text does not end with the
closing quote or when the content is not determined by the rules. -/
def StrRules.body (r : StrRules) : List Char → Option (List Char)
  | [] => none
  | c :: cs =>
    if c = '"' then (if cs = [] then some [] else none)
    else if c = '\\' then
      match cs with
      | [] => none
      | e :: cs' =>
        match r.escape e with
        | .char x => (r.body cs').map (x :: ·)
        | .both => (r.body cs').map fun s => '\\' :: e :: s
        | .other => none
    else if r.special c cs then none
    else (r.body cs).map (c :: ·)

/-- A string literal. -/
def StrRules.eval (r : StrRules) : List Char → Option Val
  | '"' :: cs => (r.body cs).map fun s => .str (String.ofList s)
  | _ => none

/-- A string that means itself between double quotes: no double quote, nothing special, and a
backslash only before characters with which it stands for itself. -/
def StrRules.Safe (r : StrRules) : List Char → Prop
  | [] => True
  | c :: cs =>
    c ≠ '"' ∧
    if c = '\\' then
      match cs with
      | [] => False
      | e :: cs' => r.escape e = .both ∧ r.Safe cs'
    else r.special c (cs ++ ['"']) = false ∧ r.Safe cs

/-- Kotlin. A `$` before a letter, `_`, a backtick or `{` starts a template; other alphabets count as
letters. `\u` is left out. -/
def kotlinStr : StrRules where
  escape c :=
    if c = 'n' then .char '\n' else if c = 't' then .char '\t' else if c = 'r' then .char '\r'
    else if c = 'b' then .char (Char.ofNat 8) else if c = '\\' then .char '\\'
    else if c = '"' then .char '"' else if c = '\'' then .char '\'' else if c = '$' then .char '$'
    else .other
  special c cs :=
    c = '\n' || c = '\r' || (c = '$' && match cs with
      | [] => false
      | d :: _ => d.isAlpha || d = '_' || d = '`' || d = '{' || 128 ≤ d.toNat)

/-- Swift. `\(` starts an interpolation; `\u` is left out. -/
def swiftStr : StrRules where
  escape c :=
    if c = 'n' then .char '\n' else if c = 't' then .char '\t' else if c = 'r' then .char '\r'
    else if c = '0' then .char (Char.ofNat 0) else if c = '\\' then .char '\\'
    else if c = '"' then .char '"' else if c = '\'' then .char '\'' else .other
  special c _ := c = '\n' || c = '\r'

/-- Python. A backslash before an unknown character stays. Escapes with a number or a name and the
continuation of a line are left out. -/
def pythonStr : StrRules where
  escape c :=
    if c = 'n' then .char '\n' else if c = 't' then .char '\t' else if c = 'r' then .char '\r'
    else if c = 'a' then .char (Char.ofNat 7) else if c = 'b' then .char (Char.ofNat 8)
    else if c = 'f' then .char (Char.ofNat 12) else if c = 'v' then .char (Char.ofNat 11)
    else if c = '\\' then .char '\\' else if c = '"' then .char '"' else if c = '\'' then .char '\''
    else if c = 'x' ∨ c = 'N' ∨ c = 'u' ∨ c = 'U' ∨ isDigitOf 8 c ∨ c = '\n' ∨ c = '\r' then .other
    else .both
  special c _ := c = '\n' || c = '\r'

/-- Ruby. `#{`, `#$` and `#@` start an interpolation. A backslash before an unknown character is
dropped. Escapes with a number, control characters and the continuation of a line are left out. -/
def rubyStr : StrRules where
  escape c :=
    if c = 'n' then .char '\n' else if c = 't' then .char '\t' else if c = 'r' then .char '\r'
    else if c = 'a' then .char (Char.ofNat 7) else if c = 'b' then .char (Char.ofNat 8)
    else if c = 'f' then .char (Char.ofNat 12) else if c = 'v' then .char (Char.ofNat 11)
    else if c = 'e' then .char (Char.ofNat 27) else if c = 's' then .char ' '
    else if c = 'x' ∨ c = 'u' ∨ c = 'c' ∨ c = 'C' ∨ c = 'M' ∨ isDigitOf 8 c ∨ c = '\n' ∨ c = '\r' then
      .other
    else .char c
  special c cs :=
    c = '\r' || (c = '#' && match cs with
      | [] => false
      | d :: _ => d = '{' || d = '$' || d = '@')

/-! ### Kotlin -/

namespace Kotlin

/-- A number where a value of an integer type is expected. The magnitude has to be a `Long`, or with
`u` a `ULong`; the minus sign is an operation applied to it. -/
def int (ty : MTy) (cs : List Char) : Option Val :=
  match scanInt false cs with
  | none => none
  | some (neg, n, suffix) =>
    let ok : Bool := match ty with
      | .int8 => suffix = [] || suffix = ".toByte()".toList
      | .int16 | .int32 => suffix = []
      | .int64 => suffix = [] || suffix = ['L']
      | .uint8 | .uint16 | .uint32 => suffix = ['u'] || suffix = ['U']
      | .uint64 => suffix = ['u'] || suffix = ['U'] || suffix = ['u', 'L'] || suffix = ['U', 'L']
      | _ => false
    let max := if suffix.head? = some 'u' ∨ suffix.head? = some 'U' then 2 ^ 64 else 2 ^ 63
    if ok = true ∧ n < max then asInt ty (signed neg n) else none

/-- A floating point number: a point needs digits after it. -/
def float (cs : List Char) : Option Val :=
  let p := scanFloat cs
  if p.ok && p.frac ≠ some [] && (p.frac.isSome || p.exp.isSome) then some p.val else none

/-- The value of a text where a value of type `ty` is expected. -/
def eval : MTy → List Char → Option Val
  | .custom _ _ t, cs => eval t cs
  | .optional t, cs => if cs = "null".toList then some .absent else eval t cs
  | .boolean, cs =>
    if cs = "true".toList then some (.bool true)
    else if cs = "false".toList then some (.bool false) else none
  | .string, cs => kotlinStr.eval cs
  | .bytes, cs => if cs = "byteArrayOf()".toList then some .bytes else none
  | .sequence _, cs => if cs = "listOf()".toList then some .list else none
  | .map _ _, cs => if cs = "mapOf()".toList then some .map else none
  | .set _, cs => if cs = "setOf()".toList then some .set else none
  | .float32, cs => if cs.getLast? = some 'f' then float cs.dropLast else none
  | .float64, cs => float cs
  | ty, cs => int ty cs

end Kotlin

/-! ### Swift -/

namespace Swift

/-- The text between `name(` and `)`. -/
def called (name : List Char) (cs : List Char) : Option (List Char) :=
  if name ++ ['('] = cs.take (name.length + 1) ∧ cs.getLast? = some ')' then
    some (cs.drop (name.length + 1)).dropLast
  else none

/-- The Swift type of a number. -/
def typeName : MTy → Option (List Char)
  | .int8 => some ['I', 'n', 't', '8']
  | .uint8 => some ['U', 'I', 'n', 't', '8']
  | .int16 => some ['I', 'n', 't', '1', '6']
  | .uint16 => some ['U', 'I', 'n', 't', '1', '6']
  | .int32 => some ['I', 'n', 't', '3', '2']
  | .uint32 => some ['U', 'I', 'n', 't', '3', '2']
  | .int64 => some ['I', 'n', 't', '6', '4']
  | .uint64 => some ['U', 'I', 'n', 't', '6', '4']
  | .float32 => some ['F', 'l', 'o', 'a', 't']
  | .float64 => some ['D', 'o', 'u', 'b', 'l', 'e']
  | _ => none

/-- An integer literal of any size that is a value of the type. -/
def intLit (ty : MTy) (cs : List Char) : Option Val :=
  match scanInt true cs with
  | some (neg, n, []) => asInt ty (signed neg n)
  | _ => none

/-- A number: a literal, or the type called with one. -/
def int (ty : MTy) (cs : List Char) : Option Val :=
  match typeName ty with
  | none => none
  | some l =>
    match called l cs with
    | some num => intLit ty num
    | none => intLit ty cs

/-- A floating point number, or an integer: digits before the point, and after it if there is one. -/
def floatLit (cs : List Char) : Option Val :=
  let p := scanFloat cs
  if p.ok && p.int ≠ [] && p.frac ≠ some [] then some p.val else none

/-- The type called with a number. -/
def float (ty : MTy) (cs : List Char) : Option Val :=
  match typeName ty with
  | none => none
  | some l =>
    match called l cs with
    | some num => floatLit num
    | none => floatLit cs

/-- The value of a text where a value of type `ty` is expected. -/
def eval : MTy → List Char → Option Val
  | .custom _ _ t, cs => eval t cs
  | .optional t, cs => if cs = "nil".toList then some .absent else eval t cs
  | .boolean, cs =>
    if cs = "true".toList then some (.bool true)
    else if cs = "false".toList then some (.bool false) else none
  | .string, cs => swiftStr.eval cs
  | .bytes, cs => if cs = "Data([])".toList then some .bytes else none
  | .sequence _, cs => if cs = "[]".toList then some .list else none
  | .map _ _, cs => if cs = "[:]".toList then some .map else none
  | .set _, cs => if cs = "Set()".toList then some .set else none
  | .float32, cs => float .float32 cs
  | .float64, cs => float .float64 cs
  | ty, cs => int ty cs

end Swift

/-! ### Python and Ruby -/

/-- An integer literal of any size. -/
def bigInt (cs : List Char) : Option Val :=
  match scanInt true cs with
  | some (neg, n, []) => some (.int (signed neg n))
  | _ => none

namespace Python

/-- A floating point number. -/
def float (cs : List Char) : Option Val :=
  let p := scanFloat cs
  if p.ok && (p.frac.isSome || p.exp.isSome) then some p.val else none

/-- A number; `int(n)` is `n`. -/
def number (cs : List Char) : Option Val :=
  match Swift.called ['i', 'n', 't'] cs with
  | some num => bigInt num
  | none =>
    match bigInt cs with
    | some v => some v
    | none => float cs

/-- The value of an expression. `{*()}` is the empty set, `{}` the empty dictionary. -/
def eval (cs : List Char) : Option Val :=
  if cs = "True".toList then some (.bool true)
  else if cs = "False".toList then some (.bool false)
  else if cs = "None".toList then some .absent
  else if cs = "[]".toList then some .list
  else if cs = "{}".toList then some .map
  else if cs = "{*()}".toList then some .set
  else if cs = "b\"\"".toList then some .bytes
  else if cs.head? = some '"' then pythonStr.eval cs
  else number cs

end Python

namespace Ruby

/-- A floating point number: digits before the point, and after it if there is one. -/
def float (cs : List Char) : Option Val :=
  let p := scanFloat cs
  if p.ok && p.int ≠ [] && p.frac ≠ some [] && (p.frac.isSome || p.exp.isSome) then some p.val
  else none

/-- A number. -/
def number (cs : List Char) : Option Val :=
  match bigInt cs with
  | some v => some v
  | none => float cs

/-- The value of an expression. -/
def eval (cs : List Char) : Option Val :=
  if cs = "true".toList then some (.bool true)
  else if cs = "false".toList then some (.bool false)
  else if cs = "nil".toList then some .absent
  else if cs = "[]".toList then some .list
  else if cs = "{}".toList then some .map
  else if cs = "Set.new".toList then some .set
  else if cs = "\"\".b".toList then some .bytes
  else if cs.head? = some '"' then rubyStr.eval cs
  else number cs

end Ruby

/-! ### Limits -/

/-- The literal in a default, below any number of `Some`, has a property. -/
def leaf (P : MLit → Prop) : MDef → Prop
  | .default => True
  | .literal (.optSome d) => leaf P d
  | .literal l => P l

/-- A point is followed by digits. -/
def pointDigits (d : String) : Prop := (scanFloat d.toList).frac ≠ some []

/-- Negative numbers are decimal. -/
def signDecimal : MLit → Prop
  | .int z r _ => 0 ≤ z ∨ r = .decimal
  | _ => True

/-- Strings are safe. -/
def safeIn (r : StrRules) : MLit → Prop
  | .string s => r.Safe s.toList
  | _ => True

/-- A point is followed by digits. -/
def fullFloat : MLit → Prop
  | .float d _ => pointDigits d
  | _ => True

/-- The number is not the smallest of 64 bits. -/
def notMin64 : MLit → Prop
  | .int z _ _ => z ≠ -2 ^ 63
  | _ => True

/-- `[]` stands for a list only. -/
def listOnly (v : Val) : MLit → Prop
  | .emptySequence => v = .list
  | _ => True

/-- The default of a type does not stand inside `Some`. -/
def noInnerDefault : MDef → Prop
  | .literal (.optSome .default) => False
  | .literal (.optSome d) => noInnerDefault d
  | _ => True

end Verif.Gen.Default
