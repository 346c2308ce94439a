import Verif.Gen.Names

/-!
# Which names a language accepts

Taken from the language references: Python 3 (lexical analysis, keywords), Kotlin (hard keywords; any
name may be put in backticks), Swift (lexical structure, reserved keywords; any identifier may be put in
backticks; as an argument label every keyword but `inout`, `var` and `let` is allowed) and Ruby
(keywords; local variables begin with a small letter or `_`, constants with a capital letter, and methods
may be called like keywords).  ASCII only.
-/

namespace Verif.Gen.NamesSpec

open Verif.Gen.Names (Name Lang Place)

/-- A letter, a digit or `_`. -/
def IdChar (c : Char) : Prop := c.isAlphanum = true ∨ c = '_'

/-- A letter or `_`, then letters, digits and `_`. -/
def Ident : Name → Prop
  | [] => False
  | c :: n => (c.isAlpha = true ∨ c = '_') ∧ ∀ d ∈ n, IdChar d

/-- Begins with a capital letter. -/
def Capital : Name → Prop
  | [] => False
  | c :: _ => c.isUpper = true

/-- Begins with a small letter or `_`. -/
def Small : Name → Prop
  | [] => False
  | c :: _ => c.isLower = true ∨ c = '_'

def pyReserved : List Name :=
  ["False", "None", "True", "and", "as", "assert", "async", "await", "break", "class", "continue", "def",
   "del", "elif", "else", "except", "finally", "for", "from", "global", "if", "import", "in", "is",
   "lambda", "nonlocal", "not", "or", "pass", "raise", "return", "try", "while", "with",
   "yield"].map String.toList

def ktReserved : List Name :=
  ["as", "break", "class", "continue", "do", "else", "false", "for", "fun", "if", "in", "interface", "is",
   "null", "object", "package", "return", "super", "this", "throw", "true", "try", "typealias", "typeof",
   "val", "var", "when", "while"].map String.toList

def swiftReserved : List Name :=
  ["associatedtype", "class", "deinit", "enum", "extension", "fileprivate", "func", "import", "init",
   "inout", "internal", "let", "open", "operator", "precedencegroup", "private", "protocol", "public",
   "rethrows", "static", "struct", "subscript", "typealias", "var", "break", "case", "catch", "continue",
   "default", "defer", "do", "else", "fallthrough", "for", "guard", "if", "in", "repeat", "return",
   "switch", "throw", "where", "while", "Any", "as", "await", "false", "is", "nil", "self", "Self",
   "super", "throws", "true", "try"].map String.toList

def rbReserved : List Name :=
  ["BEGIN", "END", "__ENCODING__", "__FILE__", "__LINE__", "alias", "and", "begin", "break", "case",
   "class", "def", "defined?", "do", "else", "elsif", "end", "ensure", "false", "for", "if", "in",
   "module", "next", "nil", "not", "or", "redo", "rescue", "retry", "return", "self", "super", "then",
   "true", "undef", "unless", "until", "when", "while", "yield"].map String.toList

/-- `m` between backticks, where `ok m`. -/
def Quoted (ok : Name → Prop) (n : Name) : Prop := ∃ m, n = '`' :: m ++ ['`'] ∧ ok m

/-- What the language accepts at a place. -/
def Legal : Lang → Place → Name → Prop
  | .python, _, n => Ident n ∧ n ∉ pyReserved
  | .kotlin, _, n | .kotlinJni, _, n =>
    Ident n ∧ n ∉ ktReserved ∨ Quoted (fun m => m ≠ [] ∧ ∀ c ∈ m, IdChar c) n
  | .swift, .label, n => Ident n ∧ n ∉ ["inout", "var", "let"].map String.toList ∨ Quoted Ident n
  | .swift, _, n => Ident n ∧ n ∉ swiftReserved ∨ Quoted Ident n
  | .ruby, .func, n => Ident n
  | .ruby, .var, n | .ruby, .label, n => Ident n ∧ Small n ∧ n ∉ rbReserved
  | .ruby, _, n => Ident n ∧ Capital n

/-- The letters and digits of a name, without regard to case. -/
def letters (n : Name) : Name := (n.filter Char.isAlphanum).map Char.toLower

/-- The first letter or digit is a letter. -/
def LetterFirst (n : Name) : Prop := match n.filter Char.isAlphanum with
  | [] => False
  | c :: _ => c.isAlpha = true

/-- A name in the style of Rust's functions, arguments and fields: words of small letters and digits that
begin with a letter, with `_` between them. -/
def Word : Name → Prop
  | [] => False
  | c :: w => c.isLower = true ∧ ∀ d ∈ w, d.isLower = true ∨ d.isDigit = true

/-- A word whose first letter is followed by another letter, perhaps after digits. -/
def LongWord (w : Name) : Prop := Word w ∧ ∃ c ∈ w.tail, c.isLower = true

def snakeName : List Name → Name
  | [] => []
  | [w] => w
  | w :: v :: ws => w ++ '_' :: snakeName (v :: ws)

/-- The first letter as a capital. -/
def cap : Name → Name
  | [] => []
  | c :: w => c.toUpper :: w

/-- A name in the style of Rust's types: words with capital first letters. -/
def camelName (ws : List Name) : Name := (ws.map cap).flatten

/-- The first word small, the others with capital first letters. -/
def smallCamelName : List Name → Name
  | [] => []
  | w :: ws => w ++ camelName ws

/-- How programmers of the language write a name of these words. -/
def style : Lang → Place → List Name → Name
  | .python, .func, ws | .python, .var, ws | .python, .label, ws => snakeName ws
  | .ruby, .func, ws | .ruby, .var, ws | .ruby, .label, ws => snakeName ws
  | _, .func, ws | _, .var, ws | _, .label, ws => smallCamelName ws
  | .swift, .flatVariant, ws | .swift, .dataVariant, ws => smallCamelName ws
  | _, .flatVariant, ws => snakeName (ws.map (·.map Char.toUpper))
  | .python, .dataVariant, ws | .ruby, .dataVariant, ws => snakeName (ws.map (·.map Char.toUpper))
  | _, _, ws => camelName ws

/-- `n` is `m`, perhaps marked as a name and not a keyword. -/
def Marked (n m : Name) : Prop := n = m ∨ n = '_' :: m ∨ n = '`' :: m ++ ['`']

end Verif.Gen.NamesSpec
