/-!
# Documentation in generated bindings

The comments and strings that documentation becomes.  `dedent` and `indent` are those of the crate textwrap
0.16, which is not part of the repository and is written out here.
-/

namespace Verif.Gen.Docs

abbrev Text := List Char

/-! ## The standard library -/

/-- `char::is_whitespace`. -/
def isWhite (c : Char) : Bool :=
  (9 ≤ c.toNat && c.toNat ≤ 13) || c.toNat = 32 || c.toNat = 0x85 || c.toNat = 0xa0 || c.toNat = 0x1680 ||
  (0x2000 ≤ c.toNat && c.toNat ≤ 0x200a) || c.toNat = 0x2028 || c.toNat = 0x2029 || c.toNat = 0x202f ||
  c.toNat = 0x205f || c.toNat = 0x3000

/-- `str::trim`. -/
def trim (s : Text) : Text := ((s.dropWhile isWhite).reverse.dropWhile isWhite).reverse

/-- `str::trim_end`. -/
def trimEnd (s : Text) : Text := (s.reverse.dropWhile isWhite).reverse

/-- A line of nothing but white space. -/
def blank (s : Text) : Bool := s.all isWhite

/-- `str::split('\n')`. -/
def splitNl : Text → List Text
  | [] => [[]]
  | c :: s => match splitNl s with
    | l :: ls => if c = '\n' then [] :: l :: ls else (c :: l) :: ls
    | [] => []

/-- `join("\n")`. -/
def joinNl : List Text → Text
  | [] => []
  | [l] => l
  | l :: m :: ls => l ++ '\n' :: joinNl (m :: ls)

/-- Without a last line that is empty: `str::split_terminator`. -/
def dropEmptyLast : List Text → List Text
  | [] => []
  | [l] => if l = [] then [] else [l]
  | l :: m :: ls => l :: dropEmptyLast (m :: ls)

/-- Without a carriage return at the end. -/
def stripCr (s : Text) : Text := if s.getLast? = some '\r' then s.dropLast else s

/-- Carriage returns belong to the ends of lines, but the last part is not the end of a line. -/
def stripCrs : List Text → List Text
  | [] => []
  | [l] => [l]
  | l :: m :: ls => stripCr l :: stripCrs (m :: ls)

/-- `str::lines`. -/
def lines (s : Text) : List Text := dropEmptyLast (stripCrs (splitNl s))

/-- `str::ends_with('\n')`. -/
def endsNl (s : Text) : Bool := s.getLast? = some '\n'

/-- `str::replace`: the first argument counts the characters of a match that are still to be skipped. -/
def replaceFrom (pat rep : Text) : Nat → Text → Text
  | _, [] => []
  | k + 1, _ :: s => replaceFrom pat rep k s
  | 0, c :: s =>
    if pat <+: c :: s then rep ++ replaceFrom pat rep (pat.length - 1) s else c :: replaceFrom pat rep 0 s

def replace (pat rep s : Text) : Text := replaceFrom pat rep 0 s

/-! ## textwrap -/

/-- `textwrap::indent`. -/
def indent (pre s : Text) : Text :=
  joinNl ((dropEmptyLast (splitNl s)).map fun l => (if blank l then trimEnd pre else pre) ++ l) ++
    if endsNl s then ['\n'] else []

/-- Where a line first differs from the prefix. -/
def mismatch : Text → Text → Option Nat
  | a :: l, b :: p => if a ≠ b then some 0 else (mismatch l p).map (· + 1)
  | _, _ => none

/-- A line makes the prefix shorter if it differs from it. -/
def shorten (p l : Text) : Text := match mismatch l p with
  | some i => l.take i
  | none => p

/-- The first two loops of `textwrap::dedent`: the white space of the first line that is not blank, made
shorter by the lines after it. -/
def prefixOf : List Text → Text
  | [] => []
  | l :: ls => if blank l then prefixOf ls else ls.foldl shorten (l.takeWhile isWhite)

/-- The last loop of `textwrap::dedent`. -/
def dedentLine (p l : Text) : Text := if p <+: l ∧ blank l = false then l.drop p.length else []

/-- `textwrap::dedent`. -/
def dedent (s : Text) : Text :=
  let result := ((lines s).map fun l => dedentLine (prefixOf (lines s)) l ++ ['\n']).flatten
  if endsNl result && !endsNl s then result.dropLast else result

/-! ## The bindings -/

/-- What Rust's doc comments become: uniffi_macros/src/util.rs:306-325; the same in
uniffi_parse_rs/src/attrs/docstring.rs:7-26.  The arguments are the values of the `doc` attributes, one for
each `///` line. -/
def extract (attrs : List Text) : Text := joinNl (attrs.map trim)

/-- What the doc comments of UDL files become: uniffi_udl/src/converters/mod.rs:33-36. -/
def udl (comment : List Text) : Text := dedent (joinNl comment)

/-- The marks of comments, taken apart:
`docstring.replace("*/", "*\\/").replace("/*", "/\\*")`. -/
def escape (s : Text) : Text := replace ['/', '*'] ['/', '\\', '*'] (replace ['*', '/'] ['*', '\\', '/'] s)

/-- `docstring` of Kotlin (uniffi_bindgen/src/bindings/kotlin/gen_kotlin/mod.rs:1054-1067) and Swift
(uniffi_bindgen/src/bindings/swift/gen_swift/mod.rs:1184-1197). -/
def comment (spaces : Nat) (doc : Text) : Text :=
  indent (List.replicate spaces ' ')
    (['/', '*', '*', '\n'] ++ indent [' ', '*', ' '] (dedent (escape doc)) ++ ['\n', ' ', '*', '/'])

def quotes : Text := ['"', '"', '"']

/-- `docstring` of Python: uniffi_bindgen/src/bindings/python/filters.rs:15-38. -/
def pyDoc (spaces : Nat) : Option Text → Text
  | none => []
  | some doc =>
    quotes ++ '\n' :: indent (List.replicate spaces ' ')
      (replace quotes ['\\', '"', '\\', '"', '\\', '"'] (dedent doc)) ++ '\n' :: quotes ++
      '\n' :: List.replicate spaces ' '

end Verif.Gen.Docs
