/-!
# Names in generated bindings

How a name of the API is written in each language.  The conversion of case is that of the crate heck
0.5.0 (`transform` in its src/lib.rs), which is not part of the repository and is written out here for
ASCII names; names of Rust may contain other letters.
-/

namespace Verif.Gen.Names

abbrev Name := List Char

/-! ## heck -/

/-- `WordMode` of heck. -/
inductive Mode
  | boundary | lower | upper
  deriving DecidableEq

/-- The loop of heck's `transform` over a piece without separators: `cur` is what has been read since the
last boundary. -/
def humps : Mode → Name → Name → List Name
  | _, _, [] => []
  | _, cur, [c] => [cur ++ [c]]
  | mode, cur, c :: next :: rest =>
    let nextMode := if c.isLower then .lower else if c.isUpper then .upper else mode
    if nextMode = .lower ∧ next.isUpper = true then
      (cur ++ [c]) :: humps .boundary [] (next :: rest)
    else if mode = .upper ∧ c.isUpper = true ∧ next.isLower = true then
      cur :: humps .boundary [c] (next :: rest)
    else humps nextMode (cur ++ [c]) (next :: rest)

/-- `s.split(|c| !c.is_alphanumeric())`. -/
def pieces : Name → List Name
  | [] => [[]]
  | c :: s => match pieces s with
    | p :: ps => if c.isAlphanum then (c :: p) :: ps else [] :: p :: ps
    | [] => []

/-- The words that heck finds. -/
def words (s : Name) : List Name := (pieces s).flatMap (humps .boundary [])

/-- heck's `lowercase`. -/
def lower (w : Name) : Name := w.map Char.toLower

/-- heck's `uppercase`. -/
def upper (w : Name) : Name := w.map Char.toUpper

/-- heck's `capitalize`. -/
def capitalize : Name → Name
  | [] => []
  | c :: w => c.toUpper :: lower w

/-- Words with `_` between them. -/
def join : List Name → Name
  | [] => []
  | [w] => w
  | w :: v :: ws => w ++ '_' :: join (v :: ws)

/-- `to_snake_case`. -/
def snake (s : Name) : Name := join ((words s).map lower)

/-- `to_shouty_snake_case`. -/
def shouty (s : Name) : Name := join ((words s).map upper)

/-- `to_upper_camel_case`. -/
def upperCamel (s : Name) : Name := (words s).flatMap capitalize

/-- `to_lower_camel_case`. -/
def lowerCamel (s : Name) : Name := match words s with
  | [] => []
  | w :: ws => lower w ++ ws.flatMap capitalize

/-! ## The languages -/

/-- The languages, with both ways to reach Kotlin. -/
inductive Lang
  | python | kotlin | swift | ruby | kotlinJni
  deriving DecidableEq

/-- Where a name is written.  `var` is an argument or a field, `label` the name of an argument or a field
in a call, `dataVariant` a variant of an enum with fields, `flatVariant` one of an enum without. -/
inductive Place
  | func | var | label | type | flatVariant | dataVariant | errorVariant
  deriving DecidableEq

/-- `KEYWORDS`: uniffi_bindgen/src/bindings/python/pipeline/names.rs:13-53. -/
def pyKeywords : List Name :=
  ["False", "None", "True", "__peg_parser__", "and", "as", "assert", "async", "await", "break", "class",
   "continue", "def", "del", "elif", "else", "except", "finally", "for", "from", "global", "if", "import",
   "in", "is", "lambda", "nonlocal", "not", "or", "pass", "raise", "return", "try", "while", "with",
   "yield"].map String.toList

/-- `fixup_keyword`: names.rs:56-62. -/
def pyFix (n : Name) : Name := if n ∈ pyKeywords then '_' :: n else n

/-- `type_name`, `var_name`, `function_name`, `non_error_variant_name`: names.rs:85-100, and the choice
for variants: python/pipeline/enums.rs:33-38. -/
def python : Place → Name → Name
  | .func, n | .var, n | .label, n => pyFix (snake n)
  | .type, n | .errorVariant, n => pyFix (upperCamel n)
  | .flatVariant, n | .dataVariant, n => pyFix (shouty n)

/-- A name in backticks. -/
def tick (n : Name) : Name := '`' :: n ++ ['`']

/-- The name without the end that is asked for: `str::strip_suffix`. -/
def stripSuffix (suffix n : Name) : Option Name :=
  if suffix <:+ n then some (n.take (n.length - suffix.length)) else none

/-- `convert_error_suffix`: uniffi_bindgen/src/bindings/kotlin/gen_kotlin/mod.rs:464-469. -/
def errorSuffix (n : Name) : Name := match stripSuffix "Error".toList n with
  | none => n
  | some start => start ++ "Exception".toList

/-- `class_name`: gen_kotlin/mod.rs:454-462.  `isError` is `ci.is_name_used_as_error(nm)`. -/
def ktClass (isError : Bool) (n : Name) : Name :=
  if isError then errorSuffix (upperCamel n) else upperCamel n

/-- `fn_name`, `var_name`, `class_name`, `enum_variant_name`, `error_variant_name`:
gen_kotlin/mod.rs:472-489, 966-977; variants with fields: gen_kotlin/variant.rs. -/
def kotlin (isError : Bool) : Place → Name → Name
  | .func, n | .var, n | .label, n => tick (lowerCamel n)
  | .type, n | .dataVariant, n => ktClass isError n
  | .flatVariant, n => shouty n
  | .errorVariant, n => errorSuffix (upperCamel n)

/-- `KEYWORDS`: uniffi_bindgen/src/bindings/swift/gen_swift/mod.rs:67-134. -/
def swiftKeywords : List Name :=
  ["associatedtype", "class", "deinit", "enum", "extension", "fileprivate", "func", "import", "init",
   "inout", "internal", "let", "open", "operator", "private", "precedencegroup", "protocol", "public",
   "rethrows", "static", "struct", "subscript", "typealias", "var",
   "break", "case", "catch", "continue", "default", "defer", "do", "else", "fallthrough", "for", "guard",
   "if", "in", "repeat", "return", "throw", "switch", "where", "while",
   "Any", "as", "await", "catch", "false", "is", "nil", "rethrows", "self", "Self", "super", "throw",
   "throws", "true", "try"].map String.toList

/-- `quote_general_keyword`: gen_swift/mod.rs:137-143. -/
def swiftQuote (n : Name) : Name := if n ∈ swiftKeywords then tick n else n

/-- `quote_arg_keyword` with `ARG_KEYWORDS`: gen_swift/mod.rs:146-160. -/
def swiftQuoteArg (n : Name) : Name :=
  if n ∈ ["inout", "var", "let"].map String.toList then tick n else n

/-- `class_name`, `fn_name`, `var_name`, `arg_name`, `enum_variant_swift_quoted`,
`error_variant_swift_quoted`: gen_swift/mod.rs:776-793, 1078-1092, 1144-1165. -/
def swift : Place → Name → Name
  | .func, n | .var, n => swiftQuote (lowerCamel n)
  | .label, n => swiftQuoteArg (lowerCamel n)
  | .type, n => upperCamel n
  | .flatVariant, n | .dataVariant, n => swiftQuote (lowerCamel n)
  | .errorVariant, n => swiftQuote (upperCamel n)

/-- The variable for an argument that borrows bytes: `{{ arg.name()|var_name }}Fb` in
swift/templates/macros.swift:22-26 and `arg_expr` in gen_swift/mod.rs:1125-1129. -/
def swiftBytes (n : Name) : Name := swift .var n ++ "Fb".toList

/-- `RESERVED_WORDS`: uniffi_bindgen/src/bindings/ruby/gen_ruby/mod.rs:15-20. -/
def rubyReserved : List Name :=
  ["alias", "and", "BEGIN", "begin", "break", "case", "class", "def", "defined?", "do", "else", "elsif",
   "END", "end", "ensure", "false", "for", "if", "module", "next", "nil", "not", "or", "redo", "rescue",
   "retry", "return", "self", "super", "then", "true", "undef", "unless", "until", "when", "while",
   "yield", "__FILE__", "__LINE__"].map String.toList

/-- `fn_name_rb`, `var_name_rb`, `class_name_rb`, `enum_name_rb`: gen_ruby/mod.rs:162-164, 362-386;
variants of errors: ruby/templates/ErrorTemplate.rb:27-32, other variants: EnumTemplate.rb:5-21. -/
def ruby : Place → Name → Name
  | .func, n => snake n
  | .var, n | .label, n => if snake n ∈ rubyReserved then '_' :: snake n else snake n
  | .type, n | .errorVariant, n => upperCamel n
  | .flatVariant, n | .dataVariant, n => shouty n

/-- `class_name_kt`: uniffi-bindgen-kotlin-jni/src/pipeline/names.rs:11-19; functions, arguments and
fields: callables.rs:263-265, 420-426, records.rs:68-74; variants: enums.rs:157-166. -/
def jni (isError : Bool) : Place → Name → Name
  | .func, n | .var, n | .label, n => tick (lowerCamel n)
  | .type, n | .dataVariant, n | .errorVariant, n => tick (ktClass isError n)
  | .flatVariant, n => tick (shouty n)

/-- The name in a language.  `isError` only matters in Kotlin. -/
def gen (l : Lang) (isError : Bool) : Place → Name → Name := match l with
  | .python => python
  | .kotlin => kotlin isError
  | .swift => swift
  | .ruby => ruby
  | .kotlinJni => jni isError

/-- The parameters of a Python method: `def {{ callable.name }}(self, ...)`, for example
python/templates/EnumTemplate.py:21. -/
def pyParams (args : List Name) : List Name := "self".toList :: args.map (python .var)

/-! ## Native functions of the Kotlin bindings that use the JNI -/

/-- Functions, methods and constructors. -/
inductive Kind
  | function | method (self : Name) | constructor (self : Name)

/-- The word that the name begins with: uniffi-bindgen-kotlin-jni/src/pipeline/callables.rs:16, 40, 68. -/
def Kind.word : Kind → String
  | .function => "function"
  | .method _ => "method"
  | .constructor _ => "constructor"

/-- The name of the type in the name, in camel case: callables.rs:42, 70. -/
def Kind.owner : Kind → Name
  | .function => []
  | .method self => upperCamel self
  | .constructor self => upperCamel self

/-- `jni_method_name`: uniffi-bindgen-kotlin-jni/src/pipeline/callables.rs:15-19, 39-44, 67-72. -/
def jniMethod (crate : Name) (k : Kind) (n : Name) : Name :=
  k.word.toList ++ upperCamel crate ++ k.owner ++ upperCamel n

end Verif.Gen.Names
