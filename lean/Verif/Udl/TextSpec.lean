import Verif.Udl.Syntax
/-
What the text of an interface definition file means, for the constructs that UniFFI supports. Text is
made of tokens with white space and comments between them (`Laid`), and tokens make definitions (the
rest of this file). Nothing here refers to the parser.
-/
namespace Verif.Udl.TextSpec
open Verif.Udl Verif.Udl.File

/-- The pieces of a file. A word that begins with an underscore is `escaped`; the underscore is not part
of the name. -/
inductive Tok where
  | word (escaped : Bool) (name : String)
  | punct (s : String)
  | str (s : String)
  | int (t : Text)
  | float (t : String)
  | doc (s : String)
  deriving DecidableEq

/-! ### Tokens and text -/

def space (c : Char) : Prop := c = ' ' ∨ c = '\t' ∨ c = '\r' ∨ c = '\n'

/-- Letters, digits, underscore and dash. -/
def wordChar (c : Char) : Prop := c.isAlpha = true ∨ c.isDigit = true ∨ c = '_' ∨ c = '-'

/-- White space and comments. -/
inductive Trivia : Text → Prop where
  | nil : Trivia []
  | space {c : Char} {s : Text} : space c → Trivia s → Trivia (c :: s)
  /-- `// …` up to the end of the line; `///` is not a comment. -/
  | line {l s : Text} : '\n' ∉ l → l.head? ≠ some '/' → Trivia s → Trivia ('/' :: '/' :: l ++ '\n' :: s)
  /-- `/* … */`, up to the first `*/`. -/
  | block {b s : Text} : (¬ ∃ u v, b ++ ['*'] = u ++ '*' :: '/' :: v) → Trivia s →
      Trivia ('/' :: '*' :: b ++ '*' :: '/' :: s)

/-- The symbols. -/
def symbols : List String := ["(", ")", "[", "]", "{", "}", ",", "...", ":", ";", "<", "=", ">", "?"]

/-- A minus sign or nothing. -/
def Minus (s : Text) : Prop := s = [] ∨ s = ['-']

def Digits (s : Text) : Prop := ∀ c ∈ s, c.isDigit = true

def hexDigit (c : Char) : Prop := c.isDigit = true ∨ ('a' ≤ c ∧ c ≤ 'f') ∨ ('A' ≤ c ∧ c ≤ 'F')

/-- Integers: decimal without leading zeros, hexadecimal, octal. -/
inductive IntText : Text → Prop where
  | dec {m : Text} {c : Char} {ds : Text} : Minus m → c.isDigit = true → c ≠ '0' → Digits ds →
      IntText (m ++ c :: ds)
  | hex {m : Text} {x : Char} {ds : Text} : Minus m → x = 'x' ∨ x = 'X' → ds ≠ [] → (∀ c ∈ ds, hexDigit c) →
      IntText (m ++ '0' :: x :: ds)
  | oct {m ds : Text} : Minus m → (∀ c ∈ ds, '0' ≤ c ∧ c ≤ '7') → IntText (m ++ '0' :: ds)

/-- `e`, a sign or nothing, digits. -/
def ExpText (s : Text) : Prop :=
  ∃ e sign ds, s = e :: sign ++ ds ∧ (e = 'e' ∨ e = 'E') ∧ (sign = [] ∨ sign = ['+'] ∨ sign = ['-']) ∧ ds ≠ [] ∧
    Digits ds

/-- Numbers with a point or an exponent. -/
inductive FloatText : Text → Prop where
  | point {m a b e : Text} : Minus m → Digits a → Digits b → a ≠ [] ∨ b ≠ [] → e = [] ∨ ExpText e →
      FloatText (m ++ a ++ '.' :: b ++ e)
  | exp {m a e : Text} : Minus m → Digits a → a ≠ [] → ExpText e → FloatText (m ++ a ++ e)

/-- Lines of documentation, each with `///` before it. -/
inductive DocText : List Text → Text → Prop where
  | one {l : Text} : '\n' ∉ l → DocText [l] ('/' :: '/' :: '/' :: l ++ ['\n'])
  | cons {l gap : Text} {ls : List Text} {s : Text} : '\n' ∉ l → (∀ c ∈ gap, space c) → DocText ls s →
      DocText (l :: ls) ('/' :: '/' :: '/' :: l ++ '\n' :: gap ++ s)

/-- How a token is written. -/
inductive Written : Tok → Text → Prop where
  | word (b : Bool) {c : Char} {cs : Text} : c.isAlpha = true → (∀ d ∈ cs, wordChar d) →
      Written (.word b (String.ofList (c :: cs))) ((if b then ['_'] else []) ++ c :: cs)
  | punct {s : String} : s ∈ symbols → Written (.punct s) s.toList
  | str {s : Text} : '"' ∉ s → Written (.str (String.ofList s)) ('"' :: s ++ ['"'])
  | int {t : Text} : IntText t → Written (.int t) t
  | float {t : Text} : FloatText t → Written (.float (String.ofList t)) t
  | doc {ls : List Text} {s : Text} : DocText ls s →
      Written (.doc (String.intercalate "\n" (ls.map String.ofList))) s

/-- What must not follow a token immediately, because it would be read as part of it. -/
def Glues : Tok → Char → Prop
  | .word .., c => wordChar c
  | .int _, c => c.isAlpha = true ∨ c.isDigit = true ∨ c = '.'
  | .float _, c => c.isAlpha = true ∨ c.isDigit = true ∨ c = '.'
  | _, _ => False

def startsWithDoc : List Tok → Prop
  | .doc _ :: _ => True
  | _ => False

def isDoc : Tok → Prop
  | .doc _ => True
  | _ => False

/-- Tokens, each followed by white space and comments. Something follows documentation. -/
inductive Spells : List Tok → Text → Prop where
  | nil : Spells [] []
  | cons {t : Tok} {ts : List Tok} {body gap s : Text} : Written t body → Trivia gap → Spells ts s →
      (∀ c, (gap ++ s).head? = some c → ¬ Glues t c) →
      (isDoc t → ts ≠ [] ∧ ¬ startsWithDoc ts) →
      Spells (t :: ts) (body ++ gap ++ s)

/-- `White_Space` of Unicode. -/
def white (c : Char) : Prop :=
  (9 ≤ c.toNat ∧ c.toNat ≤ 13) ∨ c.toNat ∈ [0x20, 0x85, 0xA0, 0x1680, 0x2028, 0x2029, 0x202F, 0x205F, 0x3000] ∨
    (0x2000 ≤ c.toNat ∧ c.toNat ≤ 0x200A)

/-- The tokens of a file: white space around the file goes away, and what remains is comments and tokens.
A comment before the first token is not allowed if that is documentation, and a line comment at the end is
not allowed because its end is white space. -/
def Laid (ts : List Tok) (s : Text) : Prop :=
  ∃ w1 gap core w2, s = w1 ++ (gap ++ core) ++ w2 ∧ (∀ c ∈ w1, white c) ∧ (∀ c ∈ w2, white c) ∧
    (∀ c, (gap ++ core).head? = some c → ¬ white c) ∧ (∀ c, (gap ++ core).getLast? = some c → ¬ white c) ∧
    Trivia gap ∧ Spells ts core ∧ (ts = [] ∨ startsWithDoc ts → gap = [])

/-! ### Tokens and definitions -/

abbrev key (s : String) : Tok := .word false s
abbrev sym (s : String) : Tok := .punct s

/-- A name, with an underscore before it or not. -/
def Name (n : String) (ts : List Tok) : Prop := ∃ b, ts = [.word b n]

inductive Maybe {α : Type} (W : α → List Tok → Prop) : Option α → List Tok → Prop where
  | none : Maybe W none []
  | some {a : α} {ts : List Tok} : W a ts → Maybe W (some a) ts

/-- One after the other. -/
inductive All {α : Type} (W : α → List Tok → Prop) : List α → List Tok → Prop where
  | nil : All W [] []
  | cons {a : α} {as : List α} {ts us : List Tok} : W a ts → All W as us → All W (a :: as) (ts ++ us)

/-- With commas between them, at least one. -/
inductive Commas1 {α : Type} (W : α → List Tok → Prop) : List α → List Tok → Prop where
  | one {a : α} {ts : List Tok} : W a ts → Commas1 W [a] ts
  | cons {a : α} {as : List α} {ts us : List Tok} : W a ts → Commas1 W as us →
      Commas1 W (a :: as) (ts ++ sym "," :: us)

/-- With commas between them. -/
inductive Commas {α : Type} (W : α → List Tok → Prop) : List α → List Tok → Prop where
  | nil : Commas W [] []
  | some {as : List α} {ts : List Tok} : Commas1 W as ts → Commas W as ts

def Doc (s : String) (ts : List Tok) : Prop := ts = [.doc s]

inductive AttrW : Attr → List Tok → Prop where
  | noArgs {a : String} {ts : List Tok} : Name a ts → AttrW (.noArgs a) ts
  | ident {a b : String} {ts us : List Tok} : Name a ts → Name b us → AttrW (.ident a false b) (ts ++ sym "=" :: us)
  | quoted {a b : String} {ts : List Tok} : Name a ts → AttrW (.ident a true b) (ts ++ [sym "=", .str b])
  | list {a : String} {l : List String} {ts us : List Tok} : Name a ts → Commas Name l us →
      AttrW (.identList a l) (ts ++ sym "=" :: sym "(" :: us ++ [sym ")"])

def AttrsW : Attrs → List Tok → Prop :=
  Maybe fun l ts => ∃ us, ts = sym "[" :: us ++ [sym "]"] ∧ Commas AttrW l us

/-- Words that WebIDL uses where a type could begin. A type cannot have such a name, unless it is
escaped. -/
def reserved : List String := ["any", "unsigned", "long", "short", "unrestricted", "float", "double", "boolean",
  "byte", "octet", "ByteString", "DOMString", "USVString", "object", "symbol", "Error", "ArrayBuffer", "DataView",
  "Int8Array", "Int16Array", "Int32Array", "Uint8Array", "Uint16Array", "Uint32Array", "Uint8ClampedArray",
  "Float32Array", "Float64Array", "ArrayBufferView", "BufferSource", "undefined", "optional", "required", "const",
  "attribute", "readonly", "static", "stringifier", "inherit", "getter", "setter", "deleter", "legacycaller",
  "constructor"]

def quest (q : Bool) : List Tok := if q then [sym "?"] else []
def unres (u : Bool) : List Tok := if u then [key "unrestricted"] else []

inductive TyW : WTy → List Tok → Prop where
  | boolean (q : Bool) : TyW (.boolean q) (key "boolean" :: quest q)
  | named (b : Bool) {n : String} (q : Bool) : b = true ∨ n ∉ reserved → TyW (.identifier n q) (.word b n :: quest q)
  | float (u q : Bool) : TyW (.float u q) (unres u ++ key "float" :: quest q)
  | double (u q : Bool) : TyW (.double u q) (unres u ++ key "double" :: quest q)
  | sequence {t : WTy} {ts : List Tok} (q : Bool) : TyW t ts →
      TyW (.sequence t q) (key "sequence" :: sym "<" :: ts ++ sym ">" :: quest q)
  | record {k v : WTy} {ts us : List Tok} (q : Bool) : TyW k ts → TyW v us →
      TyW (.record (.ty k) v q) (key "record" :: sym "<" :: ts ++ sym "," :: us ++ sym ">" :: quest q)
  | recordDom {v : WTy} {us : List Tok} (q : Bool) : TyW v us →
      TyW (.record .dom v q) (key "record" :: sym "<" :: key "DOMString" :: sym "," :: us ++ sym ">" :: quest q)

inductive RetW : WRet → List Tok → Prop where
  | undefined : RetW .undefined [key "undefined"]
  | ty {t : WTy} {ts : List Tok} : TyW t ts → RetW (.ty t) ts

inductive LitW : Lit → List Tok → Prop where
  | true_ : LitW (.boolean true) [key "true"]
  | false_ : LitW (.boolean false) [key "false"]
  | emptyArray : LitW .emptyArray [sym "[", sym "]"]
  | emptyDictionary : LitW .emptyDictionary [sym "{", sym "}"]
  | float (t : String) : LitW (.float t) [.float t]
  | integer (t : Text) : LitW (.integer t) [.int t]
  | null : LitW .null [key "null"]
  | string (s : String) : LitW (.string s) [.str s]

def DefaultW : Option Lit → List Tok → Prop := Maybe fun l ts => ∃ us, ts = sym "=" :: us ∧ LitW l us

inductive ArgW : WArg → List Tok → Prop where
  | required {a : Attrs} {t : WTy} {n : String} {ts us vs : List Tok} : AttrsW a ts → TyW t us → Name n vs →
      ArgW (.single a false false t n none) (ts ++ us ++ vs)
  | optional {a : Attrs} {t : WTy} {n : String} {d : Option Lit} {ts us vs xs : List Tok} : AttrsW a ts →
      TyW t us → Name n vs → DefaultW d xs →
      ArgW (.single a true false t n d) (ts ++ key "optional" :: us ++ vs ++ xs)

/-- `( args );` -/
def ArgsW (l : List WArg) (ts : List Tok) : Prop :=
  ∃ us, Commas ArgW l us ∧ ts = sym "(" :: us ++ [sym ")", sym ";"]

def modTok : Option Modifier → List Tok
  | none => []
  | some .static => [key "static"]
  | some .stringifier => [key "stringifier"]

/-- Functions and methods. -/
inductive OpW : WOp → List Tok → Prop where
  | mk {d : Option String} {a : Attrs} (m : Option Modifier) {r : WRet} {n : Option String} {l : List WArg}
      {ts us vs xs ys : List Tok} :
      Maybe Doc d ts → AttrsW a us → RetW r vs → Maybe Name n xs → ArgsW l ys →
      OpW ⟨d, a, m, false, r, n, l⟩ (ts ++ us ++ modTok m ++ vs ++ xs ++ ys)

inductive MemberW : WMember → List Tok → Prop where
  | ctor {d : Option String} {a : Attrs} {l : List WArg} {ts us ys : List Tok} :
      Maybe Doc d ts → AttrsW a us → ArgsW l ys →
      MemberW (.ctor ⟨d, a, l⟩) (ts ++ us ++ key "constructor" :: ys)
  | op {o : WOp} {ts : List Tok} : OpW o ts → MemberW (.op o) ts

inductive NsMemberW : WNsMember → List Tok → Prop where
  | op {o : WOp} {ts : List Tok} : OpW o ts → o.modifier = none → NsMemberW (.op o) ts

inductive FieldW : WField → List Tok → Prop where
  | mk {d : Option String} {a : Attrs} (q : Bool) {t : WTy} {n : String} {v : Option Lit}
      {ts us vs xs ys : List Tok} :
      Maybe Doc d ts → AttrsW a us → TyW t vs → Name n xs → DefaultW v ys →
      FieldW ⟨d, a, q, t, n, v⟩
        (ts ++ us ++ (if q then [key "required"] else []) ++ vs ++ xs ++ ys ++ [sym ";"])

def VariantW (v : Option String × String) (ts : List Tok) : Prop :=
  ∃ us, Maybe Doc v.1 us ∧ ts = us ++ [.str v.2]

/-- `: Name` or nothing. -/
def InheritW (h : Bool) (ts : List Tok) : Prop :=
  (h = false ∧ ts = []) ∨ (h = true ∧ ∃ n us, Name n us ∧ ts = sym ":" :: us)

/-- `[attributes] keyword name : base { body };` after documentation. -/
def Block (d : Option String) (a : Attrs) (keys : List String) (n : String) (h : Bool)
    (body ts : List Tok) : Prop :=
  ∃ us vs xs ys, Maybe Doc d us ∧ AttrsW a vs ∧ Name n xs ∧ InheritW h ys ∧
    ts = us ++ vs ++ keys.map key ++ xs ++ ys ++ sym "{" :: body ++ [sym "}", sym ";"]

inductive DefW : Def → List Tok → Prop where
  | namespace_ {d : Option String} {a : Attrs} {n : String} {l : List WNsMember} {body ts : List Tok} :
      All NsMemberW l body → Block d a ["namespace"] n false body ts → DefW (.namespace_ d a n l) ts
  | enum_ {d : Option String} {a : Attrs} {n : String} {l : List (Option String × String)} {us : List Tok}
      {trailing : Bool} {ts : List Tok} :
      Commas1 VariantW l us →
      Block d a ["enum"] n false (us ++ if trailing then [sym ","] else []) ts → DefW (.enum_ d a n l) ts
  | dictionary {d : Option String} {a : Attrs} {n : String} {h : Bool} {l : List WField} {body ts : List Tok} :
      All FieldW l body → Block d a ["dictionary"] n h body ts → DefW (.dictionary d a n h l) ts
  | interface {d : Option String} {a : Attrs} {n : String} {h : Bool} {l : List WMember} {body ts : List Tok} :
      All MemberW l body → Block d a ["interface"] n h body ts → DefW (.interface d a n h l) ts
  | callback {d : Option String} {a : Attrs} {n : String} {h : Bool} {l : List WMember} {body ts : List Tok} :
      All MemberW l body → Block d a ["callback", "interface"] n h body ts → DefW (.callback d a n h l) ts
  | typedef {a : Attrs} {t : WTy} {n : String} {ts us vs : List Tok} :
      AttrsW a ts → TyW t us → Name n vs →
      DefW (.typedef a false t n) (ts ++ key "typedef" :: us ++ vs ++ [sym ";"])

/-- A file. -/
def FileW : List Def → List Tok → Prop := All DefW

end Verif.Udl.TextSpec
