import Verif.Udl.Syntax
/-
The parser of interface definition files: weedle2/src, used in uniffi_udl/src/collectors.rs:28-44.

The grammar is written once, over any kind of input that has the basic parsers (`Basic`), so that it
can be run on text, as in the code, and on lists of tokens, which proofs do. What the parser keeps of
definitions that are always refused is only that there is one (`other` in Syntax.lean).

`nom` returns the position and kind of an error; here a parser just fails. `Err::Failure` does not
occur. The check of `many0` that each round consumes something never fails here, because every round
consumes a token.
-/
namespace Verif.Udl.Parse
open Verif.Udl Verif.Udl.File

/-- What a parser gives. `unknown` is not a result of parsing text; it stands for "not looked at" when
the grammar is run on tokens. -/
inductive R (I α : Type) where
  | ok (a : α) (i : I)
  | fail
  | unknown

/-- A parser. -/
def Parser (I α : Type) := I → R I α

variable {I α β : Type}

instance : Monad (Parser I) where
  pure a := fun i => .ok a i
  bind q f := fun i =>
    match q i with
    | .ok a i' => f a i'
    | .fail => .fail
    | .unknown => .unknown

/-- `nom::branch::alt`. -/
def alt : List (Parser I α) → Parser I α
  | [], _ => .fail
  | q :: qs, i =>
    match q i with
    | .fail => alt qs i
    | r => r

/-- `nom::combinator::opt`. -/
def opt (q : Parser I α) : Parser I (Option α) := fun i =>
  match q i with
  | .ok a i' => .ok (some a) i'
  | .fail => .ok none i
  | .unknown => .unknown

/-- `opt`, when only the presence matters. -/
def flag (q : Parser I α) : Parser I Bool := do
  let a ← opt q
  pure a.isSome

/-- `nom::multi::many0`, with at most `n` rounds. -/
def many (q : Parser I α) : Nat → Parser I (List α)
  | 0, _ => .fail
  | n + 1, i =>
    match q i with
    | .fail => .ok [] i
    | .unknown => .unknown
    | .ok a i' =>
      match many q n i' with
      | .ok as i'' => .ok (a :: as) i''
      | .fail => .fail
      | .unknown => .unknown

/-- The loop of `nom::multi::separated_list0` and `separated_list1`: if there is no item after a
separator, the separator is not consumed. -/
def more (sep : Parser I Unit) (q : Parser I α) : Nat → Parser I (List α)
  | 0, _ => .fail
  | n + 1, i =>
    match sep i with
    | .fail => .ok [] i
    | .unknown => .unknown
    | .ok _ i1 =>
      match q i1 with
      | .fail => .ok [] i
      | .unknown => .unknown
      | .ok a i2 =>
        match more sep q n i2 with
        | .ok as i3 => .ok (a :: as) i3
        | .fail => .fail
        | .unknown => .unknown

/-- `separated_list1`. -/
def sepBy1 (n : Nat) (sep : Parser I Unit) (q : Parser I α) : Parser I (List α) := do
  let a ← q
  let as ← more sep q n
  pure (a :: as)

/-- `separated_list0`. -/
def sepBy (n : Nat) (sep : Parser I Unit) (q : Parser I α) : Parser I (List α) := fun i =>
  match q i with
  | .fail => .ok [] i
  | .unknown => .unknown
  | .ok a i' =>
    match more sep q n i' with
    | .ok as i'' => .ok (a :: as) i''
    | .fail => .fail
    | .unknown => .unknown

/-- The parsers that everything is made of: symbols (`generate_terms!`, term.rs:1-18), keywords
(`generate_terms_for_names!`, term.rs:40-55), `Identifier` (common.rs:96-110), `IntegerLit`,
`FloatValueLit` and `StringLit` (literal.rs), `Docstring` (common.rs:119-122). -/
structure Basic (I : Type) where
  punct : String → Parser I Unit
  kw : String → Parser I Unit
  ident : Parser I String
  int : Parser I Text
  float : Parser I String
  str : Parser I String
  doc : Parser I String

/-- The parsers that recursion goes through, with a bound on its depth. -/
structure Rec (I : Type) where
  nonAny : Parser I WTy
  ty : Parser I WTy
  union : Parser I WTy
  args : Parser I (List WArg)

section
variable (p : Basic I) (n : Nat)

/-- `Parenthesized`, `Bracketed`, `Braced`, `Generics`: common.rs:48-79. -/
def within (l r : String) (q : Parser I α) : Parser I α := do
  p.punct l
  let a ← q
  p.punct r
  pure a

/-- `ExtendedAttribute`: attribute.rs:12-58. -/
def attr (r : Rec I) : Parser I Attr :=
  alt [
    do
      let a ← p.ident
      let _ ← within p "(" ")" r.args
      pure (.other a),
    do
      let a ← p.ident
      p.punct "="
      let _ ← p.ident
      let _ ← within p "(" ")" r.args
      pure (.other a),
    do
      let a ← p.ident
      p.punct "="
      let l ← within p "(" ")" (sepBy n (p.punct ",") p.ident)
      pure (.identList a l),
    do
      let a ← p.ident
      p.punct "="
      alt [
        do
          let b ← p.ident
          pure (.ident a false b),
        do
          let b ← p.str
          pure (.ident a true b)],
    do
      let a ← p.ident
      pure (.noArgs a)]

/-- `Option<ExtendedAttributeList>`: attribute.rs:6. -/
def attrs (r : Rec I) : Parser I Attrs := opt (within p "[" "]" (sepBy n (p.punct ",") (attr p n r)))

/-- `MayBeNull`: types.rs:69-72. -/
def mayBeNull (q : Parser I α) (f : α → Bool → β) : Parser I β := do
  let a ← q
  let m ← flag (p.punct "?")
  pure (f a m)

/-- `term!(k)` inside of `MayBeNull`. -/
def keyword (k : String) (f : Bool → WTy) : Parser I WTy := mayBeNull p (p.kw k) fun _ q => f q

/-- `IntegerType`: types.rs:82-101. -/
def integerType : Parser I Unit :=
  alt [
    do
      let _ ← flag (p.kw "unsigned")
      p.kw "long"
      p.kw "long",
    do
      let _ ← flag (p.kw "unsigned")
      p.kw "long",
    do
      let _ ← flag (p.kw "unsigned")
      p.kw "short"]

/-- `FloatingPointType`: types.rs:105-118. The result says whether it is `double`, and `unrestricted`. -/
def floatType : Parser I (Bool × Bool) :=
  alt [
    do
      let u ← flag (p.kw "unrestricted")
      p.kw "float"
      pure (false, u),
    do
      let u ← flag (p.kw "unrestricted")
      p.kw "double"
      pure (true, u)]

/-- The type made of a `FloatingPointType`. -/
def floatTy (f : Bool × Bool) (q : Bool) : WTy := if f.1 then .double f.2 q else .float f.2 q

/-- `ReturnType`: types.rs:151-154. -/
def retType (ty : Parser I WTy) : Parser I WRet :=
  alt [
    do
      p.kw "undefined"
      pure .undefined,
    do
      let t ← ty
      pure (.ty t)]

/-- `RecordKeyType`: types.rs:127-132. -/
def keyType (r : Rec I) : Parser I WKey :=
  alt [
    do
      p.kw "ByteString"
      pure .byte,
    do
      p.kw "DOMString"
      pure .dom,
    do
      p.kw "USVString"
      pure .byte,
    do
      let t ← r.nonAny
      pure (.ty t)]

/-- The keywords from `Byte` to `USVString` in `NonAnyType`. -/
def plain1 : List String := ["byte", "octet", "ByteString", "DOMString", "USVString"]
/-- The keywords from `Object` to `Symbol`. -/
def plain2 : List String := ["object", "symbol"]
/-- The keywords from `ArrayBuffer` to `BufferSource`. -/
def plain3 : List String := ["ArrayBuffer", "DataView", "Int8Array", "Int16Array", "Int32Array",
  "Uint8Array", "Uint16Array", "Uint32Array", "Uint8ClampedArray", "Float32Array", "Float64Array", "ArrayBufferView",
  "BufferSource"]

/-- `NonAnyType`: types.rs:21-51. -/
def nonAny (r : Rec I) : Parser I WTy :=
  alt ([
    do
      p.kw "Promise"
      let _ ← within p "<" ">" (retType p r.ty)
      pure (.other "Promise"),
    mayBeNull p (integerType p) (fun _ q => .integer q),
    mayBeNull p (floatType p) floatTy,
    keyword p "boolean" .boolean] ++
    plain1.map (fun k => keyword p k fun _ => .other k) ++ [
    mayBeNull p (do
      p.kw "sequence"
      within p "<" ">" r.ty) .sequence] ++
    plain2.map (fun k => keyword p k fun _ => .other k) ++ [
    keyword p "Error" .error] ++
    plain3.map (fun k => keyword p k fun _ => .other k) ++ [
    mayBeNull p (do
      p.kw "FrozenArray"
      within p "<" ">" r.ty) (fun _ _ => .other "FrozenArray"),
    mayBeNull p (do
      p.kw "record"
      within p "<" ">" (do
        let k ← keyType p r
        p.punct ","
        let v ← r.ty
        pure (k, v))) (fun kv q => .record kv.1 kv.2 q),
    mayBeNull p p.ident .identifier])

/-- `MayBeNull<UnionType>`: types.rs:7, 17, 135-138, 163-166. -/
def unionType (r : Rec I) : Parser I WTy :=
  mayBeNull p (within p "(" ")" (sepBy n (p.kw "or") (alt [
    do
      let _ ← attrs p n r
      r.nonAny,
    r.union]))) (fun _ _ => .union)

/-- `Type`: types.rs:11-18. -/
def typ (r : Rec I) : Parser I WTy :=
  alt [
    do
      p.kw "any"
      pure .any,
    nonAny p r,
    unionType p n r]

/-- `BooleanLit`: literal.rs:80-85. -/
def boolLit : Parser I Lit :=
  alt [
    do
      p.kw "true"
      pure (.boolean true),
    do
      p.kw "false"
      pure (.boolean false)]

/-- `FloatLit`: literal.rs:89-130. -/
def floatLit : Parser I Lit :=
  alt [
    do
      let t ← p.float
      pure (.float t),
    do
      p.kw "-Infinity"
      pure .other,
    do
      p.kw "Infinity"
      pure .other,
    do
      p.kw "NaN"
      pure .other]

/-- `IntegerLit`: literal.rs:4-33. -/
def intLit : Parser I Lit := do
  let t ← p.int
  pure (.integer t)

/-- `term!(null)`. -/
def nullLit : Parser I Lit := do
  p.kw "null"
  pure .null

/-- `Default`: common.rs:112-117, with `DefaultValue`, literal.rs:49-67. -/
def default_ : Parser I Lit := do
  p.punct "="
  alt [
    boolLit p,
    do
      p.punct "["
      p.punct "]"
      pure .emptyArray,
    do
      p.punct "{"
      p.punct "}"
      pure .emptyDictionary,
    floatLit p,
    intLit p,
    nullLit p,
    do
      let s ← p.str
      pure (.string s)]

/-- `AttributedType`: types.rs:157-160. The result says whether there are attributes. -/
def attributedType (r : Rec I) : Parser I (Bool × WTy) := do
  let a ← attrs p n r
  let t ← typ p n r
  pure (a.isSome, t)

/-- `Argument`: argument.rs:8-31. -/
def arg (r : Rec I) : Parser I WArg :=
  alt [
    do
      let a ← attrs p n r
      let o ← flag (p.kw "optional")
      let t ← attributedType p n r
      let x ← p.ident
      let d ← if o then opt (default_ p) else pure none
      pure (.single a o t.1 t.2 x d),
    do
      let _ ← attrs p n r
      let _ ← typ p n r
      p.punct "..."
      let _ ← p.ident
      pure .variadic]

/-- `ArgumentList`: argument.rs:6. -/
def argList (r : Rec I) : Parser I (List WArg) := sepBy n (p.punct ",") (arg p n r)

/-- The parsers for recursion of depth at most `d`. -/
def recs : Nat → Rec I
  | 0 => ⟨fun _ => .fail, fun _ => .fail, fun _ => .fail, fun _ => .fail⟩
  | d + 1 => ⟨nonAny p (recs d), typ p n (recs d), unionType p n (recs d), argList p n (recs d)⟩

variable (r : Rec I)

/-- The end of an operation: `identifier? (( args ));`. -/
def opTail (f : Option String → List WArg → β) : Parser I β := do
  let x ← opt p.ident
  let l ← within p "(" ")" (argList p n r)
  p.punct ";"
  pure (f x l)

/-- `NamespaceMember`: namespace.rs:11-33. -/
def nsMember : Parser I WNsMember :=
  alt [
    do
      let d ← opt p.doc
      let a ← attrs p n r
      let t ← retType p (typ p n r)
      opTail p n r fun x l => .op ⟨d, a, none, false, t, x, l⟩,
    do
      let _ ← opt p.doc
      let _ ← attrs p n r
      p.kw "readonly"
      p.kw "attribute"
      let _ ← attributedType p n r
      let _ ← p.ident
      p.punct ";"
      pure .other]

/-- `ConstType`: types.rs:141-148. -/
def constType : Parser I Unit :=
  alt [
    mayBeNull p (integerType p) (fun _ _ => ()),
    mayBeNull p (floatType p) (fun _ _ => ()),
    mayBeNull p (p.kw "boolean") (fun _ _ => ()),
    mayBeNull p (p.kw "byte") (fun _ _ => ()),
    mayBeNull p (p.kw "octet") (fun _ _ => ()),
    mayBeNull p p.ident (fun _ _ => ())]

/-- `ConstMember`: interface.rs:21-29, with `ConstValue`, literal.rs:71-76. -/
def constMember : Parser I Unit := do
  let _ ← attrs p n r
  p.kw "const"
  constType p
  let _ ← p.ident
  p.punct "="
  let _ ← alt [boolLit p, floatLit p, intLit p, nullLit p]
  p.punct ";"

/-- `StringifierMember`: interface.rs:116-120. -/
def stringifierMember : Parser I Unit := do
  let _ ← attrs p n r
  p.kw "stringifier"
  p.punct ";"

/-- `AttributeInterfaceMember`: interface.rs:31-39; `AttributeMixinMember`, mixin.rs:26-34, has fewer modifiers. -/
def attributeMember (modifiers : List String) : Parser I Unit := do
  let _ ← attrs p n r
  let _ ← opt (alt (modifiers.map p.kw))
  let _ ← flag (p.kw "readonly")
  p.kw "attribute"
  let _ ← attributedType p n r
  let _ ← p.ident
  p.punct ";"

/-- `ConstructorInterfaceMember`: interface.rs:43-49. -/
def ctorMember : Parser I WMember := do
  let d ← opt p.doc
  let a ← attrs p n r
  p.kw "constructor"
  let l ← within p "(" ")" (argList p n r)
  p.punct ";"
  pure (.ctor ⟨d, a, l⟩)

/-- `StringifierOrStatic`: interface.rs:142-145. -/
def modifier : Parser I Modifier :=
  alt [
    do
      p.kw "stringifier"
      pure .stringifier,
    do
      p.kw "static"
      pure .static]

/-- `Special`: interface.rs:125-130. -/
def special : Parser I Unit := alt (["getter", "setter", "deleter", "legacycaller"].map p.kw)

/-- `OperationInterfaceMember`: interface.rs:53-62. -/
def opMember : Parser I WMember := do
  let d ← opt p.doc
  let a ← attrs p n r
  let m ← opt (modifier p)
  let s ← flag (special p)
  let t ← retType p (typ p n r)
  opTail p n r fun x l => .op ⟨d, a, m, s, t, x, l⟩

/-- `<type>` or `<type, type>` of iterables and the like: interface.rs:64-113. -/
def generics1 : Parser I Unit := do
  let _ ← within p "<" ">" (attributedType p n r)
  pure ()

/-- See `generics1`. -/
def generics2 : Parser I Unit := do
  let _ ← within p "<" ">" (do
    let _ ← attributedType p n r
    p.punct ","
    attributedType p n r)
  pure ()

/-- `IterableInterfaceMember` and `AsyncIterableInterfaceMember`: interface.rs:64-98. -/
def iterableMember (generics : Parser I Unit) (async : Bool) : Parser I Unit := do
  let _ ← attrs p n r
  if async then p.kw "async" else pure ()
  p.kw "iterable"
  generics
  if async then (do
    let _ ← opt (within p "(" ")" (argList p n r))
    pure ()) else pure ()
  p.punct ";"

/-- `MaplikeInterfaceMember` and `SetlikeInterfaceMember`: interface.rs:100-113. -/
def likeMember (k : String) (generics : Parser I Unit) : Parser I Unit := do
  let _ ← attrs p n r
  let _ ← flag (p.kw "readonly")
  p.kw k
  generics
  p.punct ";"

/-- A member that is always refused. -/
def refused (q : Parser I Unit) (b : β) : Parser I β := do
  q
  pure b

/-- `InterfaceMember`: interface.rs:19-121. -/
def member : Parser I WMember :=
  alt [
    refused (constMember p n r) .other,
    refused (attributeMember p n r ["stringifier", "inherit", "static"]) .other,
    ctorMember p n r,
    opMember p n r,
    refused (iterableMember p n r (generics1 p n r) false) .other,
    refused (iterableMember p n r (generics2 p n r) false) .other,
    refused (iterableMember p n r (generics1 p n r) true) .other,
    refused (iterableMember p n r (generics2 p n r) true) .other,
    refused (likeMember p n r "maplike" (generics2 p n r)) .other,
    refused (likeMember p n r "setlike" (generics1 p n r)) .other,
    refused (stringifierMember p n r) .other]

/-- `MixinMember`: mixin.rs:12-36. -/
def mixinMember : Parser I Unit :=
  alt [
    constMember p n r,
    do
      let _ ← attrs p n r
      let _ ← flag (p.kw "stringifier")
      let _ ← retType p (typ p n r)
      opTail p n r fun _ _ => (),
    attributeMember p n r ["stringifier"],
    stringifierMember p n r]

/-- `DictionaryMember`: dictionary.rs:10-18. -/
def field : Parser I WField := do
  let d ← opt p.doc
  let a ← attrs p n r
  let q ← flag (p.kw "required")
  let t ← typ p n r
  let x ← p.ident
  let v ← opt (default_ p)
  p.punct ";"
  pure ⟨d, a, q, t, x, v⟩

/-- `EnumVariant`: lib.rs:233-236. -/
def variant : Parser I (Option String × String) := do
  let d ← opt p.doc
  let s ← p.str
  pure (d, s)

/-- `EnumValueList`: lib.rs:240, `PunctuatedNonEmpty`, common.rs:88-94. -/
def variants : Parser I (List (Option String × String)) := do
  let l ← sepBy1 n (p.punct ",") (variant p)
  let _ ← flag (p.punct ",")
  pure l

/-- `Option<Inheritance>`: interface.rs:13-16. -/
def inheritance : Parser I Bool :=
  flag (do
    p.punct ":"
    p.ident)

/-- The end of a definition: `{ members };`. -/
def body (q : Parser I α) : Parser I α := do
  let a ← within p "{" "}" q
  p.punct ";"
  pure a

/-- `Definition`: lib.rs:99-229. -/
def definition : Parser I Def :=
  alt [
    do
      let _ ← attrs p n r
      p.kw "callback"
      let _ ← p.ident
      p.punct "="
      let _ ← retType p (typ p n r)
      let _ ← within p "(" ")" (argList p n r)
      p.punct ";"
      pure .other,
    do
      let d ← opt p.doc
      let a ← attrs p n r
      p.kw "callback"
      p.kw "interface"
      let x ← p.ident
      let h ← inheritance p
      let l ← body p (many (member p n r) n)
      pure (.callback d a x h l),
    do
      let d ← opt p.doc
      let a ← attrs p n r
      p.kw "interface"
      let x ← p.ident
      let h ← inheritance p
      let l ← body p (many (member p n r) n)
      pure (.interface d a x h l),
    do
      let _ ← attrs p n r
      p.kw "interface"
      p.kw "mixin"
      let _ ← p.ident
      let _ ← body p (many (mixinMember p n r) n)
      pure .other,
    do
      let d ← opt p.doc
      let a ← attrs p n r
      p.kw "namespace"
      let x ← p.ident
      let l ← body p (many (nsMember p n r) n)
      pure (.namespace_ d a x l),
    do
      let d ← opt p.doc
      let a ← attrs p n r
      p.kw "dictionary"
      let x ← p.ident
      let h ← inheritance p
      let l ← body p (many (field p n r) n)
      pure (.dictionary d a x h l),
    do
      let _ ← attrs p n r
      p.kw "partial"
      p.kw "interface"
      let _ ← p.ident
      let _ ← body p (many (member p n r) n)
      pure .other,
    do
      let _ ← attrs p n r
      p.kw "partial"
      p.kw "interface"
      p.kw "mixin"
      let _ ← p.ident
      let _ ← body p (many (mixinMember p n r) n)
      pure .other,
    do
      let _ ← attrs p n r
      p.kw "partial"
      p.kw "dictionary"
      let _ ← p.ident
      let _ ← body p (many (field p n r) n)
      pure .other,
    do
      let _ ← attrs p n r
      p.kw "partial"
      p.kw "namespace"
      let _ ← p.ident
      let _ ← body p (many (nsMember p n r) n)
      pure .other,
    do
      let d ← opt p.doc
      let a ← attrs p n r
      p.kw "enum"
      let x ← p.ident
      let l ← body p (variants p n)
      pure (.enum_ d a x l),
    do
      let a ← attrs p n r
      p.kw "typedef"
      let t ← attributedType p n r
      let x ← p.ident
      p.punct ";"
      pure (.typedef a t.1 t.2 x),
    do
      let _ ← attrs p n r
      let _ ← p.ident
      p.kw "includes"
      let _ ← p.ident
      p.punct ";"
      pure .other,
    do
      let _ ← attrs p n r
      let _ ← p.ident
      p.kw "implements"
      let _ ← p.ident
      p.punct ";"
      pure .other]

/-- `Definitions`: lib.rs:95. -/
def definitions : Parser I (List Def) := many (definition p n (recs p n n)) n

end

/-! ### Parsing text -/

/-- `nom::character::complete::multispace0`. -/
def isSpace (c : Char) : Bool := c = ' ' || c = '\t' || c = '\r' || c = '\n'

/-- `take_until("\n")`, `tag("\n")`: what follows. -/
def afterNewline : Text → Option Text
  | [] => none
  | c :: s => if c = '\n' then some s else afterNewline s

/-- `take_until("*/")`, `tag("*/")`: what follows. -/
def afterBlock : Text → Option Text
  | [] => none
  | c :: s => if c = '*' ∧ s.head? = some '/' then some s.tail else afterBlock s

/-- One round of `sp`: whitespace.rs:4-26. -/
def skip : Text → Option Text
  | [] => none
  | c :: s =>
    if c = '/' then
      match s with
      | [] => none
      | d :: s =>
        if d = '/' then (if s.head? = some '/' then none else afterNewline s)
        else if d = '*' then afterBlock s
        else none
    else if isSpace c then some (s.dropWhile isSpace) else none

/-- `sp`, with at most `n` rounds. -/
def spN : Nat → Text → Text
  | 0, s => s
  | n + 1, s =>
    match skip s with
    | none => s
    | some s' => spN n s'

/-- `sp`: whitespace.rs:3-27. Each round consumes something. -/
def sp (s : Text) : Text := spN s.length s

/-- `ws`: whitespace.rs:30-35. -/
def ws (q : Text → Option (α × Text)) : Parser Text α := fun s =>
  match q (sp s) with
  | none => .fail
  | some (a, s') => .ok a (sp s')

/-- `nom::bytes::complete::tag`: what follows. -/
def tag : Text → Text → Option Text
  | [], s => some s
  | _ :: _, [] => none
  | c :: t, d :: s => if c = d then tag t s else none

/-- `is_alphanum` of nom. -/
def isAlnum (c : Char) : Bool := c.isAlpha || c.isDigit

/-- `is_alphanum_underscore_dash`: common.rs:4-6. -/
def isWordChar (c : Char) : Bool := isAlnum c || c = '_' || c = '-'

/-- `ident_tag`: term.rs:28-38. -/
def identTag (k : Text) (s : Text) : Option (Unit × Text) :=
  match tag k s with
  | none => none
  | some [] => some ((), [])
  | some (c :: s') => if isWordChar c then none else some ((), c :: s')

/-- `Identifier` without `ws`: common.rs:103-109. -/
def lexIdent (s : Text) : Option (String × Text) :=
  let s := match s with
    | [] => []
    | c :: s' => if c = '_' then s' else c :: s'
  let first := s.takeWhile isAlnum
  let rest := s.dropWhile isAlnum
  if first = [] then none
  else some (String.ofList (first ++ rest.takeWhile isWordChar), rest.dropWhile isWordChar)

/-- `one_of("eE")`, `opt(one_of("+-"))`, `take_while1(is_dec_digit)`. -/
def lexExp : Text → Option (Text × Text)
  | [] => none
  | e :: s =>
    if e = 'e' ∨ e = 'E' then
      let sign := match s with
        | [] => []
        | c :: _ => if c = '+' ∨ c = '-' then [c] else []
      let s := s.drop sign.length
      if s.takeWhile Char.isDigit = [] then none
      else some (e :: sign ++ s.takeWhile Char.isDigit, s.dropWhile Char.isDigit)
    else none

/-- `FloatValueLit` without the sign: literal.rs:95-124. -/
def lexUnsignedFloat (s : Text) : Option (Text × Text) :=
  let d := s.takeWhile Char.isDigit
  match s.dropWhile Char.isDigit with
  | [] => none
  | c :: s' =>
    if c = '.' ∧ (d ≠ [] ∨ s'.takeWhile Char.isDigit ≠ []) then
      let m := d ++ '.' :: s'.takeWhile Char.isDigit
      let s'' := s'.dropWhile Char.isDigit
      match lexExp s'' with
      | none => some (m, s'')
      | some (e, s3) => some (m ++ e, s3)
    else if d = [] then none
    else (lexExp (c :: s')).map fun (e, s3) => (d ++ e, s3)

/-- `FloatValueLit` without `ws`: literal.rs:92-126. -/
def lexFloat (s : Text) : Option (String × Text) :=
  match s with
  | [] => none
  | c :: s' =>
    if c = '-' then (lexUnsignedFloat s').map fun (t, r) => (String.ofList ('-' :: t), r)
    else (lexUnsignedFloat s).map fun (t, r) => (String.ofList t, r)

/-- `StringLit` without `ws`: literal.rs:39-45. -/
def lexStr : Text → Option (String × Text)
  | [] => none
  | c :: s =>
    if c = '"' then
      match s.dropWhile (· ≠ '"') with
      | [] => none
      | _ :: r => some (String.ofList (s.takeWhile (· ≠ '"')), r)
    else none

/-- One line of a docstring: common.rs:37-44. -/
def docLine (s : Text) : Option (Text × Text) :=
  match tag ['/', '/', '/'] (s.dropWhile isSpace) with
  | none => none
  | some s' => (afterNewline s').map fun r => (s'.takeWhile (· ≠ '\n'), r)

/-- `many1` of lines, with at most `n` rounds after the first. -/
def docLines : Nat → Text → List Text × Text
  | 0, s => ([], s)
  | n + 1, s =>
    match docLine s with
    | none => ([], s)
    | some (l, s') => (l :: (docLines n s').1, (docLines n s').2)

/-- `docstring`: common.rs:36-46. `convert_docstring` (uniffi_udl/src/converters/mod.rs:34-36) removes
common indentation later; this is left out. -/
def lexDoc : Parser Text String := fun s =>
  match docLines s.length s with
  | ([], _) => .fail
  | (ls, s') => .ok (String.intercalate "\n" (ls.map String.ofList)) s'

/-- The basic parsers for text. -/
def text : Basic Text where
  punct x := ws fun s => (tag x.toList s).map fun r => ((), r)
  kw k := ws (identTag k.toList)
  ident := ws lexIdent
  int := ws fun s => (lexInt s).map fun (_, t, r) => (t, r)
  float := ws lexFloat
  str := ws lexStr
  doc := lexDoc

/-- `char::is_whitespace`. -/
def isWhite (c : Char) : Bool :=
  (9 ≤ c.toNat && c.toNat ≤ 13) || [0x20, 0x85, 0xA0, 0x1680, 0x2028, 0x2029, 0x202F, 0x205F, 0x3000].contains c.toNat ||
    (0x2000 ≤ c.toNat && c.toNat ≤ 0x200A)

/-- `str::trim`. -/
def trim (s : Text) : Text := ((s.dropWhile isWhite).reverse.dropWhile isWhite).reverse

/-- The first steps of `InterfaceCollector::from_webidl`: collectors.rs:36-42. -/
def parse (s : Text) : Option (List Def) :=
  match definitions text ((trim s).length + 1) (trim s) with
  | .ok ds [] => some ds
  | _ => none

end Verif.Udl.Parse
