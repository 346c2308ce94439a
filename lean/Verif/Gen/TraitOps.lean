/-!
# The operators of exported types in each language

A type can export `Debug`, `Display`, `Eq`, `Ord` and `Hash`.  The macro turns each into FFI methods
and each language turns those into members of the class it generates: `__eq__`, `equals`, `==` and so
on.  What `a == b` then does is decided by the generated members and by the rules of the language for
members that are not there.

Simplifications.  Calls into Rust are functions: a Rust implementation that panics is left to the model
of calls.  A reference from a record or an enum to an object is one flag, and the object it refers to is
taken to export nothing.  Subclasses that users write are left out, and so are trait interfaces.
-/

namespace Verif.Gen.TraitOps

/-- The five generators: uniffi_bindgen/src/bindings/{python,kotlin,swift,ruby} and
uniffi-bindgen-kotlin-jni. -/
inductive Lang
  | python | kotlin | kotlinJni | swift | ruby
  deriving DecidableEq, Repr

/-- What is exported.  Types used as errors are generated from other templates
(uniffi_bindgen/src/bindings/kotlin/templates/Types.kt:145-149, python/templates/Types.py:83-87,
swift/templates/Types.swift:79-83, ruby/templates/wrapper.rb:37,75-77). -/
inductive Kind
  | object
  | errorObject
  /-- whether it has fields -/
  | record (fields : Bool)
  /-- no variant has fields -/
  | flatEnum
  | dataEnum
  | flatError
  | dataError
  deriving DecidableEq, Repr

/-- Which traits are exported: `UniffiTraitMethods`
(uniffi_bindgen/src/pipeline/general/uniffi_traits.rs:7-33).  `eq_eq` and `eq_ne` are set together. -/
structure Traits where
  debug : Bool
  display : Bool
  eq : Bool
  hash : Bool
  ord : Bool
  deriving DecidableEq, Repr

/-- The Rust side of the exported traits: what the bodies in uniffi_macros/src/export/utrait.rs:20-200
call. -/
structure Impl (V : Type) where
  debug : V → String
  display : V → String
  eq : V → V → Bool
  ne : V → V → Bool
  hash : V → UInt64
  cmp : V → V → Ordering

/-- What the language itself would say of the fields of two values. -/
structure Native (V : Type) where
  fieldsEq : V → V → Bool
  fieldsHash : V → Int
  text : V → String

/-- A value in the language: which object it is, which variant and whether that variant has fields, and
what Rust sees of it when it is passed. -/
structure Val (V : Type) where
  id : Nat
  variant : Nat
  hasFields : Bool
  val : V

/-- The right operand of a comparison: a value of the same exported type, or of any other type. -/
inductive Operand (V : Type)
  | same (b : Val V)
  | other

/-- What an expression gives. -/
inductive Res (α : Type)
  | val (a : α)
  | raises
  /-- the language rejects the expression -/
  | notOffered
  deriving DecidableEq, Repr

/-- `Ord::cmp(self, other) as i8` (uniffi_macros/src/export/utrait.rs:140-150). -/
def cmpI8 : Ordering → Int
  | .lt => -1
  | .eq => 0
  | .gt => 1

/-- The check on the right operand before Rust is asked: `isinstance(other, T)` and `other !is T`, or
`other.is_a?(self.class)`, which for an enum is the class of the variant. -/
inductive Guard
  | type | cls
  deriving DecidableEq, Repr

/-- What a member for equality does. -/
inductive EqBody
  | rustEq (g : Guard)
  | rustNe (g : Guard)
  /-- check the type, then the variant, then the fields -/
  | fields
  /-- compare the fields without looking at the type -/
  | fieldsUnchecked
  | identity
  /-- the same constant of an enum class -/
  | variant
  | sameType
  deriving DecidableEq, Repr

/-- What a member for hash codes does. -/
inductive HashBody
  | rust | fields | identity | variant | sameType | unhashable
  deriving DecidableEq, Repr

/-- What a member for text does. -/
inductive TextBody
  | display | debug | native
  deriving DecidableEq, Repr

/-- The members of a class. -/
structure Members where
  eq : Option EqBody
  ne : Option EqBody
  hash : Option HashBody
  /-- an order taken from Rust -/
  cmp : Bool
  str : Option TextBody
  repr : Option TextBody
  deriving DecidableEq, Repr

def noMembers : Members := ⟨none, none, none, false, none, none⟩

/-! ## Python -/

/-- uniffi_bindgen/src/bindings/python/templates/UniffiTraitImpls.py:1-72. -/
def pyTraitImpls (t : Traits) : Members where
  eq := if t.eq then some (.rustEq .type) else none
  ne := if t.eq then some (.rustNe .type) else none
  hash := if t.hash then some .rust else none
  cmp := t.ord
  str := if t.display then some .display else none
  repr := if t.debug then some .debug else none

/-- What Python's `@dataclass` adds to a class that defines none of these: `__repr__`, and
`__hash__ = None` when there is an `__eq__` and no `__hash__`. -/
def dataclass (m : Members) : Members :=
  { m with
    repr := some (m.repr.getD .native)
    hash := match m.eq, m.hash with
      | some _, none => some .unhashable
      | _, h => h }

/-- What Python does to any class: `__eq__` without `__hash__` makes it unhashable. -/
def pyClassRule (m : Members) : Members :=
  { m with
    hash := match m.eq, m.hash with
      | some _, none => some .unhashable
      | _, h => h }

/-- The class Python gets.  Records: python/templates/RecordTemplate.py:1-55.  Enums:
EnumTemplate.py:10-140, where flat enums (10-26) do not include the trait methods.  Errors:
ErrorTemplate.py, which never includes them.  Objects: InterfaceTemplate.py:60-62. -/
def pyMembers (k : Kind) (t : Traits) : Members :=
  match k with
  | .object | .errorObject => pyClassRule (pyTraitImpls t)
  | .record _ =>
    let m := pyTraitImpls t
    dataclass { m with
      str := if t.display then m.str else some .native
      eq := if t.eq then m.eq else some .fieldsUnchecked }
  | .dataEnum =>
    let m := pyTraitImpls t
    dataclass { m with
      str := if t.display then m.str else some .native
      eq := if t.eq then m.eq else some .fields }
  | .flatEnum => { noMembers with eq := some .variant, hash := some .variant, str := some .native, repr := some .native }
  | .flatError | .dataError => { noMembers with str := some .native, repr := some .native }

/-! ## Kotlin -/

/-- `uniffi_trait_impls` (uniffi_bindgen/src/bindings/kotlin/templates/macros.kt:187-216), and the same
members in uniffi-bindgen-kotlin-jni/src/bindings/templates/UniffiTraitMethods.kt:1-39. -/
def ktTraitImpls (t : Traits) : Members where
  eq := if t.eq then some (.rustEq .type) else none
  ne := none
  hash := if t.hash then some .rust else none
  cmp := t.ord
  str := if t.display then some .display else if t.debug then some .debug else none
  repr := none

/-- What Kotlin's `data class` adds when its own body does not define them.  Members of a class it
extends do not count unless they are final. -/
def dataClass (own inherited : Members) : Members where
  eq := some (own.eq.getD .fields)
  ne := none
  hash := some (own.hash.getD .fields)
  cmp := own.cmp || inherited.cmp
  str := some (own.str.getD .native)
  repr := none

/-- The class Kotlin gets for a value of one variant.  Records: kotlin/templates/RecordTemplate.kt:3-46,
where a record without fields has members of its own and none from the traits.  Enums:
EnumTemplate.kt:8-125: the members are written in every `data class` variant (94) and in the sealed
class (123).  Errors: ErrorTemplate.kt:5-69, where flat errors have none.  Objects:
ObjectTemplate.kt:230. -/
def ktMembers (k : Kind) (t : Traits) (variantHasFields : Bool) : Members :=
  match k with
  | .object | .errorObject => ktTraitImpls t
  | .record true => dataClass (ktTraitImpls t) noMembers
  | .record false => { noMembers with eq := some .sameType, hash := some .sameType }
  | .flatEnum => { ktTraitImpls t with eq := some .variant, hash := some .variant, cmp := false }
  | .dataEnum =>
    if variantHasFields then dataClass (ktTraitImpls t) (ktTraitImpls t) else ktTraitImpls t
  | .flatError => noMembers
  | .dataError => ktTraitImpls t

/-- Whether Kotlin bindings come out and compile.  `ensure_flat_enum_trait_methods_supported`
(uniffi_bindgen/src/bindings/kotlin/gen_kotlin/mod.rs:232-250) refuses flat enums.  A flat error that
exports `Ord` is declared `Comparable` and has no `compareTo` (ErrorTemplate.kt:7-20).  An object used as
an error has `override fun compareTo` and is not `Comparable` (ObjectTemplate.kt:109-120,230). -/
def ktBuilds (k : Kind) (t : Traits) : Bool :=
  match k with
  | .flatEnum => !(t.eq || t.hash || t.ord)
  | .flatError | .errorObject => !t.ord
  | _ => true

/-- The class of the JNI bindings for a value of one variant.  Records:
uniffi-bindgen-kotlin-jni/src/bindings/templates/Record.kt:2-29.  Enums: Enum.kt:10-65.  An enum class
and a flat error have no trait methods; a sealed class has them itself (52-53), and its `data class`
variants (43-48) have none of their own. -/
def jniMembers (k : Kind) (t : Traits) (variantHasFields : Bool) : Members :=
  match k with
  | .object | .errorObject => ktTraitImpls t
  | .record true => dataClass (ktTraitImpls t) noMembers
  | .record false => { noMembers with eq := some .sameType, hash := some .sameType }
  | .flatEnum => { noMembers with eq := some .variant, hash := some .variant }
  | .dataEnum => if variantHasFields then dataClass noMembers (ktTraitImpls t) else ktTraitImpls t
  | .flatError => noMembers
  | .dataError => ktTraitImpls t

/-! ## Swift -/

/-- The protocols a type is declared to follow. -/
structure Conforms where
  equatable : Bool
  hashable : Bool
  comparable : Bool
  debugConvertible : Bool
  convertible : Bool
  deriving DecidableEq, Repr

/-- `conformance_list_for_record`, `_enum`, `_error` and `_object`
(uniffi_bindgen/src/bindings/swift/gen_swift/mod.rs:310-347, 358-395, 410-448, 450-485).  `refs` is
`contains_object_references`. -/
def swiftConforms (k : Kind) (t : Traits) (refs : Bool) : Conforms :=
  match k with
  | .object | .errorObject => ⟨t.eq, t.hash, t.ord, t.debug, t.display⟩
  | .record _ | .flatEnum | .dataEnum => ⟨!refs || t.eq, !refs || t.hash, t.ord, t.debug, t.display⟩
  | .flatError | .dataError => ⟨!refs || t.eq, !refs || t.hash, t.ord, false, false⟩

/-- `uniffi_trait_impls` (uniffi_bindgen/src/bindings/swift/templates/macros.swift:211-254). -/
def swiftTraitImpls (t : Traits) : Members where
  eq := if t.eq then some (.rustEq .type) else none
  ne := none
  hash := if t.hash then some .rust else none
  cmp := t.ord
  str := if t.display then some .display else none
  repr := if t.debug then some .debug else none

/-- Whether Swift can write `==` and `hash(into:)` by itself: for a struct or an enum whose fields have
them, and never for a class. -/
def swiftSynthesizes (k : Kind) (refs : Bool) : Bool :=
  match k with
  | .object | .errorObject => false
  | _ => !refs

/-- Whether the Swift type compiles: `Hashable` and `Comparable` both need `==`. -/
def swiftBuilds (k : Kind) (t : Traits) (refs : Bool) : Bool :=
  let c := swiftConforms k t refs
  let eqThere := t.eq || swiftSynthesizes k refs
  let hashThere := t.hash || swiftSynthesizes k refs
  (!(c.equatable || c.hashable || c.comparable) || eqThere) && (!c.hashable || hashThere)

/-- The type Swift gets: the members of the traits, those Swift writes for the protocols, and text only
through the protocols. -/
def swiftMembers (k : Kind) (t : Traits) (refs : Bool) : Members :=
  let c := swiftConforms k t refs
  let m := swiftTraitImpls t
  { m with
    eq := match m.eq with
      | some b => some b
      | none => if c.equatable || c.hashable || c.comparable then some .fields else none
    hash := match m.hash with
      | some b => some b
      | none => if c.hashable then some .fields else none
    cmp := c.comparable && m.cmp
    str := if c.convertible then m.str else none
    repr := if c.debugConvertible then m.repr else none }

/-! ## Ruby -/

/-- uniffi_bindgen/src/bindings/ruby/templates/UniffiTraitImpls.rb:1-72.  `hash` comes with an `eql?`
that is `==`. -/
def rbTraitImpls (t : Traits) : Members where
  eq := if t.eq then some (.rustEq .cls) else none
  ne := none
  hash := if t.hash then some .rust else none
  cmp := t.ord
  str := if t.display then some .display else none
  repr := if t.debug then some .debug else none

/-- The class Ruby gets.  Records: ruby/templates/RecordTemplate.rb:19-31.  Enums: EnumTemplate.rb:1-90,
where flat enums are integers.  Objects: ObjectTemplate.rb:155-156.  Errors: ErrorTemplate.rb, which has
no trait methods. -/
def rbMembers (k : Kind) (t : Traits) : Members :=
  match k with
  | .object | .errorObject => rbTraitImpls t
  | .record _ => { rbTraitImpls t with eq := if t.eq then some (.rustEq .cls) else some .fieldsUnchecked }
  | .dataEnum =>
    { rbTraitImpls t with
      eq := if t.eq then some (.rustEq .cls) else some .fields
      str := if t.display then some .display else some .native }
  | .flatEnum => { noMembers with eq := some .variant, hash := some .variant }
  | .flatError | .dataError => noMembers

/-! ## Expressions -/

/-- The members of the class of a value. -/
def members (l : Lang) (k : Kind) (t : Traits) (refs : Bool) (variantHasFields : Bool) : Members :=
  match l with
  | .python => pyMembers k t
  | .kotlin => ktMembers k t variantHasFields
  | .kotlinJni => jniMembers k t variantHasFields
  | .swift => swiftMembers k t refs
  | .ruby => rbMembers k t

/-- Whether bindings come out that the language accepts. -/
def builds (l : Lang) (k : Kind) (t : Traits) (refs : Bool) : Bool :=
  match l with
  | .kotlin => ktBuilds k t
  | .swift => swiftBuilds k t refs
  | _ => true

/-- A member for equality applied to a value and an operand; `noFields` is set for a record that has no
fields, whose unchecked comparison looks at nothing.  A `NotImplemented` from both sides makes Python
compare identities, which gives false for a value of another type. -/
def evalEq {V : Type} (i : Impl V) (n : Native V) (noFields : Bool) (b : EqBody) (a : Val V)
    (o : Operand V) : Res Bool :=
  match b, o with
  | .rustEq .type, .same b => .val (i.eq a.val b.val)
  | .rustEq .cls, .same b => if b.variant == a.variant then .val (i.eq a.val b.val) else .val false
  | .rustNe _, .same b => .val (i.ne a.val b.val)
  | .fields, .same b => .val (a.variant == b.variant && n.fieldsEq a.val b.val)
  | .fieldsUnchecked, .same b => .val (n.fieldsEq a.val b.val)
  | .identity, .same b => .val (a.id == b.id)
  | .variant, .same b => .val (a.variant == b.variant)
  | .sameType, .same _ => .val true
  | .rustNe _, .other => .val true
  | .fieldsUnchecked, .other => if noFields then .val true else .raises
  | _, .other => .val false

def Res.not : Res Bool → Res Bool
  | .val b => .val (!b)
  | .raises => .raises
  | .notOffered => .notOffered

/-- Whether a record has no fields. -/
def Kind.noFields : Kind → Bool
  | .record f => !f
  | _ => false

/-- `a == b`.  Without a member, Swift has no `==`; the other languages compare identities, except that
Ruby's `Comparable` asks `<=>` first. -/
def opEq {V : Type} (l : Lang) (k : Kind) (t : Traits) (refs : Bool) (i : Impl V) (n : Native V)
    (a : Val V) (o : Operand V) : Res Bool :=
  let m := members l k t refs a.hasFields
  match l, m.eq, o with
  | .swift, _, .other => .notOffered
  | .swift, none, _ => .notOffered
  | .ruby, none, .same b =>
    if m.cmp then .val (a.id == b.id || cmpI8 (i.cmp a.val b.val) == 0) else .val (a.id == b.id)
  | _, some e, o => evalEq i n k.noFields e a o
  | _, none, o => evalEq i n k.noFields .identity a o

/-- `a != b`: Python has a member for it, the others negate `==`. -/
def opNe {V : Type} (l : Lang) (k : Kind) (t : Traits) (refs : Bool) (i : Impl V) (n : Native V)
    (a : Val V) (o : Operand V) : Res Bool :=
  match (members l k t refs a.hasFields).ne with
  | some e => evalEq i n k.noFields e a o
  | none => (opEq l k t refs i n a o).not

/-- The four comparisons. -/
inductive Rel
  | lt | le | gt | ge
  deriving DecidableEq, Repr

/-- What the comparison says of an integer. -/
def Rel.holds : Rel → Int → Bool
  | .lt, c => decide (c < 0)
  | .le, c => decide (c ≤ 0)
  | .gt, c => decide (c > 0)
  | .ge, c => decide (c ≥ 0)

/-- `a < b` and the others.  Python has a member for each (UniffiTraitImpls.py:56-71), Kotlin asks
`compareTo` and Ruby asks `<=>`.  Swift has `<` and derives the rest from it. -/
def opRel {V : Type} (l : Lang) (k : Kind) (t : Traits) (refs : Bool) (i : Impl V) (r : Rel)
    (a b : Val V) : Res Bool :=
  let m := members l k t refs a.hasFields
  if m.cmp then
    match l with
    | .swift =>
      let less := fun (x y : Val V) => decide (cmpI8 (i.cmp x.val y.val) < 0)
      match r with
      | .lt => .val (less a b)
      | .gt => .val (less b a)
      | .le => .val (!less b a)
      | .ge => .val (!less a b)
    | _ => .val (r.holds (cmpI8 (i.cmp a.val b.val)))
  else
    match l, k with
    | .ruby, .flatEnum | .kotlin, .flatEnum | .kotlinJni, .flatEnum =>
      .val (r.holds (Int.ofNat a.variant - Int.ofNat b.variant))
    | .python, _ | .ruby, _ => .raises
    | _, _ => .notOffered

/-- Kotlin's `ULong.toInt()`: the low 32 bits, read with a sign. -/
def toInt32 (h : UInt64) : Int :=
  let w := h.toNat % 2 ^ 32
  if w < 2 ^ 31 then Int.ofNat w else Int.ofNat w - 2 ^ 32

/-- What the language makes of a 64-bit hash: Python reduces what `__hash__` gives modulo the prime
`2^61 - 1`, Kotlin takes the low 32 bits (macros.kt:204-208), Swift and Ruby feed it on as it is. -/
def hashOf : Lang → UInt64 → Int
  | .python, h => Int.ofNat (h.toNat % (2 ^ 61 - 1))
  | .kotlin, h | .kotlinJni, h => toInt32 h
  | .swift, h | .ruby, h => Int.ofNat h.toNat

/-- The hash code of a value.  Without a member there is none in Swift, and the identity decides
elsewhere. -/
def opHash {V : Type} (l : Lang) (k : Kind) (t : Traits) (refs : Bool) (i : Impl V) (n : Native V)
    (a : Val V) : Res Int :=
  match (members l k t refs a.hasFields).hash with
  | some .rust => .val (hashOf l (i.hash a.val))
  | some .fields => .val (n.fieldsHash a.val)
  | some .identity => .val (Int.ofNat a.id)
  | some .variant => .val (Int.ofNat a.variant)
  | some .sameType => .val 0
  | some .unhashable => .raises
  | none => if l = .swift then .notOffered else .val (Int.ofNat a.id)

/-- Whether a dictionary or a set takes two values for one key, once their hash codes agree: `==`, or in
Ruby `eql?`, which is `==` where `hash` is defined and the identity elsewhere. -/
def opKeyEq {V : Type} (l : Lang) (k : Kind) (t : Traits) (refs : Bool) (i : Impl V) (n : Native V)
    (a b : Val V) : Res Bool :=
  match l with
  | .ruby =>
    match (members l k t refs a.hasFields).hash with
    | some _ => opEq l k t refs i n a (.same b)
    | none => .val (a.id == b.id)
  | _ => opEq l k t refs i n a (.same b)

/-- Text for users: `str(a)`, `a.toString()`, `String(describing: a)`, `a.to_s`.  Python uses `__repr__`
and Swift `debugDescription` when there is nothing else. -/
def opText {V : Type} (l : Lang) (k : Kind) (t : Traits) (refs : Bool) (i : Impl V) (n : Native V)
    (a : Val V) : String :=
  let m := members l k t refs a.hasFields
  let body := match m.str with
    | some b => b
    | none =>
      match l with
      | .python | .swift => m.repr.getD .native
      | _ => .native
  match body with
  | .display => i.display a.val
  | .debug => i.debug a.val
  | .native => n.text a.val

/-- Text for programmers: `repr(a)`, `String(reflecting: a)`, `a.inspect`.  Kotlin has one text only. -/
def opDebug {V : Type} (l : Lang) (k : Kind) (t : Traits) (refs : Bool) (i : Impl V) (n : Native V)
    (a : Val V) : Res String :=
  let m := members l k t refs a.hasFields
  let body := match m.repr with
    | some b => b
    | none =>
      match l with
      | .swift => m.str.getD .native
      | _ => .native
  match l with
  | .kotlin | .kotlinJni => .notOffered
  | _ =>
    match body with
    | .display => .val (i.display a.val)
    | .debug => .val (i.debug a.val)
    | .native => .val (n.text a.val)

end Verif.Gen.TraitOps
