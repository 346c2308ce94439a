import Verif.Gen.TraitOpsSpec

/-!
# C82: the operators of exported types are those of Rust

When a type exports `Eq`, `Ord`, `Hash`, `Display` or `Debug`, the operators of each language give what
Rust gives, and a value that equals a key of a dictionary finds it.
-/

namespace Verif.Props.TraitOps

open Verif.Gen.TraitOps
open Verif.Gen.TraitOpsSpec

/-- **Equality is Rust's.**  For a type that exports `Eq`, `a == b` is what Rust's `==` says, in every
language and for every type the language follows Rust for.  Two things are left out: in the JNI bindings
the variants of an enum that have fields, and in Ruby operands of different variants. -/
theorem C82_eq_partial {V : Type} (l : Lang) (k : Kind) (t : Traits) (refs : Bool) (i : Impl V)
    (n : Native V) (a b : Val V)
    (ht : t.eq = true) (hf : follows l k = true)
    (hj : l = .kotlinJni → k = .dataEnum → a.hasFields = false)
    (hr : l = .ruby → a.variant = b.variant) :
    opEq l k t refs i n a (.same b) = .val (i.eq a.val b.val) := by
  cases l with
  | python => cases k <;> simp_all [opEq, members, pyMembers, pyTraitImpls, pyClassRule, dataclass, evalEq, follows]
  | kotlin =>
    cases k with
    | record f => cases f <;> simp_all [opEq, members, ktMembers, ktTraitImpls, dataClass, evalEq, follows]
    | dataEnum => cases h : a.hasFields <;> simp_all [opEq, members, ktMembers, ktTraitImpls, dataClass, evalEq, follows]
    | _ => simp_all [opEq, members, ktMembers, ktTraitImpls, dataClass, evalEq, follows]
  | kotlinJni =>
    cases k with
    | record f => cases f <;> simp_all [opEq, members, jniMembers, ktTraitImpls, dataClass, evalEq, follows]
    | _ => simp_all [opEq, members, jniMembers, ktTraitImpls, dataClass, evalEq, follows]
  | swift => cases k <;> simp_all [opEq, members, swiftMembers, swiftTraitImpls, evalEq]
  | ruby => cases k <;> simp_all [opEq, members, rbMembers, rbTraitImpls, evalEq, follows]

/-- **Difference is Rust's.**  `a != b` is the negation of Rust's `==` in the same cases. -/
theorem C82_ne_partial {V : Type} (l : Lang) (k : Kind) (t : Traits) (refs : Bool) (i : Impl V)
    (n : Native V) (a b : Val V) (hi : Lawful i)
    (ht : t.eq = true) (hf : follows l k = true)
    (hj : l = .kotlinJni → k = .dataEnum → a.hasFields = false)
    (hr : l = .ruby → a.variant = b.variant) :
    opNe l k t refs i n a (.same b) = .val (!i.eq a.val b.val) := by
  have he := C82_eq_partial l k t refs i n a b ht hf hj hr
  unfold opNe
  cases l with
  | python => cases k <;> simp_all [members, pyMembers, pyTraitImpls, pyClassRule, dataclass, evalEq, follows, hi.ne]
  | kotlin =>
    have : (members .kotlin k t refs a.hasFields).ne = none := by
      cases k with
      | record f => cases f <;> rfl
      | dataEnum => cases h : a.hasFields <;> rfl
      | _ => rfl
    rw [this, he]; rfl
  | kotlinJni =>
    have : (members .kotlinJni k t refs a.hasFields).ne = none := by
      cases k with
      | record f => cases f <;> rfl
      | dataEnum => cases h : a.hasFields <;> rfl
      | _ => rfl
    rw [this, he]; rfl
  | swift =>
    have : (members .swift k t refs a.hasFields).ne = none := by cases k <;> rfl
    rw [this, he]; rfl
  | ruby =>
    have : (members .ruby k t refs a.hasFields).ne = none := by cases k <;> rfl
    rw [this, he]; rfl

/-- **A value of another type is different.**  Comparing with a value of any other type says no and
raises nothing, where `Eq` is exported. -/
theorem C82_other {V : Type} (l : Lang) (k : Kind) (t : Traits) (refs : Bool) (i : Impl V)
    (n : Native V) (a : Val V) (hl : l ≠ .swift) (ht : t.eq = true) (hf : follows l k = true) :
    opEq l k t refs i n a .other = .val false ∧ opNe l k t refs i n a .other = .val true := by
  cases l with
  | python => cases k <;> simp_all [opNe, opEq, members, pyMembers, pyTraitImpls, pyClassRule, dataclass, evalEq, follows]
  | kotlin =>
    cases k with
    | record f => cases f <;> simp_all [opNe, opEq, members, ktMembers, ktTraitImpls, dataClass, evalEq, follows, Res.not]
    | dataEnum => cases h : a.hasFields <;> simp_all [opNe, opEq, members, ktMembers, ktTraitImpls, dataClass, evalEq, follows, Res.not]
    | _ => simp_all [opNe, opEq, members, ktMembers, ktTraitImpls, dataClass, evalEq, follows, Res.not]
  | kotlinJni =>
    cases k with
    | record f => cases f <;> simp_all [opNe, opEq, members, jniMembers, ktTraitImpls, dataClass, evalEq, follows, Res.not]
    | dataEnum => cases h : a.hasFields <;> simp_all [opNe, opEq, members, jniMembers, ktTraitImpls, dataClass, evalEq, follows, Res.not, noMembers]
    | _ => simp_all [opNe, opEq, members, jniMembers, ktTraitImpls, dataClass, evalEq, follows, Res.not]
  | swift => exact absurd rfl hl
  | ruby => cases k <;> simp_all [opNe, opEq, members, rbMembers, rbTraitImpls, evalEq, follows, Res.not]

theorem holds_rust (r : Rel) (o : Ordering) : r.holds (cmpI8 o) = rustRel r o := by
  cases r <;> cases o <;> rfl

/-- **The order is Rust's.**  For a type that exports `Ord`, the four comparisons mean what they mean in
Rust, in every language whose bindings come out. -/
theorem C82_order {V : Type} (l : Lang) (k : Kind) (t : Traits) (refs : Bool) (i : Impl V)
    (r : Rel) (a b : Val V) (hi : Lawful i) (ht : t.ord = true) (hf : follows l k = true) :
    opRel l k t refs i r a b = .val (rustRel r (i.cmp a.val b.val)) := by
  have hm : (members l k t refs a.hasFields).cmp = true := by
    cases l with
    | python => cases k <;> simp_all [members, pyMembers, pyTraitImpls, pyClassRule, dataclass, follows]
    | kotlin =>
      cases k with
      | record f => cases f <;> simp_all [members, ktMembers, ktTraitImpls, dataClass, follows]
      | dataEnum => cases h : a.hasFields <;> simp_all [members, ktMembers, ktTraitImpls, dataClass, follows]
      | _ => simp_all [members, ktMembers, ktTraitImpls, dataClass, follows]
    | kotlinJni =>
      cases k with
      | record f => cases f <;> simp_all [members, jniMembers, ktTraitImpls, dataClass, follows]
      | dataEnum => cases h : a.hasFields <;> simp_all [members, jniMembers, ktTraitImpls, dataClass, follows]
      | _ => simp_all [members, jniMembers, ktTraitImpls, dataClass, follows]
    | swift => cases k <;> simp_all [members, swiftMembers, swiftTraitImpls, swiftConforms]
    | ruby => cases k <;> simp_all [members, rbMembers, rbTraitImpls, follows]
  unfold opRel
  simp only [hm, if_true]
  cases l with
  | swift =>
    cases r <;> simp only [hi.swap a.val b.val] <;> cases i.cmp a.val b.val <;> rfl
  | _ => simp only [holds_rust]

/-- **Hash codes are Rust's.**  For a type that exports `Hash`, the hash code of a value is what the
language makes of the hash that Rust computes, and of nothing else. -/
theorem C82_hash_partial {V : Type} (l : Lang) (k : Kind) (t : Traits) (refs : Bool) (i : Impl V)
    (n : Native V) (a : Val V) (ht : t.hash = true) (hf : follows l k = true)
    (hj : l = .kotlinJni → k = .dataEnum → a.hasFields = false) :
    opHash l k t refs i n a = .val (hashOf l (i.hash a.val)) := by
  cases l with
  | python =>
    cases k <;> cases he : t.eq <;>
      simp_all [opHash, members, pyMembers, pyTraitImpls, pyClassRule, dataclass, follows]
  | kotlin =>
    cases k with
    | record f => cases f <;> simp_all [opHash, members, ktMembers, ktTraitImpls, dataClass, follows]
    | dataEnum => cases h : a.hasFields <;> simp_all [opHash, members, ktMembers, ktTraitImpls, dataClass, follows]
    | _ => simp_all [opHash, members, ktMembers, ktTraitImpls, dataClass, follows]
  | kotlinJni =>
    cases k with
    | record f => cases f <;> simp_all [opHash, members, jniMembers, ktTraitImpls, dataClass, follows]
    | _ => simp_all [opHash, members, jniMembers, ktTraitImpls, dataClass, follows]
  | swift => cases k <;> simp_all [opHash, members, swiftMembers, swiftTraitImpls]
  | ruby => cases k <;> simp_all [opHash, members, rbMembers, rbTraitImpls, follows]

/-- Kotlin's hash codes are 32-bit integers with a sign. -/
theorem C82_hash_range (h : UInt64) : -2 ^ 31 ≤ hashOf .kotlin h ∧ hashOf .kotlin h < 2 ^ 31 := by
  have := Nat.mod_lt h.toNat (show 2 ^ 32 > 0 by decide)
  simp only [hashOf, toInt32]
  split <;> constructor <;> simp only [Int.ofNat_eq_natCast] <;> omega

/-- **Equal keys have equal hash codes.**  Two values that a dictionary would take for one key have the
same hash code, so a value that equals a key finds it.  In Kotlin and Swift this needs `Eq` and `Hash`
to be exported together, and in the JNI bindings operands that both have fields or both have none. -/
theorem C82_keys_partial {V : Type} (l : Lang) (k : Kind) (t : Traits) (refs : Bool) (i : Impl V)
    (n : Native V) (a b : Val V) (hi : Lawful i) (hn : Sensible n) (hab : Together a b)
    (hb : builds l k t refs = true)
    (ht : l = .python ∨ l = .ruby ∨ t.eq = t.hash)
    (hj : l = .kotlinJni → k = .dataEnum → a.hasFields = b.hasFields)
    (hk : opKeyEq l k t refs i n a b = .val true) :
    opHash l k t refs i n a = opHash l k t refs i n b := by
  have hrust : i.eq a.val b.val = true → i.hash a.val = i.hash b.val := hi.hash _ _
  have hcmp : cmpI8 (i.cmp a.val b.val) = 0 → i.hash a.val = i.hash b.val := by
    intro h
    apply hrust
    rw [← hi.cmpEq]
    cases hc : i.cmp a.val b.val <;> rw [hc] at h <;> first | rfl | exact absurd h (by decide)
  have hfield : n.fieldsEq a.val b.val = true → a.val = b.val := hn _ _
  have hone := hab.one
  cases l with
  | python =>
    cases k <;> cases he : t.eq <;> cases hh : t.hash <;>
      simp_all [opKeyEq, opEq, opHash, members, pyMembers, pyTraitImpls, pyClassRule, dataclass, evalEq, noMembers]
  | kotlin =>
    cases k with
    | record f =>
      cases f <;> cases hh : t.hash <;>
        simp_all [opKeyEq, opEq, opHash, members, ktMembers, ktTraitImpls, dataClass, evalEq, noMembers]
    | dataEnum =>
      have hv := hab.variants
      cases ha : a.hasFields <;> cases hb' : b.hasFields <;> cases hh : t.hash <;>
        simp_all [opKeyEq, opEq, opHash, members, ktMembers, ktTraitImpls, dataClass, evalEq, noMembers]
    | _ =>
      cases hh : t.hash <;>
        simp_all [opKeyEq, opEq, opHash, members, ktMembers, ktTraitImpls, dataClass, evalEq, noMembers]
  | kotlinJni =>
    cases k with
    | record f =>
      cases f <;> cases hh : t.hash <;>
        simp_all [opKeyEq, opEq, opHash, members, jniMembers, ktTraitImpls, dataClass, evalEq, noMembers]
    | dataEnum =>
      have hv := hab.variants
      cases ha : a.hasFields <;> cases hb' : b.hasFields <;> cases hh : t.hash <;>
        simp_all [opKeyEq, opEq, opHash, members, jniMembers, ktTraitImpls, dataClass, evalEq, noMembers]
    | _ =>
      cases hh : t.hash <;>
        simp_all [opKeyEq, opEq, opHash, members, jniMembers, ktTraitImpls, dataClass, evalEq, noMembers]
  | swift =>
    cases k <;> cases hh : t.hash <;> cases refs <;> cases ho : t.ord <;>
      simp_all [opKeyEq, opEq, opHash, members, swiftMembers, swiftTraitImpls, swiftConforms, evalEq, builds, swiftBuilds, swiftSynthesizes]
  | ruby =>
    cases k <;> cases he : t.eq <;> cases hh : t.hash <;> cases ho : t.ord <;>
      simp_all [opKeyEq, opEq, opHash, members, rbMembers, rbTraitImpls, evalEq, noMembers] <;>
      first
        | (rcases hk with h | h <;> simp_all; done)
        | (split at hk <;> simp_all; done)
        | skip

/-- **Text is Rust's.**  For a type that exports `Display`, the text for users is what Rust displays. -/
theorem C82_display_partial {V : Type} (l : Lang) (k : Kind) (t : Traits) (refs : Bool) (i : Impl V)
    (n : Native V) (a : Val V) (ht : t.display = true) (hf : followsText l k = true)
    (hj : l = .kotlinJni → k = .dataEnum → a.hasFields = false) :
    opText l k t refs i n a = i.display a.val := by
  cases l with
  | python => cases k <;> simp_all [opText, members, pyMembers, pyTraitImpls, pyClassRule, dataclass, followsText, follows]
  | kotlin =>
    cases k with
    | record f => cases f <;> simp_all [opText, members, ktMembers, ktTraitImpls, dataClass, followsText, follows]
    | dataEnum => cases h : a.hasFields <;> simp_all [opText, members, ktMembers, ktTraitImpls, dataClass]
    | _ => simp_all [opText, members, ktMembers, ktTraitImpls, followsText, follows]
  | kotlinJni =>
    cases k with
    | record f => cases f <;> simp_all [opText, members, jniMembers, ktTraitImpls, dataClass, followsText, follows]
    | _ => simp_all [opText, members, jniMembers, ktTraitImpls, followsText, follows]
  | swift => cases k <;> simp_all [opText, members, swiftMembers, swiftTraitImpls, swiftConforms, followsText]
  | ruby => cases k <;> simp_all [opText, members, rbMembers, rbTraitImpls, followsText, follows]

/-- **Text for programmers is Rust's.**  For a type that exports `Debug`, Python, Swift and Ruby show
what Rust's `{:?}` shows; Kotlin, which has one text only, does so when `Display` is not exported. -/
theorem C82_debug_partial {V : Type} (l : Lang) (k : Kind) (t : Traits) (refs : Bool) (i : Impl V)
    (n : Native V) (a : Val V) (ht : t.debug = true) (hf : followsText l k = true)
    (hj : l = .kotlinJni → k = .dataEnum → a.hasFields = false) :
    if l = .kotlin ∨ l = .kotlinJni then t.display = false → opText l k t refs i n a = i.debug a.val
    else opDebug l k t refs i n a = .val (i.debug a.val) := by
  cases l with
  | python => cases k <;> simp_all [opDebug, members, pyMembers, pyTraitImpls, pyClassRule, dataclass, followsText, follows]
  | kotlin =>
    cases k with
    | record f => cases f <;> simp_all [opText, members, ktMembers, ktTraitImpls, dataClass, followsText, follows]
    | dataEnum => cases h : a.hasFields <;> simp_all [opText, members, ktMembers, ktTraitImpls, dataClass]
    | _ => simp_all [opText, members, ktMembers, ktTraitImpls, followsText, follows]
  | kotlinJni =>
    cases k with
    | record f => cases f <;> simp_all [opText, members, jniMembers, ktTraitImpls, dataClass, followsText, follows]
    | _ => simp_all [opText, members, jniMembers, ktTraitImpls, followsText, follows]
  | swift => cases k <;> simp_all [opDebug, members, swiftMembers, swiftTraitImpls, swiftConforms, followsText]
  | ruby => cases k <;> simp_all [opDebug, members, rbMembers, rbTraitImpls, followsText, follows]

/-- **Without `Eq`, records are their fields.**  A record with fields that does not export `Eq` and
refers to no object is compared field by field, in every language. -/
theorem C82_default {V : Type} (l : Lang) (t : Traits) (i : Impl V) (n : Native V) (a b : Val V)
    (hv : a.variant = b.variant) (ht : t.eq = false) :
    opEq l (.record true) t false i n a (.same b) = .val (n.fieldsEq a.val b.val) := by
  cases l <;> simp_all [opEq, members, pyMembers, pyTraitImpls, dataclass, ktMembers, jniMembers,
    ktTraitImpls, dataClass, noMembers, swiftMembers, swiftTraitImpls, swiftConforms, rbMembers,
    rbTraitImpls, evalEq]

/-! ## A concrete type -/

/-- A Rust type compared by its remainder modulo 10, as a type with an equality of its own would be. -/
def mod10 : Impl Nat where
  debug x := s!"M({x})"
  display x := s!"{x % 10}"
  eq x y := x % 10 == y % 10
  ne x y := !(x % 10 == y % 10)
  hash x := (x % 10).toUInt64
  cmp x y := compare (x % 10) (y % 10)

theorem mod10_lawful : Lawful mod10 where
  ne _ _ := rfl
  hash x y h := by
    have h' : x % 10 = y % 10 := by simpa [mod10] using h
    show (x % 10).toUInt64 = (y % 10).toUInt64
    rw [h']
  swap x y := by
    show compare (y % 10) (x % 10) = (compare (x % 10) (y % 10)).swap
    rw [Nat.compare_swap]
  cmpEq x y := by
    show compare (x % 10) (y % 10) = .eq ↔ (x % 10 == y % 10) = true
    rw [Nat.compare_eq_eq, beq_iff_eq]

/-- Fields compared as they are. -/
def asIs : Native Nat where
  fieldsEq x y := x == y
  fieldsHash x := Int.ofNat x
  text _ := "a record"

theorem asIs_sensible : Sensible asIs := fun x y h => by simpa [asIs] using h

def all : Traits := ⟨true, true, true, true, true⟩

def three : Val Nat := ⟨0, 0, true, 3⟩
def thirteen : Val Nat := ⟨1, 0, true, 13⟩

theorem together : Together three thirteen where
  one h := absurd h (by decide)
  variants _ := rfl

-- Three equals thirteen in every language, and so do their hash codes.
example (l : Lang) : opEq l .object all false mod10 asIs three (.same thirteen) = .val true :=
  C82_eq_partial l .object all false mod10 asIs three thirteen rfl (by cases l <;> rfl)
    (fun _ h => by cases h) (fun _ => rfl)

example : opHash .kotlin (.record true) all false mod10 asIs three
    = opHash .kotlin (.record true) all false mod10 asIs thirteen :=
  C82_keys_partial .kotlin (.record true) all false mod10 asIs three thirteen mod10_lawful
    asIs_sensible together rfl (Or.inr (Or.inr rfl)) (fun h => by cases h) rfl

example : opRel .swift .dataEnum all false mod10 .ge three thirteen = .val true := by
  rw [C82_order .swift .dataEnum all false mod10 .ge three thirteen mod10_lawful rfl rfl]; rfl

example : opNe .python .object all false mod10 asIs three (.same thirteen) = .val false :=
  C82_ne_partial .python .object all false mod10 asIs three thirteen mod10_lawful rfl rfl
    (fun h => by cases h) (fun h => by cases h)

example : hashOf .kotlin 0xFFFFFFFFFFFFFFFF = -1 := by decide

/-! ## What does not hold -/

/-- A record that exports `Eq` but not `Hash`: in Kotlin two values are equal and have different hash
codes, so one does not find the other in a map. -/
theorem C82_kotlin_eq_without_hash_broken :
    opKeyEq .kotlin (.record true) ⟨false, false, true, false, false⟩ false mod10 asIs three thirteen
        = .val true ∧
    opHash .kotlin (.record true) ⟨false, false, true, false, false⟩ false mod10 asIs three
      ≠ opHash .kotlin (.record true) ⟨false, false, true, false, false⟩ false mod10 asIs thirteen := by
  decide

/-- The same for an object in Kotlin: equality is Rust's and the hash code is the identity. -/
theorem C82_kotlin_object_eq_without_hash_broken :
    opKeyEq .kotlin .object ⟨false, false, true, false, false⟩ false mod10 asIs three thirteen
        = .val true ∧
    opHash .kotlin .object ⟨false, false, true, false, false⟩ false mod10 asIs three
      ≠ opHash .kotlin .object ⟨false, false, true, false, false⟩ false mod10 asIs thirteen := by
  decide

/-- The same in Swift, where `Hashable` is always declared for a record without objects. -/
theorem C82_swift_eq_without_hash_broken :
    builds .swift (.record true) ⟨false, false, true, false, false⟩ false = true ∧
    opKeyEq .swift (.record true) ⟨false, false, true, false, false⟩ false mod10 asIs three thirteen
        = .val true ∧
    opHash .swift (.record true) ⟨false, false, true, false, false⟩ false mod10 asIs three
      ≠ opHash .swift (.record true) ⟨false, false, true, false, false⟩ false mod10 asIs thirteen := by
  decide

/-- In the JNI bindings a variant with fields ignores every exported `Eq`, `Hash` and `Display`: the
`data class` has its own members and they win over those of the sealed class. -/
theorem C82_jni_variant_broken :
    mod10.eq 3 13 = true ∧
    opEq .kotlinJni .dataEnum all false mod10 asIs three (.same thirteen) = .val false ∧
    opText .kotlinJni .dataEnum all false mod10 asIs three = "a record" ∧
    opText .kotlin .dataEnum all false mod10 asIs three = "3" := by
  decide

/-- In the JNI bindings equality of an enum is not symmetric: a variant without fields asks Rust, one
with fields compares fields. -/
theorem C82_jni_symmetry_broken :
    let plain : Val Nat := ⟨0, 0, false, 3⟩
    let withFields : Val Nat := ⟨1, 1, true, 13⟩
    opEq .kotlinJni .dataEnum all false mod10 asIs plain (.same withFields) = .val true ∧
    opEq .kotlinJni .dataEnum all false mod10 asIs withFields (.same plain) = .val false := by
  decide

/-- In Ruby two values of different variants are different whatever Rust says, because the check is for
the class of the variant. -/
theorem C82_ruby_variants_broken :
    let other : Val Nat := ⟨1, 1, true, 13⟩
    mod10.eq 3 13 = true ∧
    opEq .ruby .dataEnum all false mod10 asIs three (.same other) = .val false ∧
    opEq .python .dataEnum all false mod10 asIs three (.same other) = .val true := by
  decide

/-- Traits that are exported and not used, with no message: the text of flat enums in Python, Ruby and
the JNI bindings, of errors in Python and Ruby, and of records without fields in Kotlin. -/
theorem C82_dropped_broken :
    opText .python .flatEnum all false mod10 asIs three ≠ mod10.display 3 ∧
    opText .ruby .flatEnum all false mod10 asIs three ≠ mod10.display 3 ∧
    opText .kotlinJni .flatEnum all false mod10 asIs three ≠ mod10.display 3 ∧
    opText .python .dataError all false mod10 asIs three ≠ mod10.display 3 ∧
    opText .ruby .dataError all false mod10 asIs three ≠ mod10.display 3 ∧
    opText .kotlin (.record false) all false mod10 asIs three ≠ mod10.display 3 ∧
    opText .kotlinJni (.record false) all false mod10 asIs three ≠ mod10.display 3 ∧
    opEq .python .dataError all false mod10 asIs three (.same thirteen) = .val false := by
  decide

/-- A Swift error has `description` and `debugDescription`, and is not declared to follow the protocols
that would make Swift use them. -/
theorem C82_swift_error_text_broken :
    builds .swift .dataError all false = true ∧
    opText .swift .dataError all false mod10 asIs three ≠ mod10.display 3 ∧
    opDebug .swift .dataError all false mod10 asIs three ≠ .val (mod10.debug 3) := by
  decide

/-- Bindings that do not compile, or do not come out: in Swift an object that exports `Hash` or `Ord`
without `Eq`, in Kotlin an object used as an error or a flat error that exports `Ord`, and in Kotlin a
flat enum that exports `Eq`. -/
theorem C82_builds_broken :
    builds .swift .object ⟨false, false, false, true, false⟩ false = false ∧
    builds .swift .object ⟨false, false, false, false, true⟩ false = false ∧
    builds .swift (.record true) ⟨false, false, false, true, false⟩ true = false ∧
    builds .kotlin .errorObject ⟨false, false, false, false, true⟩ false = false ∧
    builds .kotlin .flatError ⟨false, false, false, false, true⟩ false = false ∧
    builds .kotlin .flatEnum ⟨false, false, true, false, false⟩ false = false := by
  decide

/-- A record that exports nothing, compared with a value of another type: Python and Ruby raise, and when
the record has no fields they say that the two are equal. -/
theorem C82_other_type_broken :
    let none : Traits := ⟨false, false, false, false, false⟩
    opEq .python (.record true) none false mod10 asIs three .other = .raises ∧
    opEq .ruby (.record true) none false mod10 asIs three .other = .raises ∧
    opEq .python (.record false) none false mod10 asIs three .other = .val true ∧
    opEq .ruby (.record false) none false mod10 asIs three .other = .val true ∧
    opEq .kotlin (.record true) none false mod10 asIs three .other = .val false := by
  decide

end Verif.Props.TraitOps
