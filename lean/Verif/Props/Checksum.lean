import Verif.Checksum.Lemmas
import Verif.Checksum.ItemLemmas
/-
C42: two interface descriptions that differ in anything but documentation and derived fields feed
different bytes to the checksum.
-/
namespace Verif.Props.Checksum
open Verif Verif.Checksum Verif.Checksum.Item
open Verif.Meta (MTy Impl TraitKind)

variable {ν : Type}

/-- C42: for every family of types that derive `Checksum`, two values of one type feed the same
bytes to the hasher only if they agree in everything that is not `#[checksum_ignore]`. -/
theorem C42_injective (env : ν → Decl ν) (he : Distinct env) (t : Ty ν) (v w : V)
    (hv : Typed env t v) (hw : Typed env t w) (h : enc env t v = enc env t w) :
    visible env t v = visible env t w :=
  (enc_inj he t v w [] [] hv hw (by rw [h])).1

/-- C42: what follows a value cannot run into it: no value's bytes are a proper prefix of another's. -/
theorem C42_prefix_free (env : ν → Decl ν) (he : Distinct env) (t : Ty ν) (v w : V) (more : Bytes)
    (hv : Typed env t v) (hw : Typed env t w) (h : enc env t w = enc env t v ++ more) : more = [] :=
  (enc_inj he t v w more [] hv hw (by rw [h, List.append_nil])).2

/-- C42: fields marked `#[checksum_ignore]` have no influence. -/
theorem C42_ignored (env : ν → Decl ν) (t : Ty ν) (v w : V)
    (h : visible env t v = visible env t w) : enc env t v = enc env t w := by
  rw [← enc_visible, h, enc_visible]

/-- The declared discriminants of the interface types are distinct. -/
theorem C42_interface_distinct : Distinct interface := by
  intro n vs h
  cases n <;> simp only [interface, Decl.enum.injEq, reduceCtorEq] at h <;> subst h <;>
    decide +kernel

/-- C42 for the interface of a component: functions, methods, constructors, objects, records, enums,
callback interfaces, custom types and everything in them. -/
theorem C42_interface (n : Name) (v w : V) (hv : Typed interface (.named n) v)
    (hw : Typed interface (.named n) w) :
    enc interface (.named n) v = enc interface (.named n) w ↔
      visible interface (.named n) v = visible interface (.named n) w :=
  ⟨C42_injective _ C42_interface_distinct _ _ _ hv hw, C42_ignored _ _ _ _⟩

/-! ### Types -/

/-- C42: two interface types, nested to any depth, feed the same bytes only if they are equal. -/
theorem C42_types (t u : MTy)
    (h : enc interface (.named .type) (ofType t) = enc interface (.named .type) (ofType u)) :
    t = u := by
  have := C42_injective _ C42_interface_distinct _ _ _ (type_ok t).1 (type_ok u).1 h
  rw [(type_ok t).2, (type_ok u).2] at this
  exact ofType_inj this

/-! ### Items, field by field. `Verif.Checksum.Items` lists what an item consists of. -/

/-- C42 for functions: name, module, async, arguments (name, type, way of passing, default), return type, error type:
two descriptions feed the same bytes exactly when they describe the same item. -/
theorem C42_functions (f g : Fn) (v w : V) (hv : isFn f v) (hw : isFn g w) :
    enc interface (.named .function) v = enc interface (.named .function) w ↔ f = g :=
  faithful_fn.iff C42_interface_distinct hv hw

/-- C42 for methods:
two descriptions feed the same bytes exactly when they describe the same item. -/
theorem C42_methods (f g : Meth) (v w : V) (hv : isMeth f v) (hw : isMeth g w) :
    enc interface (.named .method) v = enc interface (.named .method) w ↔ f = g :=
  faithful_meth.iff C42_interface_distinct hv hw

/-- C42 for constructors:
two descriptions feed the same bytes exactly when they describe the same item. -/
theorem C42_constructors (f g : Ctor) (v w : V) (hv : isCtor f v) (hw : isCtor g w) :
    enc interface (.named .constructor) v = enc interface (.named .constructor) w ↔ f = g :=
  faithful_ctor.iff C42_interface_distinct hv hw

/-- C42 for records with their fields, defaults, constructors and methods:
two descriptions feed the same bytes exactly when they describe the same item. -/
theorem C42_records (f g : Rec) (v w : V) (hv : isRec f v) (hw : isRec g w) :
    enc interface (.named .record) v = enc interface (.named .record) w ↔ f = g :=
  faithful_rec.iff C42_interface_distinct hv hw

/-- C42 for enums and errors with their variants, discriminants and fields:
two descriptions feed the same bytes exactly when they describe the same item. -/
theorem C42_enums (f g : Enum) (v w : V) (hv : isEnum f v) (hw : isEnum g w) :
    enc interface (.named .enum) v = enc interface (.named .enum) w ↔ f = g :=
  faithful_enum.iff C42_interface_distinct hv hw

/-- C42 for objects with their constructors, methods and traits:
two descriptions feed the same bytes exactly when they describe the same item. -/
theorem C42_objects (f g : Obj) (v w : V) (hv : isObj f v) (hw : isObj g w) :
    enc interface (.named .object) v = enc interface (.named .object) w ↔ f = g :=
  faithful_obj.iff C42_interface_distinct hv hw

/-- C42 for callback interfaces with their methods:
two descriptions feed the same bytes exactly when they describe the same item. -/
theorem C42_callbacks (f g : Callback) (v w : V) (hv : isCallback f v) (hw : isCallback g w) :
    enc interface (.named .callbackInterface) v = enc interface (.named .callbackInterface) w ↔ f = g :=
  faithful_callback.iff C42_interface_distinct hv hw

/-- C42 for custom types:
two descriptions feed the same bytes exactly when they describe the same item. -/
theorem C42_customs (f g : Custom) (v w : V) (hv : isCustom f v) (hw : isCustom g w) :
    enc interface (.named .customType) v = enc interface (.named .customType) w ↔ f = g :=
  faithful_custom.iff C42_interface_distinct hv hw

/-- `fn add(a: u32 = n) -> Vec<T>` as an item. -/
def sampleItem (n : Nat) (err : Option MTy) : Fn :=
  { name := "add", modulePath := "m", isAsync := false
    args := [{ name := "a", ty := .uint32, passBy := .value, optional := true,
               default := some (.literal (.uint n .decimal .uint32)) }]
    ret := some (.sequence (.record "m" "T")), throws := err, checksumFn := "checksum_add" }

/-- Every item has a value; with any documentation. -/
example (n : Nat) (hn : n < 2 ^ 64) (doc : V) : isFn (sampleItem n (some (.enum "m" "E")))
    (.struct [.str "add", .str "m", .bool false,
      .seq [.struct [.str "a", ofType .uint32, .variant 0 [], .bool true,
        .optSome (.variant 1 [.variant 2 [.u64 n, .variant 0 [], ofType .uint32]])]],
      .optSome (ofType (.sequence (.record "m" "T"))), .struct [], doc,
      .optSome (ofType (.enum "m" "E")), .str "checksum_add", .struct []]) := by
  refine ⟨_, _, _, _, _, _, ⟨_, rfl, by simp, _, _, rfl, ⟨_, ⟨_, rfl, rfl, hn⟩, rfl⟩, rfl⟩,
    ⟨_, rfl, rfl⟩, ⟨_, rfl, rfl⟩, rfl⟩

example : sampleItem 1 none ≠ sampleItem 2 none ∧ sampleItem 1 none ≠ sampleItem 1 (some .string) := by
  simp [sampleItem]

/-! ### Examples -/

/-- `fn add(a: u32 = 1) -> Vec<T>` with documentation `doc`. -/
def sampleFn (doc : Option String) (arg : String) : V :=
  .struct [.str "add", .str "m", .bool false,
    .seq [.struct [.str arg, ofType .uint32, .variant 0 [], .bool false,
      .optSome (.variant 1 [.variant 2 [.u64 1, .variant 0 [], ofType .uint32]])]],
    .optSome (ofType (.sequence (.record "m" "T"))), .struct [],
    (match doc with
      | none => .optNone
      | some d => .optSome (.str d)),
    .optNone, .str "checksum_add", .struct []]

/-- A function is a value of its type, so C42 applies to it. -/
theorem sample_typed (doc : Option String) (arg : String) :
    Typed interface (.named .function) (sampleFn doc arg) := by
  have h1 := type_ok .uint32
  have h2 := type_ok (.sequence (.record "m" "T"))
  simp [Typed, interface, sampleFn, use, skip, unit, tuple, Flds.hashed, TypedFields, TypedSeq,
    h1.1, h2.1]

/-- Functions that differ in the name of an argument feed different bytes. -/
example : enc interface (.named .function) (sampleFn none "a") ≠
    enc interface (.named .function) (sampleFn none "b") := by
  intro h
  have := (C42_interface _ _ _ (sample_typed _ _) (sample_typed _ _)).mp h
  simp [visible, interface, sampleFn, use, skip, visibleFields, visibleSeq] at this

/-- Functions that differ in documentation only feed the same bytes. -/
example : enc interface (.named .function) (sampleFn none "a") =
    enc interface (.named .function) (sampleFn (some "text") "a") :=
  (C42_interface _ _ _ (sample_typed _ _) (sample_typed _ _)).mpr
    (by simp [visible, interface, sampleFn, use, skip, visibleFields])

/-- C42: two methods of different objects may feed the same bytes: the object is ignored. -/
theorem C42_methods_of_different_objects :
    ∃ v w, v ≠ w ∧ enc interface (.named .method) v = enc interface (.named .method) w :=
  ⟨.struct [.str "get", .bool false, ofType (.object "m" "A" .struct)],
   .struct [.str "get", .bool false, ofType (.object "m" "B" .struct)],
   by simp [ofType], by simp [enc, interface, encFields, use, skip]⟩

end Verif.Props.Checksum
