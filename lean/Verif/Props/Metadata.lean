import Verif.Meta.Locality
/-
C37-C41: interface metadata. What the macros export for an item is what the generators read back,
whatever follows it in the library, and the checksum compiled into the library is the one the
generators compute.
-/
namespace Verif.Props.Metadata
open Verif Verif.Meta
open Verif.Wire (utf8)

/-- An exported function used in the examples:
`pub fn greet(name: String, times: u8 = 2) -> Result<Vec<u8>, my::Oops>`. -/
def greet : FnSrc :=
  { kind := .function, modulePath := "my", name := "greet", origName := some "greet_impl",
    isAsync := true,
    args := [
      { name := "name", ty := .string, passBy := .ref, default := none },
      { name := "times", ty := .u8, passBy := .value, default := some (.int 2 false) }],
    ret := .result (some (.vec .u8)) (some (.enum "my" "Oops")), docstring := "Says hello" }

/-- A record with a recursive field, an enum with discriminants, a built-in trait. -/
def node : Item :=
  .record "my" "Node" none
    [{ name := "next", origName := none, ty := .option (.box (.record "my" "Node")),
       default := some .optNone, docstring := "" },
     { name := "tags", origName := some "labels", ty := .hashMap .string (.vec .i64),
       default := some .default, docstring := "The tags" }] "A node"

/-- An enum. -/
def color : Item :=
  .enum "my" "Color" none (some .u8)
    [{ name := "Red", origName := none, discr := some 3, fields := [], docstring := "" },
     { name := "Green", origName := none, discr := none, fields := [], docstring := "like grass" }]
    false ""

/-- A record whose default does not fit the type of its field. -/
def badDefault : Item :=
  .record "my" "Bad" none
    [{ name := "x", origName := none, ty := .u8, default := some (.int 300 false), docstring := "" }]
    ""

/-! ### C37 -/

/-- C37: a chain of `concat…` calls compiles iff every short string fits its one-byte length and the
whole fits the buffer of 32768 bytes, and then exports exactly the concatenation of the documented
encodings: no length is ever cut off and nothing follows. -/
theorem C37_exact (ops : List Op) (bs : Bytes) :
    emit ops = some bs ↔ ShortAll ops ∧ (bytesAll ops).length ≤ 32768 ∧ bs = bytesAll ops :=
  emit_eq ops bs

/-- C37: a long string that compiles carries its true length in the two bytes before it. -/
theorem C37_long_length (s : String) (bs : Bytes) (h : emit [.longStr s] = some bs) :
    ∃ a b body, bs = a :: b :: body ∧ body = utf8 s ∧ a.toNat + 256 * b.toNat = (utf8 s).length := by
  obtain ⟨-, h2, rfl⟩ := (C37_exact _ _).mp h
  simp only [bytesAll, Op.bytes, List.append_nil] at h2 ⊢
  have h3 : (utf8 s).length < 256 ^ 2 := by simp at h2; omega
  generalize utf8 s = body at *
  have e := leNat_leBytes_of_lt h3
  match hb : leBytes 2 body.length with
  | [a, b] => 
    rw [hb] at e
    exact ⟨a, b, body, rfl, rfl, by simpa [leNat] using e⟩
  | [] => have := length_leBytes 2 body.length; simp [hb] at this
  | [_] => have := length_leBytes 2 body.length; simp [hb] at this
  | _ :: _ :: _ :: _ => have := length_leBytes 2 body.length; simp [hb] at this

/-- A chain that compiles. -/
example : emit [.value 3, .str "ab", .longStr "c", .u32 258, .bool true, .buf [.value 9]] =
    some [3, 2, 97, 98, 1, 0, 99, 2, 1, 0, 0, 1, 9] :=
  (C37_exact _ _).mpr (by decide +kernel)

/-- A chain that does not. -/
example : emit [.str (String.ofList (List.replicate 256 'a'))] = none := by
  cases h : emit [.str (String.ofList (List.replicate 256 'a'))] with
  | none => rfl
  | some bs =>
    obtain ⟨⟨h1, -⟩, -⟩ := (C37_exact _ _).mp h
    exact absurd h1 (by decide +kernel)

/-! ### C38 -/

private theorem bytes_of_emit {ops : List Op} {bs : Bytes} (h : emit ops = some bs) :
    OkAll ops ∧ bs = bytesAll ops := emit_ok h

/-- C38: for every type that can be exported, nested to any depth, the type the generator reads is
the type that was exported, whatever follows the bytes. -/
theorem C38_type_round_trip (t : RTy) (bs rest : Bytes) (h : emit t.typeId = some bs) :
    readMetadataType (bs ++ rest) = .ok t.toMeta := by
  obtain ⟨ok, rfl⟩ := bytes_of_emit h
  simp only [readMetadataType, Rd.runOn]
  have := Reads.type [] t ok rest
  simp only [List.nil_append] at this
  rw [this]

/-- C38: two types with the same exported bytes are the same type for the generator. -/
theorem C38_type_injective (t u : RTy) (bs : Bytes) (ht : emit t.typeId = some bs)
    (hu : emit u.typeId = some bs) : t.toMeta = u.toMeta := by
  have h1 := C38_type_round_trip t bs [] ht
  rw [C38_type_round_trip u bs [] hu] at h1
  exact (Res.ok.inj h1).symm

/-- C38: among types without `Vec<u8>` and byte slices, different Rust types are different types
for the generator. -/
def NoBytes : RTy → Prop
  | .byteSlice => False
  | .vec t => t ≠ .u8 ∧ NoBytes t
  | .custom _ _ t | .option t | .box t | .hashSet t => NoBytes t
  | .hashMap k v => NoBytes k ∧ NoBytes v
  | _ => True

theorem toMeta_vec {t : RTy} (h : t ≠ .u8) : (RTy.vec t).toMeta = .sequence t.toMeta := by
  cases t <;> first | rfl | exact absurd rfl h

theorem C38_types_kept_apart (t u : RTy) (ht : NoBytes t) (hu : NoBytes u)
    (h : t.toMeta = u.toMeta) : t = u := by
  induction t generalizing u with
  | vec t ih =>
    rw [toMeta_vec ht.1] at h
    cases u with
    | vec u =>
      rw [toMeta_vec hu.1] at h
      rw [ih u ht.2 hu.2 (MTy.sequence.inj h)]
    | _ => simp [RTy.toMeta] at h hu
  | hashMap k v ihk ihv =>
    cases u with
    | hashMap k' v' =>
      simp only [RTy.toMeta, MTy.map.injEq] at h
      rw [ihk k' ht.1 hu.1 h.1, ihv v' ht.2 hu.2 h.2]
    | vec u => rw [toMeta_vec hu.1] at h; simp [RTy.toMeta] at h
    | _ => simp [RTy.toMeta] at h
  | custom m n t ih =>
    cases u with
    | custom m' n' u =>
      simp only [RTy.toMeta, MTy.custom.injEq] at h
      rw [h.1, h.2.1, ih u ht hu h.2.2]
    | vec u => rw [toMeta_vec hu.1] at h; simp [RTy.toMeta] at h
    | _ => simp [RTy.toMeta] at h
  | option t ih =>
    cases u with
    | option u => rw [ih u ht hu (by simpa [RTy.toMeta] using h)]
    | vec u => rw [toMeta_vec hu.1] at h; simp [RTy.toMeta] at h
    | _ => simp [RTy.toMeta] at h
  | box t ih =>
    cases u with
    | box u => rw [ih u ht hu (by simpa [RTy.toMeta] using h)]
    | vec u => rw [toMeta_vec hu.1] at h; simp [RTy.toMeta] at h
    | _ => simp [RTy.toMeta] at h
  | hashSet t ih =>
    cases u with
    | hashSet u => rw [ih u ht hu (by simpa [RTy.toMeta] using h)]
    | vec u => rw [toMeta_vec hu.1] at h; simp [RTy.toMeta] at h
    | _ => simp [RTy.toMeta] at h
  | _ =>
    cases u with
    | vec u => rw [toMeta_vec hu.1] at h; simp [RTy.toMeta] at h
    | _ => simp_all [RTy.toMeta, NoBytes]

/-- A nested type. -/
example : emit (RTy.hashMap .string (.option (.vec (.record "a" "B")))).typeId =
    some [18, 11, 12, 17, 13, 1, 97, 1, 66] :=
  (C37_exact _ _).mpr (by decide +kernel)

example : NoBytes (RTy.hashMap .string (.option (.vec (.record "a" "B")))) := by
  simp [NoBytes]

/-! ### C39 -/

/-- C39: for every item the macros export, the generator reads back the item as it was declared
(`Item.meaning`), with every name, type, argument, default, flag and documentation comment in place
and the documented checksum of the exported bytes; an item it does not accept is reported as an
error. It never panics, whatever follows the item in the library. -/
theorem C39_item_round_trip (i : Item) (bs : Bytes) (h : i.emit = some bs) :
    ∃ c1 c2, ∀ rest, readMetadata (bs ++ rest) =
      match i.meaning (fnv16 bs) c1 c2 with
      | some m => .ok m
      | none => .err := by
  unfold Item.emit at h
  cases hc : i.calls with
  | none => simp [hc] at h
  | some ops =>
    simp only [hc, Option.bind_some] at h
    obtain ⟨ok, rfl⟩ := bytes_of_emit h
    obtain ⟨c1, c2, out⟩ := item_out i hc
    refine ⟨c1, c2, fun rest => ?_⟩
    have := out ok rest
    have ec : cks (bytesAll ops) = fnv16 (bytesAll ops) := by
      rw [cks, calcChecksum_eq, List.take_length]
    rw [ec] at this
    simp only [List.nil_append] at this
    simp only [readMetadata, Rd.runOn, this]
    cases i.meaning (fnv16 (bytesAll ops)) c1 c2 <;> rfl

theorem emits {i : Item} {bs : Bytes}
    (h : (i.calls.elim false fun ops => decide
      (ShortAll ops ∧ (bytesAll ops).length ≤ 32768 ∧ bs = bytesAll ops)) = true) :
    i.emit = some bs := by
  cases hc : i.calls with
  | none => simp [hc] at h
  | some ops =>
    simp only [hc, Option.elim_some, decide_eq_true_eq] at h
    simp only [Item.emit, hc, Option.bind_some]
    exact (C37_exact _ _).mpr h

/-- The bytes of `greet`. -/
def greetBytes : Bytes :=
  [0, 2, 109, 121, 5, 103, 114, 101, 101, 116, 1, 10, 103, 114, 101, 101, 116, 95, 105, 109, 112, 108,
   1, 2, 4, 110, 97, 109, 101, 11, 1, 0, 0, 5, 116, 105, 109, 101, 115, 0, 0, 0, 1, 1, 1, 1, 50, 23,
   17, 0, 14, 2, 109, 121, 4, 79, 111, 112, 115, 10, 0, 83, 97, 121, 115, 32, 104, 101, 108, 108, 111]

theorem greet_emits : (Item.fn greet).emit = some greetBytes := emits (by decide +kernel)

example : ∃ bs, node.emit = some bs :=
  ⟨[2, 2, 109, 121, 4, 78, 111, 100, 101, 0, 2, 4, 110, 101, 120, 116, 0, 12, 26, 13, 2, 109, 121, 4,
    78, 111, 100, 101, 1, 1, 4, 0, 0, 4, 116, 97, 103, 115, 1, 6, 108, 97, 98, 101, 108, 115, 18, 11,
    17, 7, 1, 0, 8, 0, 84, 104, 101, 32, 116, 97, 103, 115, 6, 0, 65, 32, 110, 111, 100, 101],
   emits (by decide +kernel)⟩

example : ∃ bs, color.emit = some bs :=
  ⟨[3, 2, 109, 121, 5, 67, 111, 108, 111, 114, 0, 0, 1, 0, 2, 3, 82, 101, 100, 0, 1, 1, 1, 51, 0, 0,
    0, 5, 71, 114, 101, 101, 110, 0, 0, 0, 10, 0, 108, 105, 107, 101, 32, 103, 114, 97, 115, 115, 0,
    0, 0], emits (by decide +kernel)⟩

/-- What is read back for `greet`. -/
example (c c1 c2 : UInt16) : (Item.fn greet).meaning c c1 c2 = some (.func
    { modulePath := "my", name := "greet", origName := some "greet_impl", isAsync := true,
      inputs := [
        { name := "name", ty := .string, passBy := .ref, optional := false, default := none },
        { name := "times", ty := .uint8, passBy := .value, optional := false,
          default := some (.literal (.uint 2 .decimal .uint8)) }],
      returnType := some .bytes, throws := some (.enum "my" "Oops"), checksum := some c,
      docstring := some "Says hello" }) := by
  rfl

/-- An item that compiles and is rejected by the generator. -/
example : ∃ bs, badDefault.emit = some bs ∧ ∀ c c1 c2, badDefault.meaning c c1 c2 = none :=
  ⟨[2, 2, 109, 121, 3, 66, 97, 100, 0, 1, 1, 120, 0, 0, 1, 1, 1, 3, 51, 48, 48, 0, 0, 0, 0],
   emits (by decide +kernel), fun _ _ _ => rfl⟩

/-- C39: an item is found wherever it lies in the library: the generator is given the rest of the
file from its offset on. -/
theorem C39_any_offset (i : Item) (bs pre post : Bytes) (m : Metadata) (h : i.emit = some bs)
    (hm : readMetadata bs = .ok m) :
    readMetadata ((pre ++ bs ++ post).drop pre.length) = .ok m := by
  obtain ⟨c1, c2, e⟩ := C39_item_round_trip i bs h
  have e0 := e []
  rw [List.append_nil, hm] at e0
  rw [List.append_assoc, List.drop_left, e post, ← e0]

/-- C39: two items with the same exported bytes are the same item for the generator. -/
theorem C39_injective (i j : Item) (bs : Bytes) (hi : i.emit = some bs) (hj : j.emit = some bs) :
    ∃ c1 c2 d1 d2, i.meaning (fnv16 bs) c1 c2 = j.meaning (fnv16 bs) d1 d2 := by
  obtain ⟨c1, c2, ei⟩ := C39_item_round_trip i bs hi
  obtain ⟨d1, d2, ej⟩ := C39_item_round_trip j bs hj
  refine ⟨c1, c2, d1, d2, ?_⟩
  have e := (ei []).symm.trans (ej [])
  cases hx : i.meaning (fnv16 bs) c1 c2 <;> cases hy : j.meaning (fnv16 bs) d1 d2 <;>
    simp_all

/-! ### C40 -/

/-- C40: an item that was read from `data` consists of a prefix of `data`, and is read just the same
with anything appended. -/
theorem C40_trailing_data (data more : Bytes) (m : Metadata) (h : readMetadata data = .ok m) :
    readMetadata (data ++ more) = .ok m := by
  unfold readMetadata Rd.runOn at h ⊢
  split at h
  · rename_i a r e
    obtain ⟨-, h2⟩ := Ext2.metadata data data a r e
    rw [h2 more]
    exact h
  · cases h
  · cases h

/-- C40: no proper prefix of an exported item is taken for a complete item. -/
theorem C40_no_prefix (i : Item) (bs pre more : Bytes) (h : i.emit = some bs)
    (hp : bs = pre ++ more) (hm : more ≠ []) (m : Metadata) : readMetadata pre ≠ .ok m := by
  intro hr
  unfold Item.emit at h
  cases hc : i.calls with
  | none => simp [hc] at h
  | some ops =>
    simp only [hc, Option.bind_some] at h
    obtain ⟨ok, e⟩ := bytes_of_emit h
    obtain ⟨c1, c2, out⟩ := item_out i hc
    have o := out ok []
    simp only [List.append_nil, List.nil_append, ← e] at o
    unfold readMetadata Rd.runOn at hr
    split at hr
    · rename_i a r er
      obtain ⟨-, h2⟩ := Ext2.metadata pre pre a r er
      have h3 := h2 more
      rw [← hp, o] at h3
      cases hx : i.meaning (cks bs) c1 c2 with
      | none => simp [hx] at h3
      | some m' =>
        simp only [hx, Res.ok.injEq, Prod.mk.injEq] at h3
        exact hm (List.append_eq_nil_iff.mp h3.2.symm).2
    · cases hr
    · cases hr

/-- C40: a shorter export is never confused with a longer one that starts with the same bytes. -/
theorem C40_prefix_free (i j : Item) (bs more : Bytes) (m : Metadata) (_ : i.emit = some bs)
    (hj : j.emit = some (bs ++ more)) (hm : readMetadata bs = .ok m) : more = [] := by
  cases more with
  | nil => rfl
  | cons x xs => exact absurd hm (C40_no_prefix j _ bs (x :: xs) hj rfl (by simp) m)

example : greetBytes = greetBytes.take 20 ++ greetBytes.drop 20 ∧ greetBytes.drop 20 ≠ [] := by
  decide +kernel

/-- C40: what is missing is noticed, but not always with an error: the reader panics when a string is
cut off. -/
theorem C40_truncation_panics : readMetadata (greetBytes.take 3) = .panic := by
  rfl

/-! ### C41 -/

/-- The checksum the generator compiles into the bindings for a callable. -/
def bindingsChecksum : Metadata → Option UInt16
  | .func f => f.checksum
  | .method m => m.fn.checksum
  | .traitMethod _ _ f => f.checksum
  | .constructor c => c.checksum
  | _ => none

/-- C41: both routines, the one of the library and the one of the generator, compute the documented
checksum of the bytes. -/
theorem C41_same_function (bs : Bytes) :
    calcChecksum bs bs.length = fnv16 bs ∧ Rd.checksumMetadata bs = fnv16 bs := by
  have h : calcChecksum bs bs.length = fnv16 bs := by rw [calcChecksum_eq, List.take_length]
  exact ⟨h, h ▸ rfl⟩

/-- C41: every callable that is exported has a checksum function, and it returns the documented
checksum of the exported bytes. -/
theorem C41_library_checksum (f : FnSrc) (bs : Bytes) (h : (Item.fn f).emit = some bs) :
    (Item.fn f).scaffoldingChecksum = some (fnv16 bs) := by
  unfold Item.emit at h
  simp only [Item.scaffoldingChecksum, Item.calls] at h ⊢
  cases hc : f.calls with
  | none => simp [hc] at h
  | some ops =>
    simp only [hc, Option.bind_some] at h ⊢
    obtain ⟨-, e⟩ := bytes_of_emit h
    unfold emit at h
    unfold emitChecksum
    cases hr : runAll Buf.new ops with
    | none => simp [hr] at h
    | some b =>
      obtain ⟨-, -, h3⟩ := runAll_new_holds hr
      rw [Option.map_some, Buf.checksum, calcChecksum_eq, h3, e]

private theorem meaning_checksum {f : FnSrc} {c c1 c2 : UInt16} {m : Metadata}
    (h : (Item.fn f).meaning c c1 c2 = some m) : bindingsChecksum m = some c := by
  unfold Item.meaning at h
  cases hk : f.kind with
  | constructor s =>
    simp only [hk] at h
    split at h
    · obtain ⟨x, hx, rfl⟩ := Option.map_eq_some_iff.mp h
      obtain ⟨y, hy, rfl⟩ := Option.map_eq_some_iff.mp hx
      rfl
    · cases h
  | _ =>
    simp only [hk] at h
    obtain ⟨x, hx, rfl⟩ := Option.map_eq_some_iff.mp h
    obtain ⟨y, hy, rfl⟩ := Option.map_eq_some_iff.mp hx
    rfl

/-- C41: for every exported function, method, constructor and trait method, the value returned by
the checksum function of the library is the checksum the generator finds in the metadata. -/
theorem C41_checksum_agrees (f : FnSrc) (bs rest : Bytes) (m : Metadata)
    (h : (Item.fn f).emit = some bs) (hm : readMetadata (bs ++ rest) = .ok m) :
    ∃ c, (Item.fn f).scaffoldingChecksum = some c ∧ bindingsChecksum m = some c := by
  obtain ⟨c1, c2, e⟩ := C39_item_round_trip _ bs h
  refine ⟨fnv16 bs, C41_library_checksum f bs h, ?_⟩
  rw [e rest] at hm
  split at hm
  · rename_i m' hm'
    cases hm
    exact meaning_checksum hm'
  · cases hm

example : (Item.fn greet).scaffoldingChecksum = some 21773 := by
  rw [C41_library_checksum _ _ greet_emits]; decide +kernel

/-- The check in the Kotlin bindings, `(lib.f() and 0xFFFF) != expected`:
kotlin/templates/NamespaceLibraryTemplate.kt:128. The native function returns 16 bits in a 32-bit
carrier, the upper half of which may contain anything. -/
def kotlinAccepts (carrier : UInt32) (expected : UInt16) : Bool :=
  carrier &&& 0xFFFF == expected.toUInt32

/-- C41: the Kotlin check accepts a library iff its 16-bit checksum is the expected one, whatever the
upper half of the carrier contains. -/
theorem C41_kotlin_check (upper actual expected : UInt16) :
    kotlinAccepts (upper.toUInt32 <<< 16 ||| actual.toUInt32) expected = true ↔ actual = expected := by
  have e : (upper.toUInt32 <<< 16 ||| actual.toUInt32) &&& 0xFFFF = actual.toUInt32 := by
    apply UInt32.toNat_inj.mp
    have h1 : (0xFFFF : UInt32).toNat = 2 ^ 16 - 1 := rfl
    have h2 := actual.toNat_lt
    rw [UInt32.toNat_and, h1, Nat.and_two_pow_sub_one_eq_mod, UInt32.toNat_or, Nat.or_mod_two_pow,
      UInt32.toNat_shiftLeft, UInt16.toNat_toUInt32, UInt16.toNat_toUInt32, Nat.shiftLeft_eq]
    have h3 : upper.toNat * 2 ^ ((16 : UInt32).toNat % 32) % 2 ^ 32 % 2 ^ 16 = 0 := by
      have : (16 : UInt32).toNat % 32 = 16 := rfl
      rw [this]
      omega
    rw [h3, Nat.zero_or, Nat.mod_eq_of_lt h2]
  simp only [kotlinAccepts, beq_iff_eq, e]
  constructor
  · intro h
    have h' := congrArg UInt32.toNat h
    rw [UInt16.toNat_toUInt32, UInt16.toNat_toUInt32] at h'
    exact UInt16.toNat_inj.mp h'
  · intro h; rw [h]

end Verif.Props.Metadata
