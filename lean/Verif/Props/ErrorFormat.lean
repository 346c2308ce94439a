import Verif.Errors.Lemmas
import Verif.Props.Foreign
/-
C69: errors cross the FFI in the form the other side expects.

`Delivered`, `Misread` and `HasError` are in Verif/Errors/Spec.lean.
-/
namespace Verif.Props.ErrorFormat
open Verif Verif.Wire Verif.ErrorFormat Verif.Props.Foreign Verif.Props.Wire

/-- C69, partial. Every error value a function of any crate returns arrives in Python, Kotlin, Swift
and Ruby as the same variant, with its message if the type is a flat error and with its fields
otherwise, and the reader consumes exactly the bytes Rust wrote. Missing: the declarations named by
`Misread`, where the code is wrong (`C69_misread_lost`). -/
theorem C69_error_delivered_partial (l : Language) (lossy : Bytes → String) (p : Program) (c : Crate)
    (hu : (c.decls.map (·.name)).Nodup) (d : Decl) (hd : d ∈ c.decls) (hm : ¬ Misread l p c d)
    (env : Env) (he : env d.name = some (.enum d.variants)) (msg : Nat → List Val → String)
    (i : Nat) (fs : List Val) (ht : HasTy env (.named d.name) (.variant i fs))
    (hx : Readable (l.lang lossy) l.Exact env (.named d.name) (.variant i fs))
    (bs rest : Bytes) (hw : rustWrite env d.variants msg (c.deriveOf d) i fs = some bs)
    (fuel : Nat) (hf : Val.depthList fs ≤ fuel) :
    foreignRead (l.lang lossy) env d.metaVariants (templateOf l p c d) fuel (bs ++ rest) =
        .ok (Delivered (l.lang lossy) msg (c.deriveOf d) i fs) rest ∧
      foreignLift (l.lang lossy) env d.metaVariants (templateOf l p c d) fuel bs =
        .ok (Delivered (l.lang lossy) msg (c.deriveOf d) i fs) [] := by
  have key : ∀ rest,
      foreignRead (l.lang lossy) env d.metaVariants (templateOf l p c d) fuel (bs ++ rest) =
        .ok (Delivered (l.lang lossy) msg (c.deriveOf d) i fs) rest := by
    intro rest
    by_cases hflat : ∃ r, c.deriveOf d = .flatError r
    · have htm := (template_flat_iff (l := l) (p := p) hu hd).2 (.inl hflat)
      obtain ⟨r, hr⟩ := hflat
      rw [hr] at hw
      rw [htm, hr]
      exact foreignRead_flat (metaVariants_get d i) hw fuel rest
    · have hne : ∀ r, c.deriveOf d ≠ .flatError r := fun r h => hflat ⟨r, h⟩
      have htm : templateOf l p c d ≠ .flatError := fun h =>
        ((template_flat_iff hu hd).1 h).elim hflat hm
      rw [metaVariants_rich hu hd hne, foreignRead_rich he htm]
      rw [rustWrite_rich he hne] at hw
      rw [fread_write (l.readsLike lossy env false) (.variant i fs) (.named d.name) bs rest (fuel + 1)
        ht hx hw (by simp only [Val.depth]; omega)]
      cases hder : c.deriveOf d with
      | flatError r => exact absurd hder (hne r)
      | enum | error => rfl
  refine ⟨key rest, ?_⟩
  have := key []
  rw [List.append_nil] at this
  simp [foreignLift, this]

/-- C69. Rust sends the message instead of the fields exactly for the types declared that way. -/
theorem C69_sends_message_iff (c : Crate) (hu : (c.decls.map (·.name)).Nodup) (d : Decl)
    (hd : d ∈ c.decls) : (∃ r, c.deriveOf d = .flatError r) ↔ d.SendsMessage c := by
  unfold Decl.SendsMessage
  cases hs : d.source with
  | macros m => simp [Crate.deriveOf, hs]
  | udl k =>
    have hder : c.deriveOf d = if d.name ∈ c.udlErrors then
      if d.isFlat then .flatError (decide (d.name ∈ c.udlCallbackThrows)) else .error
      else .enum := by simp [Crate.deriveOf, hs]
    have hm := mem_udlErrors hu hd
    rw [hs] at hm
    rw [hder]
    cases k with
    | errorEnum =>
      have hin : d.name ∈ c.udlErrors := hm.2 (.inr ⟨_, rfl, by simp⟩)
      simp [hin, Decl.isFlat, Decl.shape, hs]
    | errorInterface =>
      have hin : d.name ∈ c.udlErrors := hm.2 (.inr ⟨_, rfl, by simp⟩)
      simp [hin, Decl.isFlat, Decl.shape, hs]
    | enum =>
      have hin : d.name ∈ c.udlErrors ↔ d.name ∈ c.udlThrows :=
        hm.trans ⟨fun h => h.elim id (by rintro ⟨k, h1, h2⟩; cases h1; exact absurd rfl h2), .inl⟩
      have hfl := isFlat_enum (d := d) (by simp [Decl.shape, hs])
      by_cases h1 : d.name ∈ c.udlErrors <;> by_cases h2 : d.isFlat = true
      · simp [h1, h2, hfl.1 h2, hin.1 h1]
      · have := mt hfl.2 h2
        simp [h1, h2, this]
      · have := mt hin.2 h1
        simp [h1, this]
      · have := mt hin.2 h1
        simp [h1, this]

/-- C69. The misread declarations are exactly those on which the two sides disagree: for all
others the bindings expect a message after the variant number exactly if Rust sends one. -/
theorem C69_agree_iff (l : Language) (p : Program) (c : Crate)
    (hu : (c.decls.map (·.name)).Nodup) (d : Decl) (hd : d ∈ c.decls) :
    (templateOf l p c d = .flatError ↔ ∃ r, c.deriveOf d = .flatError r) ↔ ¬ Misread l p c d := by
  rw [template_flat_iff hu hd]
  constructor
  · intro h hm
    obtain ⟨r, hr⟩ := h.1 (.inr hm)
    exact not_misread_of_flat hu hd hr hm
  · intro h
    simp [h]

/-- Reading a string from an empty buffer fails in every language. -/
theorem readStr_nil (l : Language) (lossy : Bytes → String) (w : Val) (r : Bytes) :
    (l.lang lossy).readLeaf .string [] ≠ .ok w r := by
  cases l
  all_goals
    intro h
    simp [Language.lang, Python.lang, Kotlin.lang, Swift.lang, Ruby.lang, Python.readLeaf,
      Kotlin.readLeaf, Swift.readLeaf, Ruby.readLeaf, Python.readStr, Kotlin.readStr,
      Swift.readStr, Ruby.readStr, Python.readCount, Kotlin.readCount, Swift.readCount,
      Ruby.readCount, readInt, takeN, IntTy.width, Res.map, Res.bind] at h

/-- C69 is false for the misread declarations: no error value of such a type arrives at all, the
generated code fails while reading it. -/
theorem C69_misread_lost (l : Language) (lossy : Bytes → String) (p : Program) (c : Crate)
    (hu : (c.decls.map (·.name)).Nodup) (d : Decl) (hd : d ∈ c.decls) (hm : Misread l p c d)
    (env : Env) (msg : Nat → List Val → String) (i : Nat) (fs : List Val) (bs : Bytes)
    (hw : rustWrite env d.variants msg (c.deriveOf d) i fs = some bs) (fuel : Nat) (w : Val)
    (r : Bytes) :
    foreignLift (l.lang lossy) env d.metaVariants (templateOf l p c d) fuel bs ≠ .ok w r := by
  have htm := (template_flat_iff (l := l) (p := p) hu hd).2 (.inr hm)
  rw [(ordinary_iff hu hd).2 hm.2.1] at hw
  rw [htm]
  unfold rustWrite at hw
  split at hw
  · cases hw
  · rename_i ts hts
    have hnil : ts = [] := hm.1 ts (List.mem_of_getElem? hts)
    subst hnil
    simp only [Option.bind_eq_some_iff, Option.map_eq_some_iff] at hw
    obtain ⟨q, hq, q2, hq2, rfl⟩ := hw
    cases fs with
    | cons a fs => simp [writeFields] at hq2
    | nil =>
      simp only [writeFields, Option.some.injEq] at hq2
      subst hq2
      have hL := l.readsLike lossy (fun _ => none) false
      unfold foreignLift foreignRead
      rw [hL.variant i q _ hq]
      simp only [Res.bind_ok]
      rw [if_neg (by omega)]
      have hi : (((i + 1 : Nat) : Int) - 1).toNat = i := by omega
      simp only [hi]
      cases d.metaVariants[i]? with
      | none => simp [Res.bind]
      | some us =>
        have := readStr_nil l lossy
        cases hr : (l.lang lossy).readLeaf .string [] with
        | ok w' r' => exact absurd hr (this w' r')
        | err e => simp [Res.map, Res.bind]
        | panic => simp [Res.map, Res.bind]
        | deep => simp [Res.map, Res.bind]

/-- The value the other language holds for an error it is about to throw back to Rust: the message
is its own for a flat error. -/
def held (L : Lang) (t : Template) (text : String) (fs : List Val) : List Val :=
  if t = .flatError then [.str text] else reprAll L fs

/-- C69. An error thrown by foreign code (an implementation of a callback interface) is understood
by Rust as the same variant with the same fields, whatever the declaration, unless it is a flat
error that was not given a reader. A flat error with a reader has no fields: it would not compile
otherwise. -/
theorem C69_error_taken (l : Language) (lossy : Bytes → String) (p : Program) (c : Crate)
    (hu : (c.decls.map (·.name)).Nodup) (d : Decl) (hd : d ∈ c.decls)
    (hr : c.deriveOf d ≠ .flatError false) (htry : c.deriveOf d = .flatError true → d.Fieldless)
    (env : Env) (hc : CustomLawful env) (he : env d.name = some (.enum d.variants)) (text : String)
    (i : Nat) (fs : List Val) (ht : HasTy env (.named d.name) (.variant i fs))
    (hk : (Val.variant i fs).All TimeKept)
    (hx : Faithful (l.lang lossy) l.Exact env (.named d.name) (.variant i fs))
    (bs : Bytes) (hw : write env (.named d.name) (.variant i fs) = some bs)
    (fuel : Nat) (hf : Val.depthList fs ≤ fuel) (rest : Bytes) :
    foreignWrite (l.lang lossy) env d.metaVariants (templateOf l p c d) fuel i
        (held (l.lang lossy) (templateOf l p c d) text fs) = some bs ∧
      rustRead env d.variants (c.deriveOf d) fuel (bs ++ rest) = .ok (.variant i fs) rest := by
  have hdep : (Val.variant i fs).depth ≤ fuel + 1 := by simp only [Val.depth]; omega
  obtain ⟨vs, ts, he', hts, hty⟩ := by simpa only [HasTy] using ht
  rw [he] at he'; cases he'
  -- the bytes of a fieldless variant
  have hfl : ts = [] → fs = [] ∧ writeLen (i + 1) = some bs := by
    rintro rfl
    cases fs with
    | cons a fs => simp [HasTyFields] at hty
    | nil =>
      simp only [write, he, hts, Option.bind_eq_some_iff, Option.map_eq_some_iff, writeFields,
        Option.some.injEq] at hw
      obtain ⟨q, hq, q2, rfl, rfl⟩ := hw
      simpa using hq
  have hread : ∀ dv, (∀ r, dv ≠ .flatError r) →
      rustRead env d.variants dv fuel (bs ++ rest) = .ok (.variant i fs) rest := by
    intro dv hne
    rw [rustRead_rich he hne]
    exact read_write env hc _ _ bs rest (fuel + 1) ht hk hw hdep
  have hLw := l.writesLike lossy env
  have hfw : d.Fieldless → templateOf l p c d = .flatError →
      foreignWrite (l.lang lossy) env d.metaVariants (templateOf l p c d) fuel i
        (held (l.lang lossy) (templateOf l p c d) text fs) = some bs := by
    intro hless htm
    rw [htm]
    have hm := metaVariants_get d i
    rw [hts] at hm
    obtain ⟨us, hus⟩ := Option.isSome_iff_exists.1 (hm.trans rfl)
    simp only [foreignWrite, hus]
    exact hLw.variant i bs (hfl (hless ts (List.mem_of_getElem? hts))).2
  cases hder : c.deriveOf d with
  | flatError b =>
    cases b with
    | false => exact absurd hder hr
    | true =>
      have hless := htry hder
      have htm := (template_flat_iff (l := l) (p := p) hu hd).2 (.inl ⟨_, hder⟩)
      refine ⟨hfw hless htm, ?_⟩
      obtain ⟨rfl, hlen⟩ := hfl (hless ts (List.mem_of_getElem? hts))
      have hrd : readInt .i32 (bs ++ rest) = .ok (((i + 1 : Nat) : Int)) rest := by
        have := (Python.readsLike env false).variant i bs rest hlen
        simpa [Python.lang] using this
      have h4 : ¬ (bs ++ rest).length < 4 := by
        intro h
        unfold readInt takeN at hrd
        rw [if_pos (by simp only [IntTy.width]; omega)] at hrd
        simp [Res.map, Res.bind] at hrd
      unfold rustRead
      dsimp only
      rw [if_neg h4, hrd]
      simp only [Res.bind_ok]
      rw [if_neg (by omega)]
      have hi : (((i + 1 : Nat) : Int) - 1).toNat = i := by omega
      simp only [hi, hts]
  | enum | error =>
    have hne : ∀ r, c.deriveOf d ≠ .flatError r := by rw [hder]; intro r h; cases h
    rw [← hder]
    refine ⟨?_, hread _ hne⟩
    by_cases htm : templateOf l p c d = .flatError
    · rcases (template_flat_iff hu hd).1 htm with ⟨r, h⟩ | hm
      · exact absurd h (hne r)
      · exact hfw hm.1 htm
    · rw [metaVariants_rich hu hd hne, foreignWrite_rich he htm]
      simp only [held, htm, if_false]
      have := fwrite_write hLw (.variant i fs) (.named d.name) bs (fuel + 1) ht hx hw hdep
      simpa [Wire.repr] using this

/-- C69. A flat error without a reader cannot be sent to Rust: reading panics on any bytes. -/
theorem C69_flat_not_taken (c : Crate) (d : Decl) (env : Env) (fuel : Nat) (bs : Bytes)
    (h : c.deriveOf d = .flatError false) :
    rustRead env d.variants (c.deriveOf d) fuel bs = .panic := by
  rw [h]; rfl

/-- C69. For an error type declared in UDL the reader is there as soon as a callback method of the
UDL file throws it. -/
theorem C69_udl_callback_errors_read (c : Crate) (d : Decl) (k : UdlKind) (hs : d.source = .udl k)
    (h : d.name ∈ c.udlCallbackThrows) : c.deriveOf d ≠ .flatError false := by
  simp only [Crate.deriveOf, hs, h]
  repeat' split
  all_goals simp

theorem isException_eq (l : Language) (p : Program) (c : Crate) (d : Decl) :
    (templateOf l p c d).isException = usedAsError l p c d.name := by
  unfold templateOf
  by_cases h : usedAsError l p c d.name = true
  · by_cases hf : d.isFlat = true <;> simp [h, hf, Template.isException]
  · simp [h, Template.isException]

/-- C69. In Kotlin, Swift and Ruby an enum is an exception exactly if something in the library
throws a type of that name or declares it as an error. -/
theorem C69_exception_iff (l : Language) (hl : l ≠ .python) (p : Program) (c : Crate) (hc : c ∈ p)
    (d : Decl) :
    (templateOf l p c d).isException = true ↔ ∃ c' ∈ p, c'.HasError d.name := by
  have h : (templateOf l p c d).isException = usedAsError l p c d.name := by
    exact isException_eq _ _ _ _
  rw [h, usedAsError_iff]
  constructor
  · rintro (h | ⟨_, h⟩)
    · exact ⟨c, hc, h⟩
    · exact h
  · exact fun h => .inr ⟨hl, h⟩

/-- C69, partial. In Python an enum is an exception exactly if its own crate throws a type of that
name or declares it as an error. Missing: types thrown only by other crates
(`C69_python_not_raised_broken`). -/
theorem C69_python_exception_iff_partial (p : Program) (c : Crate) (d : Decl) :
    (templateOf .python p c d).isException = true ↔ c.HasError d.name := by
  have h : (templateOf .python p c d).isException = usedAsError .python p c d.name := by
    exact isException_eq _ _ _ _
  rw [h, usedAsError_iff]
  simp

/-! ### Cases -/

/-- A rich error with fields, a flat error whose variants have fields, and an error enum of a UDL
file thrown by a callback method. -/
def goodCrate : Crate where
  decls := [⟨"Rich", .macros .error, [[], [.int .u32, .string]]⟩,
    ⟨"Flat", .macros (.flatError false), [[.string], []]⟩,
    ⟨"Udl", .udl .errorEnum, [[], []]⟩,
    ⟨"Shape", .macros .enum, [[], [.bool]]⟩]
  macroThrows := ["Rich", "Flat", "Shape"]
  udlThrows := ["Udl"]
  udlCallbackThrows := ["Udl"]

example : (goodCrate.decls.map (·.name)).Nodup := by decide

/-- None of these is misread, in any language. -/
example (l : Language) : ∀ d ∈ goodCrate.decls, ¬ Misread l [goodCrate] goodCrate d := by
  intro d hd
  rw [← C69_agree_iff l _ _ (by decide) d hd]
  revert d
  cases l <;> simp [goodCrate] <;> decide +kernel

def goodEnv : Env
  | "Rich" => some (.enum [[], [.int .u32, .string]])
  | "Flat" => some (.enum [[.string], []])
  | "Udl" => some (.enum [[], []])
  | _ => none

example : HasTy goodEnv (.named "Rich") (.variant 1 [.int 7, .str "x"]) ∧
    rustWrite goodEnv [[], [.int .u32, .string]] (fun _ _ => "") .error 1 [.int 7, .str "x"] =
      some [0, 0, 0, 2, 0, 0, 0, 7, 0, 0, 0, 1, 120] ∧
    rustWrite goodEnv [[.string], []] (fun _ _ => "no") (.flatError false) 0 [.str "x"] =
      some [0, 0, 0, 1, 0, 0, 0, 2, 110, 111] := by
  refine ⟨⟨_, _, rfl, rfl, ?_⟩, by decide +kernel, by decide +kernel⟩
  simp [HasTyFields, HasTy]; decide

example : Readable Python.lang Python.Exact goodEnv (.named "Rich")
    (.variant 1 [.int 7, .str "x"]) := by
  unfold Readable
  rw [deep_variant (vs := [[], [.int .u32, .string]]) (ts := [.int .u32, .string]) rfl rfl]
  simp [DeepFields, Deep, Compound, Python.Exact]

example : goodCrate.deriveOf ⟨"Udl", .udl .errorEnum, [[], []]⟩ = .flatError true ∧
    Decl.Fieldless ⟨"Udl", .udl .errorEnum, [[], []]⟩ ∧
    write goodEnv (.named "Udl") (.variant 1 []) = some [0, 0, 0, 2] := by
  refine ⟨by decide, ?_, by decide +kernel⟩
  simp [Decl.Fieldless]

/-- C69 is false: a function that returns `Result<(), E>` where `E` is `#[derive(uniffi::Enum)]`
with variants without fields. Rust sends the variant number, every language waits for a message. -/
theorem C69_thrown_plain_enum_broken (l : Language) :
    ∃ (c : Crate) (d : Decl), (c.decls.map (·.name)).Nodup ∧ d ∈ c.decls ∧ d.name ∈ c.macroThrows ∧
      d.source = .macros .enum ∧ d.variants ≠ [] ∧ Misread l [c] c d := by
  refine ⟨⟨[⟨"E", .macros .enum, [[], []]⟩], ["E"], [], []⟩, ⟨"E", .macros .enum, [[], []]⟩,
    by decide, by decide, by decide, rfl, by decide, ?_, .inl rfl, .inl (.inl (by decide))⟩
  simp [Decl.Fieldless]

/-- C69 is false: an enum that nothing throws, because another crate of the library has an error of
the same name. Kotlin, Swift and Ruby read a message after it; Python does not. -/
theorem C69_namesake_broken (l : Language) (hl : l ≠ .python) :
    ∃ (c c' : Crate) (d : Decl), (c.decls.map (·.name)).Nodup ∧ d ∈ c.decls ∧ d.variants ≠ [] ∧
      c.macroThrows = [] ∧ c.udlThrows = [] ∧ Misread l [c, c'] c d ∧
      ¬ Misread .python [c, c'] c d := by
  refine ⟨⟨[⟨"Status", .macros .enum, [[], []]⟩], [], [], []⟩,
    ⟨[⟨"Status", .macros .error, [[]]⟩], ["Status"], [], []⟩, ⟨"Status", .macros .enum, [[], []]⟩,
    by decide, by decide, by decide, rfl, rfl, ⟨?_, .inl rfl, .inr ⟨hl, _, by simp; exact .inr rfl,
      .inl (by decide)⟩⟩, ?_⟩
  · simp [Decl.Fieldless]
  · simp [Misread, Crate.HasError]

/-- C69 is false: an enum declared in the UDL file, thrown by a function exported with a macro. -/
theorem C69_udl_enum_thrown_by_macro_broken (l : Language) :
    ∃ (c : Crate) (d : Decl), (c.decls.map (·.name)).Nodup ∧ d ∈ c.decls ∧ d.name ∈ c.macroThrows ∧
      d.source = .udl .enum ∧ d.variants ≠ [] ∧ Misread l [c] c d := by
  refine ⟨⟨[⟨"E", .udl .enum, [[], []]⟩], ["E"], [], []⟩, ⟨"E", .udl .enum, [[], []]⟩,
    by decide, by decide, by decide, rfl, by decide, ?_, .inr ⟨rfl, by decide⟩,
      .inl (.inl (by decide))⟩
  simp [Decl.Fieldless]

/-- C69 is false: in Python an enum thrown only by functions of another crate is no exception, so
that raising it fails; in the other languages it is one. -/
theorem C69_python_not_raised_broken :
    ∃ (c c' : Crate) (d : Decl), d ∈ c.decls ∧ d.name ∈ c'.macroThrows ∧
      (templateOf .python [c, c'] c d).isException = false ∧
      ∀ l ≠ Language.python, (templateOf l [c, c'] c d).isException = true :=
  ⟨⟨[⟨"E", .macros .enum, [[], [.string]]⟩], [], [], []⟩, ⟨[], ["E"], [], []⟩,
    ⟨"E", .macros .enum, [[], [.string]]⟩, by decide, by decide, by decide, by
      intro l hl; cases l <;> first | exact absurd rfl hl | decide⟩

end Verif.Props.ErrorFormat
