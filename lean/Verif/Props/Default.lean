import Verif.Gen.DefaultCorrect
import Verif.Udl.LiteralLemmas
import Verif.Meta.Spec
/-
C58: default values reach foreign callers. C59: default values in UDL mean what is written.

`declared` and `declaredUdl` say which value the author declares, `valOf` which value the metadata
stands for, and `Kotlin.eval`, `Swift.eval`, `Python.eval` and `Ruby.eval` which value the generated
text has (Verif/Gen/DefaultSpec.lean, Verif/Udl/LiteralSpec.lean). The model of the generators is in
Verif/Gen/Default.lean, the model of the UDL reader in Verif/Udl/Literal.lean. `DefSrc.meaning` is what
the metadata reader makes of an attribute, by C39.
-/
namespace Verif.Props.Default
open Verif.Meta Verif.Gen.Default

/-! ### From the attribute to the metadata -/

theorem declared_default (ty : MTy) : declared .default ty = valOf .default ty := by
  induction ty with
  | custom _ _ t ih => simpa [declared, valOf] using ih
  | _ => simp [declared, valOf]

theorem declared_bool (b : Bool) (ty : MTy) :
    declared (.bool b) ty = valOf (.literal (.boolean b)) ty := by
  induction ty with
  | custom _ _ t ih => simpa [declared, valOf] using ih
  | _ => simp [declared, valOf]

theorem declared_emptySeq (ty : MTy) :
    declared .emptySeq ty = valOf (.literal .emptySequence) ty := by
  induction ty with
  | custom _ _ t ih => simpa [declared, valOf] using ih
  | _ => simp [declared, valOf]

theorem valOf_defaultType (m : MDef) (ty : MTy) : valOf m (defaultType ty) = valOf m ty := by
  cases ty <;> simp [defaultType, valOf]

theorem declared_defaultType (d : DefSrc) (ty : MTy) : declared d (defaultType ty) = declared d ty := by
  cases ty <;> simp [defaultType, declared]

/-- The default in the metadata has the value that the attribute declares. -/
theorem C58_attribute {d : DefSrc} {ty : MTy} {v : Val} {m : MDef} (hv : declared d ty = some v)
    (hm : d.meaning ty = some m) : valOf m ty = some v := by
  induction d generalizing ty m with
  | default => simp [DefSrc.meaning] at hm; subst hm; rw [← declared_default, hv]
  | bool b => simp [DefSrc.meaning] at hm; subst hm; rw [← declared_bool, hv]
  | emptySeq => simp [DefSrc.meaning] at hm; subst hm; rw [← declared_emptySeq, hv]
  | otherLiteral => simp [DefSrc.meaning] at hm
  | str s =>
    rw [← declared_defaultType] at hv
    rw [← valOf_defaultType]
    simp only [DefSrc.meaning, Option.ite_none_right_eq_some, Option.some.injEq] at hm
    obtain ⟨ht, rfl⟩ := hm
    rw [ht] at hv ⊢
    simpa [declared, valOf] using hv
  | int z s =>
    rw [← declared_defaultType] at hv
    rw [← valOf_defaultType]
    simp only [DefSrc.meaning, Option.map_eq_some_iff] at hm
    obtain ⟨l, hl, rfl⟩ := hm
    generalize defaultType ty = t at hv hl
    unfold intMeaning at hl
    split at hl <;> first
    | (cases hl; done)
    | (split at hl
       · rename_i hb
         simp only [Option.some.injEq] at hl
         subst hl
         simp only [declared] at hv
         simp only [valOf, if_true]
         first
         | (rw [show ((z.toNat : Nat) : Int) = z by omega]; exact hv)
         | exact hv
       · first
         | (cases hl; done)
         | (exfalso
            split at hl
            · rename_i hb
              simp only [declared, asInt, intRange] at hv
              split at hv
              · omega
              · cases hv
            · cases hl))
  | float f s =>
    rw [← declared_defaultType] at hv
    rw [← valOf_defaultType]
    simp only [DefSrc.meaning, Option.ite_none_right_eq_some, Option.some.injEq] at hm
    obtain ⟨ht, rfl⟩ := hm
    rcases ht with ht | ht <;> rw [ht] at hv ⊢ <;> simpa [declared, valOf] using hv
  | optNone =>
    rw [← declared_defaultType] at hv
    rw [← valOf_defaultType]
    simp only [DefSrc.meaning] at hm
    split at hm
    · rename_i t ht
      simp only [Option.some.injEq] at hm
      subst hm
      rw [ht] at hv ⊢
      simpa [declared, valOf] using hv
    · cases hm
  | optSome d ih =>
    rw [← declared_defaultType] at hv
    rw [← valOf_defaultType]
    simp only [DefSrc.meaning] at hm
    split at hm
    · rename_i t ht
      simp only [Option.map_eq_some_iff] at hm
      obtain ⟨m', hm', rfl⟩ := hm
      rw [ht] at hv ⊢
      simp only [declared] at hv
      simp only [valOf]
      exact ih hv hm'
    · cases hm

example : declared (.optSome (.int 5 false)) (.optional .uint64) = some (.int 5) ∧
    (DefSrc.optSome (.int 5 false)).meaning (.optional .uint64) =
      some (.literal (.optSome (.literal (.uint 5 .decimal .uint64)))) := by decide +kernel

/-- What attributes never contain: a default inside `Some`, and the radix of a number. -/
theorem attribute_shape {d : DefSrc} {ty : MTy} {m : MDef} (hm : d.meaning ty = some m) :
    leaf signDecimal m := by
  induction d generalizing ty m with
  | default => simp [DefSrc.meaning] at hm; subst hm; trivial
  | bool b => simp [DefSrc.meaning] at hm; subst hm; trivial
  | emptySeq => simp [DefSrc.meaning] at hm; subst hm; trivial
  | otherLiteral => simp [DefSrc.meaning] at hm
  | str s =>
    simp only [DefSrc.meaning, Option.ite_none_right_eq_some, Option.some.injEq] at hm
    obtain ⟨-, rfl⟩ := hm
    trivial
  | int z s =>
    simp only [DefSrc.meaning, Option.map_eq_some_iff] at hm
    obtain ⟨l, hl, rfl⟩ := hm
    unfold intMeaning at hl
    split at hl <;> first
    | (cases hl; done)
    | (split at hl <;> first
       | (cases hl; done)
       | (cases hl; first | trivial | exact .inr rfl)
       | (split at hl <;> first | (cases hl; done) | (cases hl; exact .inr rfl)))
  | float f s =>
    simp only [DefSrc.meaning, Option.ite_none_right_eq_some, Option.some.injEq] at hm
    obtain ⟨-, rfl⟩ := hm
    trivial
  | optNone =>
    simp only [DefSrc.meaning] at hm
    split at hm <;> cases hm
    trivial
  | optSome d ih =>
    simp only [DefSrc.meaning] at hm
    split at hm
    · simp only [Option.map_eq_some_iff] at hm
      obtain ⟨m', hm', rfl⟩ := hm
      have := ih hm'
      exact this
    · cases hm

/-! ### The generated text -/

/-- Kotlin: the text of a default has the value of the default. Missing: strings with characters that
need an escape, numbers like `1.`, and the smallest 64-bit number, see the `_broken` theorems. -/
theorem C58_kotlin_partial {ty : MTy} {m : MDef} {v : Val} {text : List Char}
    (hv : valOf m ty = some v) (hs : leaf (safeIn kotlinStr) m) (hd : leaf signDecimal m)
    (hf : leaf fullFloat m) (hz : leaf notMin64 m) (ht : Kotlin.default ty m = some text) :
    Kotlin.eval ty text = some v :=
  Kotlin.correct (means_of_valOf hv) hs hd hf hz ht

/-- Kotlin and Swift: every default is written, except `[]` for a map and a set literal, for which the
generators report an error. -/
theorem C58_written_partial {ty : MTy} {m : MDef} {v : Val} (hv : valOf m ty = some v)
    (hd : leaf signDecimal m)
    (hl : leaf (fun l => (l = .emptySequence → v ≠ .map) ∧ l ≠ .emptySet) m) :
    (Kotlin.default ty m).isSome ∧ (Swift.default ty m).isSome :=
  ⟨Kotlin.total (means_of_valOf hv) hl, Swift.total (means_of_valOf hv) hd hl⟩

/-- Swift. Missing: strings with characters that need an escape, and numbers like `1.`. -/
theorem C58_swift_partial {ty : MTy} {m : MDef} {v : Val} {text : List Char}
    (hv : valOf m ty = some v) (hs : leaf (safeIn swiftStr) m) (hd : leaf signDecimal m)
    (hf : leaf fullFloat m) (ht : Swift.default ty m = some text) :
    Swift.eval ty text = some v :=
  Swift.correct (means_of_valOf hv) hs hd hf ht

/-- Python: a caller that leaves the argument out gets the value of the default. Missing: strings with
characters that need an escape, and `[]` for maps and sets. The default of a type cannot be written
inside `Some`. -/
theorem C58_python_partial {ty : MTy} {m : MDef} {v : Val} {o : Python.Omitted}
    (hv : valOf m ty = some v) (hs : leaf (safeIn pythonStr) m) (hd : leaf signDecimal m)
    (hl : leaf (listOnly v) m) (hi : noInnerDefault m) (ho : Python.omitted ty m = some o) :
    ∃ text, (o = .once text ∨ o = .eachCall text) ∧ Python.eval text = some v := by
  unfold Python.omitted at ho
  split at ho
  · rename_i text arg ht ha
    have := Python.correct (means_of_valOf hv) hs hd hl hi (fun _ => rfl) ht
    simp only [Option.some.injEq] at ho
    split at ho
    · rename_i heq
      subst heq
      exact ⟨_, .inl ho.symm, this⟩
    · exact ⟨_, .inr ho.symm, this⟩
  · cases ho

theorem literal_not_shared {l : MLit} {t : MTy} {v : Val} {m : MDef} (h : Means m t v)
    (hm : m = .literal l) (hi : noInnerDefault (.literal l))
    (hc : Python.canUseLiteral l = true) : v ≠ .list ∧ v ≠ .map ∧ v ≠ .set := by
  induction h generalizing l with
  | custom _ ih => exact ih hm hi hc
  | zero => cases hm
  | some_ hd ih =>
    rename_i d t v
    cases hm
    cases d with
    | default => exact hi.elim
    | literal l' => exact ih rfl hi hc
  | int hv => obtain ⟨rfl, -⟩ := asInt_range hv; simp
  | uint hv => obtain ⟨rfl, -⟩ := asInt_range hv; simp
  | float32 hv | float64 hv =>
    obtain ⟨-, -, -, h4⟩ := rustFloat_parts hv
    rw [← h4]
    simp [FloatParts.val]
  | bool | str | none_ => simp
  | _ => cases hm; simp [Python.canUseLiteral] at hc

theorem sentinel_ne : (l : MLit) → (ty : MTy) → Python.canUseLiteral l = false →
    noInnerDefault (.literal l) → Python.literal ty l ≠ some Python.sentinel
  | .optSome .default, _, _, h => h.elim
  | .optSome (.literal l), ty, h1, h2 => sentinel_ne l ty h1 h2
  | .optNone, _, _, _ | .emptySequence, _, _, _ | .emptyMap, _, _, _ | .emptySet, _, _, _ => by
    simp only [Python.literal]; decide +kernel

theorem zero_ne (t : MTy) : Python.zero t ≠ some Python.sentinel := by
  induction t with
  | custom _ _ t ih => exact ih
  | _ => simp only [Python.zero]; first | decide +kernel | nofun

/-- Python: a value that is evaluated once and shared by all calls cannot be changed. -/
theorem C58_python_not_shared {ty : MTy} {m : MDef} {v : Val} {text : List Char}
    (hv : valOf m ty = some v) (hi : noInnerDefault m)
    (ho : Python.omitted ty m = some (.once text)) :
    v ≠ .list ∧ v ≠ .map ∧ v ≠ .set := by
  have hM := means_of_valOf hv
  cases m with
  | literal l =>
    by_cases hc : Python.canUseLiteral l = true
    · exact literal_not_shared hM rfl hi hc
    · simp only [Python.omitted, Python.argLiteral, hc] at ho
      exfalso
      split at ho
      · rename_i t a ht ha
        simp only [Bool.false_eq_true, if_false, Option.some.injEq] at ha
        subst ha
        simp only [Option.some.injEq] at ho
        split at ho
        · rename_i heq
          subst heq
          exact sentinel_ne l ty (by simpa using hc) hi ht
        · cases ho
      · cases ho
  | default =>
    clear hM hi
    have hs : Python.argLiteral ty .default = some Python.sentinel →
        Python.omitted ty .default ≠ some (.once text) := by
      intro ha ho
      simp only [Python.omitted, ha, Python.default] at ho
      cases hzt : Python.zero ty with
      | none => simp [hzt] at ho
      | some x =>
        have := zero_ne ty
        rw [hzt] at this ho
        simp only [ne_eq, Option.some.injEq] at this ho
        rw [if_neg this] at ho
        cases ho
    cases ty <;> simp only [valOf, zeroVal, Option.some.injEq, reduceCtorEq] at hv <;> first
    | (subst hv; simp; done)
    | exact absurd ho (hs rfl)

/-- Ruby. Missing: strings with characters that need an escape, numbers like `1.`, and `[]` for maps and
sets. -/
theorem C58_ruby_partial {ty : MTy} {m : MDef} {v : Val} {text : List Char}
    (hv : valOf m ty = some v) (hs : leaf (safeIn rubyStr) m) (hd : leaf signDecimal m)
    (hf : leaf fullFloat m) (hl : leaf (listOnly v) m) (ht : Ruby.default ty m = some text) :
    Ruby.eval text = some v :=
  Ruby.correct (means_of_valOf hv) hs hd hf hl (fun _ => rfl) ht

/-- A default that meets the hypotheses of all four theorems: `Some("it's 5 $")`. -/
example : valOf (.literal (.optSome (.literal (.string "it's 5 $")))) (.optional .string) =
      some (.str "it's 5 $") ∧
    Kotlin.default (.optional .string) (.literal (.optSome (.literal (.string "it's 5 $")))) =
      some "\"it's 5 $\"".toList ∧
    Kotlin.eval (.optional .string) "\"it's 5 $\"".toList = some (.str "it's 5 $") := by
  decide +kernel
example : kotlinStr.Safe "it's 5 $".toList ∧ swiftStr.Safe "it's 5 $".toList ∧
    pythonStr.Safe "it's 5 $".toList ∧ rubyStr.Safe "it's 5 $".toList := by
  simp only [← StrRules.eval_quote]
  decide +kernel
/-- `0xff` for a byte, which UDL allows. -/
example : valOf (.literal (.uint 255 .hexadecimal .uint8)) (.custom "m" "C" .uint8) =
      some (.int 255) ∧
    Kotlin.default (.custom "m" "C" .uint8) (.literal (.uint 255 .hexadecimal .uint8)) =
      some "0xffu".toList ∧
    Swift.default (.custom "m" "C" .uint8) (.literal (.uint 255 .octal .uint8)) =
      some "UInt8(0o377)".toList ∧
    Python.omitted (.custom "m" "C" .uint8) (.literal (.uint 255 .hexadecimal .uint8)) =
      some (.once "0xff".toList) ∧
    Ruby.default (.custom "m" "C" .uint8) (.literal (.uint 255 .octal .uint8)) =
      some "0o377".toList := by decide +kernel
example : valOf (.literal (.float "-1.50e3" .float32)) .float32 = some (.float true 150 1) ∧
    Kotlin.default .float32 (.literal (.float "-1.50e3" .float32)) = some "-1.50e3f".toList ∧
    Swift.eval .float32 "Float(-1.50e3)".toList = some (.float true 150 1) := by decide +kernel
example : pointDigits "-1.50e3" := by unfold pointDigits; decide +kernel
/-- An empty list is made anew for each call. -/
example : Python.omitted (.sequence .uint8) .default = some (.eachCall "[]".toList) ∧
    Python.omitted .uint8 .default = some (.once "0".toList) := by decide +kernel

theorem leaf_mono {P Q : MLit → Prop} : (m : MDef) → (∀ l, P l → Q l) → leaf P m → leaf Q m
  | .default, _, _ => trivial
  | .literal (.optSome d), h, hp => leaf_mono d h hp
  | .literal (.boolean _), h, hp | .literal (.string _), h, hp | .literal (.uint ..), h, hp
  | .literal (.int ..), h, hp | .literal (.float ..), h, hp | .literal .emptySequence, h, hp
  | .literal .emptyMap, h, hp | .literal .emptySet, h, hp | .literal .optNone, h, hp => h _ hp

/-- From the attribute to all four languages. The conditions are those of the four theorems. -/
theorem C58_end_to_end_partial {d : DefSrc} {ty : MTy} {v : Val} {m : MDef}
    (hv : declared d ty = some v) (hm : d.meaning ty = some m)
    (hs : leaf (fun l => safeIn kotlinStr l ∧ safeIn swiftStr l ∧ safeIn pythonStr l ∧ safeIn rubyStr l) m)
    (hf : leaf fullFloat m) (hz : leaf notMin64 m) (hl : leaf (listOnly v) m)
    (hi : noInnerDefault m) :
    (∀ t, Kotlin.default ty m = some t → Kotlin.eval ty t = some v) ∧
    (∀ t, Swift.default ty m = some t → Swift.eval ty t = some v) ∧
    (∀ o, Python.omitted ty m = some o →
      ∃ t, (o = .once t ∨ o = .eachCall t) ∧ Python.eval t = some v) ∧
    (∀ t, Ruby.default ty m = some t → Ruby.eval t = some v) := by
  have h := C58_attribute hv hm
  have hd := attribute_shape hm
  exact ⟨fun t ht => C58_kotlin_partial h (leaf_mono m (fun _ h => h.1) hs) hd hf hz ht,
    fun t ht => C58_swift_partial h (leaf_mono m (fun _ h => h.2.1) hs) hd hf ht,
    fun o ho => C58_python_partial h (leaf_mono m (fun _ h => h.2.2.1) hs) hd hl hi ho,
    fun t ht => C58_ruby_partial h (leaf_mono m (fun _ h => h.2.2.2) hs) hd hf hl ht⟩

/-- Exactly which strings survive: those that need no escape in the language. -/
theorem C58_strings (s : String) :
    ((∃ t, Kotlin.default .string (.literal (.string s)) = some t ∧
        Kotlin.eval .string t = some (.str s)) ↔ kotlinStr.Safe s.toList) ∧
    ((∃ t, Swift.default .string (.literal (.string s)) = some t ∧
        Swift.eval .string t = some (.str s)) ↔ swiftStr.Safe s.toList) := by
  constructor
  · rw [← StrRules.eval_quote]
    simp [Kotlin.default, Kotlin.literal, Kotlin.eval]
  · rw [← StrRules.eval_quote]
    simp [Swift.default, Swift.literal, Swift.eval]

/-! ### What the generators get wrong -/

/-- A default string with a double quote is not a string of any of the languages. -/
theorem C58_quote_broken :
    (Kotlin.default .string (.literal (.string "a\"b"))).bind (Kotlin.eval .string) = none ∧
    (Swift.default .string (.literal (.string "a\"b"))).bind (Swift.eval .string) = none ∧
    (Python.default .string (.literal (.string "a\"b"))).bind Python.eval = none ∧
    (Ruby.default .string (.literal (.string "a\"b"))).bind Ruby.eval = none := by decide +kernel

/-- A default string with a backslash becomes another string: `C:\new` turns into `C:`, a new line and
`ew`. -/
theorem C58_backslash_broken :
    (Kotlin.default .string (.literal (.string "C:\\new"))).bind (Kotlin.eval .string) =
      some (.str "C:\new") ∧
    (Swift.default .string (.literal (.string "C:\\new"))).bind (Swift.eval .string) =
      some (.str "C:\new") ∧
    (Python.default .string (.literal (.string "C:\\new"))).bind Python.eval = some (.str "C:\new") ∧
    (Ruby.default .string (.literal (.string "C:\\new"))).bind Ruby.eval = some (.str "C:\new") := by
  decide +kernel

/-- Kotlin takes `$name` and Ruby `#{name}` for something to insert. -/
theorem C58_template_broken :
    (Kotlin.default .string (.literal (.string "$name"))).bind (Kotlin.eval .string) = none ∧
    (Ruby.default .string (.literal (.string "#{name}"))).bind Ruby.eval = none := by decide +kernel

/-- The smallest 64-bit number is not a literal of Kotlin, although it is a value of the type. -/
theorem C58_kotlin_min_broken :
    valOf (.literal (.int (-2 ^ 63) .decimal .int64)) .int64 = some (.int (-2 ^ 63)) ∧
    (Kotlin.default .int64 (.literal (.int (-2 ^ 63) .decimal .int64))).bind (Kotlin.eval .int64) =
      none := by decide +kernel

/-- `1.` is a number of Rust and of Python, but not of the other languages. -/
theorem C58_point_broken :
    declared (.float "1." false) .float64 = some (.float false 1 0) ∧
    (Python.default .float64 (.literal (.float "1." .float64))).bind Python.eval =
      some (.float false 1 0) ∧
    (Kotlin.default .float64 (.literal (.float "1." .float64))).bind (Kotlin.eval .float64) = none ∧
    (Swift.default .float64 (.literal (.float "1." .float64))).bind (Swift.eval .float64) = none ∧
    (Ruby.default .float64 (.literal (.float "1." .float64))).bind Ruby.eval = none := by
  decide +kernel

/-- `[]` for a map or a set is a list in Python and Ruby. -/
theorem C58_collection_broken :
    (Python.default (.set .uint8) (.literal .emptySequence)).bind Python.eval = some .list ∧
    (Ruby.default (.map .string .uint8) (.literal .emptySequence)).bind Ruby.eval = some .list := by
  decide +kernel

end Verif.Props.Default

namespace Verif.Props.Udl
open Verif.Meta Verif.Udl Verif.Gen.Default

/-! ### C59: UDL -/

/-- An integer in the metadata of a UDL default is the number written in the file, for every text and
every type; unsigned numbers have no sign. -/
theorem C59_integer {text : List Char} {ty : MTy} {l : MLit} (h : convert (.integer text) ty = some l)
    (ho : ∀ t, ty ≠ .optional t) :
    ∃ z, intText text = some z ∧ (∃ r, l = .int z r ty ∨ (l = .uint z.toNat r ty ∧ 0 ≤ z)) := by
  have : convertIntText text ty = some l := by
    cases ty <;> first
    | exact absurd rfl (ho _)
    | (simp [convert] at h; done)
    | simpa [convert] using h
  obtain ⟨z, r, hz, -, h⟩ := convertIntText_sound this
  refine ⟨z, hz, r, ?_⟩
  rcases h with ⟨-, h, -, -⟩ | ⟨-, n, hn, -, h⟩
  · exact .inl h
  · refine .inr ⟨?_, by omega⟩
    rw [h, hn]; rfl

example : convert (.integer "-0x1F".toList) .int32 = some (.int (-31) .decimal .int32) ∧
    convert (.integer "017".toList) .uint8 = some (.uint 15 .octal .uint8) ∧
    convert (.integer "0xFf".toList) (.optional .uint64) =
      some (.optSome (.literal (.uint 255 .hexadecimal .uint64))) := by decide +kernel

/-- The default in the metadata has the value declared in UDL, and is decimal when it is negative.
Missing: numbers outside the type are not rejected, see `C59_range_broken`. -/
theorem C59_value_partial {l : Lit} {ty : MTy} {v : Val} {m : MLit} (hv : declaredUdl l ty = some v)
    (hm : convert l ty = some m) :
    valOf (.literal m) ty = some v ∧ leaf signDecimal (.literal m) ∧ noInnerDefault (.literal m) ∧
      leaf (listOnly v) (.literal m) := by
  have hint : ∀ {text : List Char} {ty : MTy}, (intText text).bind (asInt ty) = some v →
      convertIntText text ty = some m → valOf (.literal m) ty = some v ∧
      leaf signDecimal (.literal m) ∧ noInnerDefault (.literal m) ∧ leaf (listOnly v) (.literal m) := by
    intro text ty hv hm
    obtain ⟨z, r, hz, hr, h⟩ := convertIntText_sound hm
    rw [hz] at hv
    simp only [Option.bind_some] at hv
    rcases h with ⟨hs, rfl, -, -⟩ | ⟨hs, n, rfl, -, rfl⟩
    · refine ⟨?_, hr, trivial, trivial⟩
      cases ty <;> simp [isSInt] at hs <;> simpa [valOf] using hv
    · refine ⟨?_, trivial, trivial, trivial⟩
      cases ty <;> simp [isUInt] at hs <;> simpa [valOf] using hv
  induction ty generalizing m with
  | optional t ih =>
    by_cases hn : l = .null
    · subst hn
      simp [convert] at hm
      simp [declaredUdl] at hv
      subst hm; subst hv
      exact ⟨rfl, trivial, trivial, trivial⟩
    · simp only [declaredUdl, hn, if_false] at hv
      have hc : convert l (.optional t) = (convert l t).map fun m => .optSome (.literal m) := by
        cases l <;> first | rfl | exact absurd rfl hn
      rw [hc] at hm
      simp only [Option.map_eq_some_iff] at hm
      obtain ⟨m', hm', rfl⟩ := hm
      exact ih hv hm' (fun h1 h2 => by
        obtain ⟨z, r, hz, hr, h⟩ := convertIntText_sound h2
        rw [hz] at h1
        simp only [Option.bind_some] at h1
        rename_i ty
        rcases h with ⟨hs, rfl, -, -⟩ | ⟨hs, n, rfl, -, rfl⟩
        · refine ⟨?_, hr, trivial, trivial⟩
          cases ty <;> simp [isSInt] at hs <;> simpa [valOf] using h1
        · refine ⟨?_, trivial, trivial, trivial⟩
          cases ty <;> simp [isUInt] at hs <;> simpa [valOf] using h1)
  | _ =>
    cases l <;> simp [declaredUdl] at hv <;> simp [convert] at hm <;> first
    | exact hint (by simpa using hv) hm
    | (subst hm
       first
       | (subst hv; exact ⟨rfl, trivial, trivial, trivial⟩)
       | exact ⟨by simpa [valOf] using hv, trivial, trivial, trivial⟩
       | (subst hv; exact ⟨rfl, trivial, trivial, rfl⟩))

theorem accepted_int {text : List Char} {ty : MTy} {v : Val}
    (hv : (intText text).bind (asInt ty) = some v) (hX : 'X' ∉ text)
    (hm : text.head? = some '-' → v ≠ .int 0) : (convert (.integer text) ty).isSome := by
  simp only [Option.bind_eq_some_iff] at hv
  obtain ⟨z, hz, hv⟩ := hv
  obtain ⟨hvz, lo, hi, hr, hlo, -⟩ := asInt_range hv
  have hc : convert (.integer text) ty = convertIntText text ty := by
    cases ty <;> simp [intRange] at hr <;> rfl
  rw [hc]
  refine convertIntText_complete hz hv hX ?_
  intro hu hhead
  apply hm hhead
  rcases sign_cases text with ⟨body, -, -, hi'⟩ | ⟨hn, -, -⟩
  · rw [hi'] at hz
    simp only [Option.map_eq_some_iff] at hz
    obtain ⟨n, -, hz⟩ := hz
    have : lo = 0 := by
      cases ty <;> simp [isUInt] at hu <;> simp [intRange] at hr <;> exact hr.1.symm
    rw [hvz, show z = 0 by omega]
  · exact absurd hhead hn

/-- A default that is a value of its type is accepted, unless it is written with `0X`, or is zero with
a minus sign. -/
theorem C59_accepted {l : Lit} {ty : MTy} {v : Val} (hv : declaredUdl l ty = some v)
    (hX : ∀ text, l = .integer text → 'X' ∉ text ∧ (text.head? = some '-' → v ≠ .int 0)) :
    (convert l ty).isSome := by
  induction ty with
  | optional t ih =>
    by_cases hn : l = .null
    · subst hn; rfl
    · simp only [declaredUdl, hn, if_false] at hv
      have hc : convert l (.optional t) = (convert l t).map fun m => .optSome (.literal m) := by
        cases l <;> first | rfl | exact absurd rfl hn
      rw [hc]
      simpa using ih hv
  | _ =>
    cases l <;> first
    | (simp [declaredUdl] at hv; done)
    | rfl
    | exact accepted_int (by simpa [declaredUdl] using hv) (hX _ rfl).1 (hX _ rfl).2

example : declaredUdl (.integer "0xFF".toList) (.optional .uint8) = some (.int 255) ∧
    declaredUdl (.float "2.5") .float64 = some (.float false 25 (-1)) ∧
    declaredUdl .null (.optional .string) = some .absent := by decide +kernel

/-- A number outside the type is accepted: `i8 x = 0xFF` becomes 255, which is not a value of the type
in any language; the text does not compile in Kotlin and Swift, and Python has the value 255. -/
theorem C59_range_broken :
    declaredUdl (.integer "0xFF".toList) .int8 = none ∧
    convert (.integer "0xFF".toList) .int8 = some (.int 255 .hexadecimal .int8) ∧
    (Kotlin.default .int8 (.literal (.int 255 .hexadecimal .int8))).bind (Kotlin.eval .int8) = none ∧
    (Swift.default .int8 (.literal (.int 255 .hexadecimal .int8))).bind (Swift.eval .int8) = none ∧
    (Python.default .int8 (.literal (.int 255 .hexadecimal .int8))).bind Python.eval =
      some (.int 255) := by decide +kernel

/-- `0X1F` is an integer of UDL, but is rejected. -/
theorem C59_upper_broken :
    declaredUdl (.integer "0X1F".toList) .uint8 = some (.int 31) ∧
    convert (.integer "0X1F".toList) .uint8 = none := by decide +kernel

/-- From UDL to all four languages. -/
theorem C59_end_to_end_partial {l : Lit} {ty : MTy} {v : Val} {m : MLit}
    (hv : declaredUdl l ty = some v) (hm : convert l ty = some m)
    (hk : leaf (safeIn kotlinStr) (.literal m)) (hsw : leaf (safeIn swiftStr) (.literal m))
    (hp : leaf (safeIn pythonStr) (.literal m)) (hr : leaf (safeIn rubyStr) (.literal m))
    (hf : leaf fullFloat (.literal m)) (hz : leaf notMin64 (.literal m)) :
    (∀ t, Kotlin.default ty (.literal m) = some t → Kotlin.eval ty t = some v) ∧
    (∀ t, Swift.default ty (.literal m) = some t → Swift.eval ty t = some v) ∧
    (∀ o, Python.omitted ty (.literal m) = some o →
      ∃ t, (o = .once t ∨ o = .eachCall t) ∧ Python.eval t = some v) ∧
    (∀ t, Ruby.default ty (.literal m) = some t → Ruby.eval t = some v) := by
  obtain ⟨h, hd, hi, hl⟩ := C59_value_partial hv hm
  exact ⟨fun t ht => Default.C58_kotlin_partial h hk hd hf hz ht,
    fun t ht => Default.C58_swift_partial h hsw hd hf ht,
    fun o ho => Default.C58_python_partial h hp hd hl hi ho,
    fun t ht => Default.C58_ruby_partial h hr hd hf hl ht⟩

end Verif.Props.Udl
