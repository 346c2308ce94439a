import Verif.Gen.DefaultLemmas
/-
The text of default values, language by language.
-/

namespace Verif.Gen.Default
open Verif.Meta

/-! ### The ways to be a value -/

/-- `valOf` as a relation, to take a proof apart. -/
inductive Means : MDef → MTy → Val → Prop
  | custom {m n t d v} : Means d t v → Means d (.custom m n t) v
  | zero {ty v} : zeroVal ty = some v → (∀ m n t, ty ≠ .custom m n t) → Means .default ty v
  | bool {b} : Means (.literal (.boolean b)) .boolean (.bool b)
  | str {s} : Means (.literal (.string s)) .string (.str s)
  | int {z r ty v} : asInt ty z = some v → Means (.literal (.int z r ty)) ty v
  | uint {n : Nat} {r ty v} : asInt ty n = some v → Means (.literal (.uint n r ty)) ty v
  | float32 {d v} : rustFloat d.toList = some v → Means (.literal (.float d .float32)) .float32 v
  | float64 {d v} : rustFloat d.toList = some v → Means (.literal (.float d .float64)) .float64 v
  | none_ {t} : Means (.literal .optNone) (.optional t) .absent
  | some_ {d t v} : Means d t v → Means (.literal (.optSome d)) (.optional t) v
  | list {t} : Means (.literal .emptySequence) (.sequence t) .list
  | seqMap {k t} : Means (.literal .emptySequence) (.map k t) .map
  | seqSet {t} : Means (.literal .emptySequence) (.set t) .set
  | map {k t} : Means (.literal .emptyMap) (.map k t) .map
  | set {t} : Means (.literal .emptySet) (.set t) .set

theorem means_of_valOf {m : MDef} {ty : MTy} {v : Val} (h : valOf m ty = some v) : Means m ty v := by
  induction ty generalizing m with
  | custom _ _ t ih => exact .custom (ih (by simpa [valOf] using h))
  | optional t ih =>
    match m with
    | .default => exact .zero (by simpa [valOf] using h) (by simp)
    | .literal .optNone => simp [valOf] at h; subst h; exact .none_
    | .literal (.optSome d) => exact .some_ (ih (by simpa [valOf] using h))
    | .literal (.boolean _) | .literal (.string _) | .literal (.uint ..) | .literal (.int ..)
    | .literal (.float ..) | .literal .emptySequence | .literal .emptyMap
    | .literal .emptySet => simp [valOf, asInt, intRange] at h
  | _ =>
    match m with
    | .default => exact .zero (by simpa [valOf] using h) (by simp)
    | .literal (.int z r t) =>
      simp only [valOf, Option.ite_none_right_eq_some] at h
      obtain ⟨hty, h⟩ := h
      rw [hty]
      exact .int h
    | .literal (.uint n r t) =>
      simp only [valOf, Option.ite_none_right_eq_some] at h
      obtain ⟨hty, h⟩ := h
      rw [hty]
      exact .uint h
    | .literal (.boolean _) => first
      | (simp [valOf] at h; done)
      | (simp [valOf] at h; subst h; exact .bool)
    | .literal (.string _) => first
      | (simp [valOf] at h; done)
      | (simp [valOf] at h; subst h; exact .str)
    | .literal (.float ..) => first
      | (simp [valOf] at h; done)
      | (simp [valOf] at h; obtain ⟨hty, h⟩ := h; rw [hty]; first | exact .float32 h | exact .float64 h)
    | .literal .emptySequence => first
      | (simp [valOf] at h; done)
      | (simp [valOf] at h; subst h; first | exact .list | exact .seqMap | exact .seqSet)
    | .literal .emptyMap => first
      | (simp [valOf] at h; done)
      | (simp [valOf] at h; subst h; exact .map)
    | .literal .emptySet => first
      | (simp [valOf] at h; done)
      | (simp [valOf] at h; subst h; exact .set)
    | .literal .optNone | .literal (.optSome _) => simp [valOf] at h

theorem rustFloat_parts {cs : List Char} {v : Val} (h : rustFloat cs = some v) :
    (scanFloat cs).ok = true ∧ (scanFloat cs).int ≠ [] ∧
      ((scanFloat cs).frac.isSome || (scanFloat cs).exp.isSome) = true ∧ (scanFloat cs).val = v := by
  simp only [rustFloat, Option.ite_none_right_eq_some, Bool.and_eq_true] at h
  obtain ⟨⟨⟨⟨h1, h2⟩, h3⟩, h4⟩, h5⟩ := h
  exact ⟨h1, by simpa using h2, h3, by simpa using h5⟩

/-! ### Kotlin -/

namespace Kotlin

theorem eval_null {ty : MTy} {v : Val} (h : eval ty "null".toList = some v) : v = .absent := by
  induction ty with
  | optional t _ => simp [eval] at h; exact h.symm
  | custom _ _ t ih => exact ih (by simpa [eval] using h)
  | _ =>
    exfalso
    revert h
    generalize hn : eval _ "null".toList = r
    have : r = none := by
      rw [← hn]
      first
      | decide +kernel
      | simp [eval, int, scanInt, scanNat, scanDigits, List.takeWhile, show isDigitOf 10 'n' = false by decide]
    simp [this]

theorem literal_int {ty : MTy} {z : Int} {v : Val} {r : Radix} (hv : asInt ty z = some v)
    (hz : z ≠ -2 ^ 63) (hr : 0 ≤ z ∨ r = .decimal) :
    ∃ text, literal (.int z r ty) = some text ∧ eval ty text = some v := by
  obtain ⟨-, lo, hi, hty, -⟩ := asInt_range hv
  have hb := asInt_lt hv
  cases r with
  | decimal =>
    exact ⟨_, typedNumber_int hty _, by
      rw [eval_int hty]; exact int_text hv hz (numText_int false z (after_suffix ty))⟩
  | _ =>
    have h0 : 0 ≤ z := by simpa using hr
    have hn := numText_hex false (bits64 z) (after_suffix ty)
    rw [bits64_nonneg h0 hb.2, show ((z.toNat : Nat) : Int) = z by omega] at hn
    exact ⟨_, typedNumber_int hty _, by
      rw [eval_int hty, bits64_nonneg h0 hb.2]; exact int_text hv hz hn⟩

theorem literal_uint {ty : MTy} {n : Nat} {v : Val} {r : Radix} (hv : asInt ty n = some v) :
    ∃ text, literal (.uint n r ty) = some text ∧ eval ty text = some v := by
  obtain ⟨-, lo, hi, hty, -⟩ := asInt_range hv
  cases r with
  | decimal =>
    exact ⟨_, typedNumber_int hty _, by
      rw [eval_int hty]; exact int_text hv (by omega) (numText_nat false n (after_suffix ty))⟩
  | _ =>
    exact ⟨_, typedNumber_int hty _, by
      rw [eval_int hty]; exact int_text hv (by omega) (numText_hex false n (after_suffix ty))⟩

theorem float_ok {d : String} {v : Val} (hv : rustFloat d.toList = some v) (hp : pointDigits d) :
    float d.toList = some v := by
  obtain ⟨h1, h2, h3, h4⟩ := rustFloat_parts hv
  simp only [pointDigits] at hp
  simp only [float, h1, h3, Bool.and_true, Bool.true_and]
  rw [if_pos (by simpa using hp), h4]

theorem default_int {ty : MTy} {l : MLit} {p : Int × Int} (h : intRange ty = some p) :
    default ty (.literal l) = literal l := by
  cases ty <;> simp [intRange] at h <;> rfl

theorem correct {ty : MTy} {m : MDef} {v : Val} (h : Means m ty v)
    (hs : leaf (safeIn kotlinStr) m) (hd : leaf signDecimal m) (hf : leaf fullFloat m)
    (hz : leaf notMin64 m) {text : Text} (ht : default ty m = some text) : eval ty text = some v := by
  induction h generalizing text with
  | custom _ ih => exact ih hs hd hf hz ht
  | zero hv hc =>
    rename_i ty v
    cases ty <;> simp [zeroVal] at hv <;> first
    | exact absurd rfl (hc _ _ _)
    | (simp only [default, Option.some.injEq] at ht; subst hv; subst ht; first
        | decide
        | simp [eval])
  | bool =>
    rename_i b
    cases b <;> simp [default, literal] at ht <;> subst ht <;> decide
  | str =>
    simp [default, literal] at ht
    subst ht
    exact (kotlinStr.eval_quote _).mpr hs
  | int hv =>
    obtain ⟨-, lo, hi, hty, -⟩ := asInt_range hv
    obtain ⟨text', h1, h2⟩ := literal_int hv hz hd
    rw [default_int hty, h1] at ht
    cases ht; exact h2
  | uint hv =>
    rename_i r _ _
    obtain ⟨-, lo, hi, hty, -⟩ := asInt_range hv
    obtain ⟨text', h1, h2⟩ := literal_uint (r := r) hv
    rw [default_int hty, h1] at ht
    cases ht; exact h2
  | float32 hv =>
    simp [default, literal, typedNumber, unwrapOptional] at ht
    subst ht
    simp [eval, float_ok hv hf]
  | float64 hv =>
    simp [default, literal, typedNumber, unwrapOptional] at ht
    subst ht
    simp [eval, float_ok hv hf]
  | none_ => simp [default] at ht; subst ht; simp [eval]
  | some_ _ ih =>
    have := ih hs hd hf hz (text := text) (by simpa [default] using ht)
    simp only [eval]
    split
    · rename_i hn
      subst hn
      rw [eval_null this]
    · exact this
  | list => simp [default] at ht; subst ht; simp [eval]
  | seqMap => simp [default] at ht
  | seqSet => simp [default] at ht; subst ht; simp [eval]
  | map => simp [default] at ht; subst ht; simp [eval]
  | set => simp [default] at ht

/-- The generator writes something, except `[]` for a map and a set literal. -/
theorem total {ty : MTy} {m : MDef} {v : Val} (h : Means m ty v)
    (hl : leaf (fun l => (l = .emptySequence → v ≠ .map) ∧ l ≠ .emptySet) m) :
    (default ty m).isSome := by
  induction h with
  | custom _ ih => exact ih hl
  | zero hv hc =>
    rename_i ty v
    cases ty <;> simp [zeroVal] at hv <;> first
    | exact absurd rfl (hc _ _ _)
    | simp [default]
  | bool => rename_i b; cases b <;> simp [default, literal]
  | str => simp [default, literal]
  | int hv =>
    rename_i r _ _
    obtain ⟨-, lo, hi, hty, -⟩ := asInt_range hv
    rw [default_int hty]
    cases r <;> simp [literal, typedNumber_int hty]
  | uint hv =>
    rename_i r _ _
    obtain ⟨-, lo, hi, hty, -⟩ := asInt_range hv
    rw [default_int hty]
    cases r <;> simp [literal, typedNumber_int hty]
  | float32 hv => simp [default, literal, typedNumber, unwrapOptional]
  | float64 hv => simp [default, literal, typedNumber, unwrapOptional]
  | none_ => simp [default]
  | some_ _ ih => simpa [default] using ih hl
  | list => simp [default]
  | seqMap => exact absurd rfl (hl.1 rfl)
  | seqSet => simp [default]
  | map => simp [default]
  | set => exact absurd rfl hl.2

end Kotlin
end Verif.Gen.Default

namespace Verif.Gen.Default
open Verif.Meta

/-! ### Swift -/

namespace Swift

theorem label_eq (ty : MTy) : label ty = typeName ty := by
  cases ty <;> first | rfl | decide +kernel

theorem called_self (l num : List Char) : called l (l ++ '(' :: num ++ [')']) = some num := by
  unfold called
  rw [if_pos]
  · have : l ++ '(' :: num ++ [')'] = (l ++ ['(']) ++ (num ++ [')']) := by simp
    rw [this, show l.length + 1 = (l ++ ['(']).length by simp, List.drop_left]
    simp
  · constructor
    · have : l ++ '(' :: num ++ [')'] = (l ++ ['(']) ++ (num ++ [')']) := by simp
      rw [this, show l.length + 1 = (l ++ ['(']).length by simp, List.take_left]
    · exact List.getLast?_concat

theorem called_head {l cs : List Char} {a c : Char} (hl : l.head? = some a) (hc : cs.head? = some c)
    (h : a ≠ c) : called l cs = none := by
  unfold called
  rw [if_neg]
  rintro ⟨h1, -⟩
  cases l with
  | nil => simp at hl
  | cons a' l =>
    cases cs with
    | nil => simp at hc
    | cons c' cs =>
      simp at hl hc h1
      exact h (by rw [← hl, ← hc]; exact h1.1)

theorem eval_nil {ty : MTy} {v : Val} (h : eval ty "nil".toList = some v) : v = .absent := by
  induction ty with
  | optional t _ => simp [eval] at h; exact h.symm
  | custom _ _ t ih => exact ih (by simpa [eval] using h)
  | _ =>
    exfalso
    revert h
    generalize hn : eval _ "nil".toList = r
    have : r = none := by
      rw [← hn]
      first
      | decide +kernel
      | simp [eval, int, typeName]
    simp [this]

theorem eval_int {ty : MTy} {p : Int × Int} (h : intRange ty = some p) (cs : List Char) :
    eval ty cs = int ty cs := by
  cases ty <;> simp [intRange] at h <;> rfl

theorem default_int {ty : MTy} {l : MLit} {p : Int × Int} (h : intRange ty = some p) :
    default ty (.literal l) = literal l := by
  cases ty <;> simp [intRange] at h <;> rfl

theorem int_text {ty : MTy} {z : Int} {v : Val} {num : List Char} (hv : asInt ty z = some v)
    (hn : NumText true num z []) :
    ∃ text, typedNumber ty num = some text ∧ eval ty text = some v := by
  obtain ⟨-, lo, hi, hr, h1, h2⟩ := asInt_range hv
  obtain ⟨⟨neg, n, hs, hsg, hnat⟩, c, hc, hc'⟩ := hn
  rw [List.append_nil] at hs
  have hlit : intLit ty num = some v := by
    unfold intLit
    rw [hs]
    dsimp only
    rw [hsg, hv]
  cases ty
  case int32 =>
    refine ⟨num, rfl, ?_⟩
    rw [eval_int hr, int]
    simp only [typeName]
    rw [called_head (a := 'I') (c := c) rfl hc (by rintro rfl; revert hc'; decide)]
    exact hlit
  all_goals first
    | (simp [intRange] at hr; done)
    | (refine ⟨_, by simp only [typedNumber, label_eq, typeName, Option.map_some]; rfl, ?_⟩
       rw [eval_int hr, int]
       simp only [typeName]
       rw [called_self]
       exact hlit)

theorem literal_int {ty : MTy} {z : Int} {v : Val} {r : Radix} (hv : asInt ty z = some v)
    (hr : 0 ≤ z ∨ r = .decimal) :
    ∃ text, literal (.int z r ty) = some text ∧ eval ty text = some v := by
  have hb := asInt_lt hv
  cases r with
  | decimal => exact int_text hv (numText_int true z after_nil)
  | hexadecimal =>
    have h0 : 0 ≤ z := by simpa using hr
    have hn := numText_hex true (bits64 z) after_nil
    simp only [bits64_nonneg h0 hb.2, show ((z.toNat : Nat) : Int) = z by omega] at hn
    simp only [literal, bits64_nonneg h0 hb.2]
    exact int_text hv hn
  | octal =>
    have h0 : 0 ≤ z := by simpa using hr
    have hn := numText_oct (bits64 z) after_nil
    simp only [bits64_nonneg h0 hb.2, show ((z.toNat : Nat) : Int) = z by omega] at hn
    simp only [literal, bits64_nonneg h0 hb.2]
    exact int_text hv hn

theorem literal_uint {ty : MTy} {n : Nat} {v : Val} {r : Radix} (hv : asInt ty n = some v) :
    ∃ text, literal (.uint n r ty) = some text ∧ eval ty text = some v := by
  cases r with
  | decimal => exact int_text hv (numText_nat true n after_nil)
  | hexadecimal => exact int_text hv (numText_hex true n after_nil)
  | octal => exact int_text hv (numText_oct n after_nil)

theorem float_ok {d : String} {v : Val} (hv : rustFloat d.toList = some v) (hp : pointDigits d) :
    floatLit d.toList = some v := by
  obtain ⟨h1, h2, h3, h4⟩ := rustFloat_parts hv
  simp only [pointDigits] at hp
  simp only [floatLit, h1, Bool.true_and]
  rw [if_pos (by simpa using ⟨h2, hp⟩), h4]

theorem correct {ty : MTy} {m : MDef} {v : Val} (h : Means m ty v)
    (hs : leaf (safeIn swiftStr) m) (hd : leaf signDecimal m) (hf : leaf fullFloat m)
    {text : Text} (ht : default ty m = some text) : eval ty text = some v := by
  induction h generalizing text with
  | custom _ ih => exact ih hs hd hf ht
  | zero hv hc =>
    rename_i ty v
    cases ty <;> simp [zeroVal] at hv <;> first
    | exact absurd rfl (hc _ _ _)
    | (simp only [default, Option.some.injEq] at ht; subst hv; subst ht; first
        | decide
        | simp [eval])
  | bool =>
    rename_i b
    cases b <;> simp [default, literal] at ht <;> subst ht <;> decide
  | str =>
    simp [default, literal] at ht
    subst ht
    exact (swiftStr.eval_quote _).mpr hs
  | int hv =>
    obtain ⟨-, lo, hi, hty, -⟩ := asInt_range hv
    obtain ⟨text', h1, h2⟩ := literal_int hv hd
    rw [default_int hty, h1] at ht
    cases ht; exact h2
  | uint hv =>
    rename_i r _ _
    obtain ⟨-, lo, hi, hty, -⟩ := asInt_range hv
    obtain ⟨text', h1, h2⟩ := literal_uint (r := r) hv
    rw [default_int hty, h1] at ht
    cases ht; exact h2
  | float32 hv =>
    simp only [default, literal, typedNumber, label_eq, typeName, Option.map_some,
      Option.some.injEq] at ht
    subst ht
    simp only [eval, float, typeName, called_self, float_ok hv hf]
  | float64 hv =>
    simp only [default, literal, typedNumber, label_eq, typeName, Option.map_some,
      Option.some.injEq] at ht
    subst ht
    simp only [eval, float, typeName, called_self, float_ok hv hf]
  | none_ => simp [default] at ht; subst ht; simp [eval]
  | some_ _ ih =>
    have := ih hs hd hf (text := text) (by simpa [default] using ht)
    simp only [eval]
    split
    · rename_i hn
      subst hn
      rw [eval_nil this]
    · exact this
  | list => simp [default] at ht; subst ht; simp [eval]
  | seqMap => simp [default] at ht
  | seqSet => simp [default] at ht; subst ht; simp [eval]
  | map => simp [default] at ht; subst ht; simp [eval]
  | set => simp [default] at ht

/-- The generator writes something, except `[]` for a map and a set literal. -/
theorem total {ty : MTy} {m : MDef} {v : Val} (h : Means m ty v) (hd : leaf signDecimal m)
    (hl : leaf (fun l => (l = .emptySequence → v ≠ .map) ∧ l ≠ .emptySet) m) :
    (default ty m).isSome := by
  induction h with
  | custom _ ih => exact ih hd hl
  | zero hv hc =>
    rename_i ty v
    cases ty <;> simp [zeroVal] at hv <;> first
    | exact absurd rfl (hc _ _ _)
    | simp [default]
  | bool => rename_i b; cases b <;> simp [default, literal]
  | str => simp [default, literal]
  | int hv =>
    obtain ⟨-, lo, hi, hty, -⟩ := asInt_range hv
    obtain ⟨text', h1, h2⟩ := literal_int hv hd
    rw [default_int hty, h1]; rfl
  | uint hv =>
    rename_i r _ _
    obtain ⟨-, lo, hi, hty, -⟩ := asInt_range hv
    obtain ⟨text', h1, h2⟩ := literal_uint (r := r) hv
    rw [default_int hty, h1]; rfl
  | float32 hv => simp [default, literal, typedNumber, label]
  | float64 hv => simp [default, literal, typedNumber, label]
  | none_ => simp [default]
  | some_ _ ih => simpa [default] using ih hd hl
  | list => simp [default]
  | seqMap => exact absurd rfl (hl.1 rfl)
  | seqSet => simp [default]
  | map => simp [default]
  | set => exact absurd rfl hl.2

end Swift

/-! ### Python and Ruby -/

theorem bigInt_text {z : Int} {num : List Char} (hn : NumText true num z []) :
    bigInt num = some (.int z) := by
  obtain ⟨⟨neg, n, hs, hsg, -⟩, -⟩ := hn
  rw [List.append_nil] at hs
  simp [bigInt, hs, hsg]

theorem scanNat_whole {cs : List Char} {n : Nat} (neg : Bool) (h : scanNat true cs = some (n, [])) :
    (scanFrac neg (cs.takeWhile (isDigitOf 10)) (cs.dropWhile (isDigitOf 10))).frac = none ∧
    (scanFrac neg (cs.takeWhile (isDigitOf 10)) (cs.dropWhile (isDigitOf 10))).exp = none := by
  unfold scanNat at h
  split at h
  · rename_i c cs
    have h0 : isDigitOf 10 '0' = true := by decide
    split at h
    · subst_vars
      simp [List.dropWhile, h0, show isDigitOf 10 'x' = false by decide, scanFrac, scanExp]
    · split at h
      · subst_vars
        simp [List.dropWhile, h0, show isDigitOf 10 'o' = false by decide, scanFrac, scanExp]
      · split at h <;> simp at h
  · simp only [scanDigits] at h
    split at h
    · cases h
    · simp only [Option.some.injEq, Prod.mk.injEq] at h
      rw [h.2]
      simp [scanFrac, scanExp]

/-- A floating point number is not taken for an integer. -/
theorem bigInt_float {d : List Char} {v : Val} (hv : rustFloat d = some v) : bigInt d = none := by
  obtain ⟨-, -, h3, -⟩ := rustFloat_parts hv
  cases hb : bigInt d with
  | none => rfl
  | some w =>
    exfalso
    unfold bigInt at hb
    split at hb
    · rename_i neg n hs
      have : (scanFloat d).frac = none ∧ (scanFloat d).exp = none := by
        unfold scanInt at hs
        unfold scanFloat
        split at hs <;>
          (simp only [Option.map_eq_some_iff, Prod.mk.injEq, Prod.exists] at hs
           obtain ⟨a, b, hab, -, -, rfl⟩ := hs
           exact scanNat_whole _ hab)
      simp [this] at h3
    · cases hb

theorem rustFloat_head {d : List Char} {v : Val} (hv : rustFloat d = some v) :
    ∃ c, d.head? = some c ∧ (c = '-' ∨ isDigitOf 10 c = true) := by
  obtain ⟨-, h2, -, -⟩ := rustFloat_parts hv
  cases d with
  | nil => exact absurd rfl h2
  | cons c cs =>
    refine ⟨c, rfl, ?_⟩
    by_cases hc : c = '-'
    · exact .inl hc
    · right
      cases hd : isDigitOf 10 c with
      | true => rfl
      | false =>
        exfalso
        apply h2
        unfold scanFloat
        split
        · rename_i heq; simp at heq; exact absurd heq.1 hc
        · simp only [List.takeWhile, hd, scanFrac]
          split <;> rfl

/-- A text that starts like a number is none of the fixed expressions. -/
theorem head_ne {num fixed : List Char} {a c : Char} (hc : num.head? = some c)
    (hc' : c = '-' ∨ isDigitOf 10 c = true) (hf : fixed.head? = some a)
    (ha : a ≠ '-' ∧ isDigitOf 10 a = false) : num ≠ fixed := by
  rintro rfl
  rw [hc] at hf
  cases hf
  rcases hc' with h | h
  · exact ha.1 h
  · rw [h] at ha; simp at ha

namespace Python

theorem eval_number {num : List Char} {c : Char} (hc : num.head? = some c)
    (hc' : c = '-' ∨ isDigitOf 10 c = true) : eval num = number num := by
  unfold eval
  rw [if_neg (head_ne (a := 'T') hc hc' (by decide) (by decide)),
    if_neg (head_ne (a := 'F') hc hc' (by decide) (by decide)),
    if_neg (head_ne (a := 'N') hc hc' (by decide) (by decide)),
    if_neg (head_ne (a := '[') hc hc' (by decide) (by decide)),
    if_neg (head_ne (a := '{') hc hc' (by decide) (by decide)),
    if_neg (head_ne (a := '{') hc hc' (by decide) (by decide)),
    if_neg (head_ne (a := 'b') hc hc' (by decide) (by decide)), if_neg]
  rw [hc]
  simp only [Option.some.injEq]
  rintro rfl
  revert hc'
  decide

theorem not_called {num : List Char} {c : Char} (hc : num.head? = some c)
    (hc' : c = '-' ∨ isDigitOf 10 c = true) : Swift.called ['i', 'n', 't'] num = none :=
  Swift.called_head (a := 'i') rfl hc (by rintro rfl; revert hc'; decide)

theorem eval_int {z : Int} {num : List Char} (hn : NumText true num z []) :
    eval num = some (.int z) := by
  have hb := bigInt_text hn
  obtain ⟨-, c, hc, hc'⟩ := hn
  rw [eval_number hc hc', number, not_called hc hc', hb]

theorem eval_called {z : Int} {num : List Char} (hn : NumText true num z []) :
    eval ("int(".toList ++ num ++ [')']) = some (.int z) := by
  have h : "int(".toList ++ num ++ [')'] = ['i', 'n', 't'] ++ '(' :: num ++ [')'] := by simp
  have hn' : number (['i', 'n', 't'] ++ '(' :: num ++ [')']) = some (.int z) := by
    rw [number, Swift.called_self]
    exact bigInt_text hn
  rw [h, ← hn']
  simp [eval]

theorem eval_float {d : String} {v : Val} (hv : rustFloat d.toList = some v) :
    eval d.toList = some v := by
  obtain ⟨c, hc, hc'⟩ := rustFloat_head hv
  obtain ⟨h1, h2, h3, h4⟩ := rustFloat_parts hv
  rw [eval_number hc hc', number, not_called hc hc', bigInt_float hv]
  simp [float, h1, h3, h4]

theorem eval_quote {s : String} (h : pythonStr.Safe s.toList) : eval (quote s) = some (.str s) := by
  rw [← (pythonStr.eval_quote s).mpr h]
  simp [eval, quote]

theorem correct {ty outer : MTy} {m : MDef} {v : Val} (h : Means m ty v)
    (hs : leaf (safeIn pythonStr) m) (hd : leaf signDecimal m) (hl : leaf (listOnly v) m)
    (hi : noInnerDefault m) (ho : m = .default → zero outer = zero ty)
    {text : Text} (ht : default outer m = some text) : eval text = some v := by
  induction h generalizing text with
  | custom _ ih => exact ih hs hd hl hi (fun h => by rw [ho h]; rfl) ht
  | zero hv hc =>
    rename_i ty v
    simp only [default, ho rfl] at ht
    cases ty <;> simp [zeroVal] at hv <;> first
    | exact absurd rfl (hc _ _ _)
    | (simp only [zero, Option.some.injEq] at ht; subst hv; subst ht; decide)
  | bool =>
    rename_i b
    cases b <;> simp [default, literal] at ht <;> subst ht <;> decide
  | str =>
    simp only [default, literal, Option.some.injEq] at ht
    subst ht
    exact eval_quote hs
  | int hv =>
    rename_i z r _ _
    obtain ⟨rfl, -⟩ := asInt_range hv
    have hb := asInt_lt hv
    cases r with
    | decimal =>
      simp only [default, literal, Option.some.injEq] at ht
      subst ht
      exact eval_int (numText_int true z after_nil)
    | hexadecimal =>
      have h0 : 0 ≤ z := by simpa [leaf, signDecimal] using hd
      have hn := numText_hex true (bits64 z) after_nil
      simp only [bits64_nonneg h0 hb.2, show ((z.toNat : Nat) : Int) = z by omega] at hn
      simp only [default, literal, bits64_nonneg h0 hb.2, Option.some.injEq] at ht
      subst ht
      exact eval_int hn
    | octal =>
      have h0 : 0 ≤ z := by simpa [leaf, signDecimal] using hd
      have hn := numText_oct (bits64 z) after_nil
      simp only [bits64_nonneg h0 hb.2, show ((z.toNat : Nat) : Int) = z by omega] at hn
      simp only [default, literal, bits64_nonneg h0 hb.2, Option.some.injEq] at ht
      subst ht
      exact eval_called hn
  | uint hv =>
    rename_i n r _ _
    obtain ⟨rfl, -⟩ := asInt_range hv
    cases r <;> (simp only [default, literal, Option.some.injEq] at ht; subst ht)
    · exact eval_int (numText_nat true n after_nil)
    · exact eval_int (numText_oct n after_nil)
    · exact eval_int (numText_hex true n after_nil)
  | float32 hv | float64 hv =>
    simp only [default, literal, Option.some.injEq] at ht
    subst ht
    exact eval_float hv
  | none_ => simp [default, literal] at ht; subst ht; decide
  | some_ _ ih =>
    rename_i d t v _
    have hnd : d ≠ .default := by
      rintro rfl
      exact hi
    refine ih hs hd hl ?_ (fun h => absurd h hnd) (by simpa [default, literal] using ht)
    cases d with
    | default => exact absurd rfl hnd
    | literal l => exact hi
  | list => simp [default, literal] at ht; subst ht; decide
  | seqMap => simp [leaf, listOnly] at hl
  | seqSet => simp [leaf, listOnly] at hl
  | map => simp [default, literal] at ht; subst ht; decide
  | set => simp [default, literal] at ht; subst ht; decide

end Python

namespace Ruby

theorem eval_number {num : List Char} {c : Char} (hc : num.head? = some c)
    (hc' : c = '-' ∨ isDigitOf 10 c = true) : eval num = number num := by
  unfold eval
  rw [if_neg (head_ne (a := 't') hc hc' (by decide) (by decide)),
    if_neg (head_ne (a := 'f') hc hc' (by decide) (by decide)),
    if_neg (head_ne (a := 'n') hc hc' (by decide) (by decide)),
    if_neg (head_ne (a := '[') hc hc' (by decide) (by decide)),
    if_neg (head_ne (a := '{') hc hc' (by decide) (by decide)),
    if_neg (head_ne (a := 'S') hc hc' (by decide) (by decide)),
    if_neg (head_ne (a := '"') hc hc' (by decide) (by decide)), if_neg]
  rw [hc]
  simp only [Option.some.injEq]
  rintro rfl
  revert hc'
  decide

theorem eval_int {z : Int} {num : List Char} (hn : NumText true num z []) :
    eval num = some (.int z) := by
  have hb := bigInt_text hn
  obtain ⟨-, c, hc, hc'⟩ := hn
  rw [eval_number hc hc', number, hb]

theorem eval_float {d : String} {v : Val} (hv : rustFloat d.toList = some v) (hp : pointDigits d) :
    eval d.toList = some v := by
  obtain ⟨c, hc, hc'⟩ := rustFloat_head hv
  obtain ⟨h1, h2, h3, h4⟩ := rustFloat_parts hv
  simp only [pointDigits] at hp
  rw [eval_number hc hc', number, bigInt_float hv]
  simp only [float, h1, h3, Bool.true_and, Bool.and_true]
  rw [if_pos (by simpa using ⟨h2, hp⟩), h4]

theorem quote_ne_bytes (s : String) : quote s ≠ "\"\".b".toList := by
  intro h
  have := congrArg List.getLast? h
  unfold quote at this
  rw [List.getLast?_concat] at this
  revert this
  decide

theorem eval_quote {s : String} (h : rubyStr.Safe s.toList) : eval (quote s) = some (.str s) := by
  rw [← (rubyStr.eval_quote s).mpr h]
  have := quote_ne_bytes s
  unfold eval
  rw [if_neg (by simp [quote]), if_neg (by simp [quote]), if_neg (by simp [quote]),
    if_neg (by simp [quote]), if_neg (by simp [quote]), if_neg (by simp [quote]), if_neg this,
    if_pos (by simp [quote])]

theorem correct {ty outer : MTy} {m : MDef} {v : Val} (h : Means m ty v)
    (hs : leaf (safeIn rubyStr) m) (hd : leaf signDecimal m) (hf : leaf fullFloat m)
    (hl : leaf (listOnly v) m) (ho : m = .default → zero outer = zero ty)
    {text : Text} (ht : default outer m = some text) : eval text = some v := by
  induction h generalizing text with
  | custom _ ih => exact ih hs hd hf hl (fun h => by rw [ho h]; rfl) ht
  | zero hv hc =>
    rename_i ty v
    simp only [default, ho rfl] at ht
    cases ty <;> simp [zeroVal] at hv <;> first
    | exact absurd rfl (hc _ _ _)
    | (simp only [zero, Option.some.injEq] at ht; subst hv; subst ht; decide)
  | bool =>
    rename_i b
    cases b <;> simp [default, literal] at ht <;> subst ht <;> decide
  | str =>
    simp only [default, literal, Option.some.injEq] at ht
    subst ht
    exact eval_quote hs
  | int hv =>
    rename_i z r _ _
    obtain ⟨rfl, -⟩ := asInt_range hv
    have hb := asInt_lt hv
    cases r with
    | decimal =>
      simp only [default, literal, Option.some.injEq] at ht
      subst ht
      exact eval_int (numText_int true z after_nil)
    | hexadecimal =>
      have h0 : 0 ≤ z := by simpa [leaf, signDecimal] using hd
      have hn := numText_hex true (bits64 z) after_nil
      simp only [bits64_nonneg h0 hb.2, show ((z.toNat : Nat) : Int) = z by omega] at hn
      simp only [default, literal, bits64_nonneg h0 hb.2, Option.some.injEq] at ht
      subst ht
      exact eval_int hn
    | octal =>
      have h0 : 0 ≤ z := by simpa [leaf, signDecimal] using hd
      have hn := numText_oct (bits64 z) after_nil
      simp only [bits64_nonneg h0 hb.2, show ((z.toNat : Nat) : Int) = z by omega] at hn
      simp only [default, literal, bits64_nonneg h0 hb.2, Option.some.injEq] at ht
      subst ht
      exact eval_int hn
  | uint hv =>
    rename_i n r _ _
    obtain ⟨rfl, -⟩ := asInt_range hv
    cases r <;> (simp only [default, literal, Option.some.injEq] at ht; subst ht)
    · exact eval_int (numText_nat true n after_nil)
    · exact eval_int (numText_oct n after_nil)
    · exact eval_int (numText_hex true n after_nil)
  | float32 hv | float64 hv =>
    simp only [default, literal, Option.some.injEq] at ht
    subst ht
    exact eval_float hv hf
  | none_ => simp [default, literal] at ht; subst ht; decide
  | some_ _ ih =>
    rename_i d t v _
    cases d with
    | default => simp [default, literal, inner] at ht
    | literal l =>
      exact ih hs hd hf hl (fun h => by cases h) (by simpa [default, literal, inner] using ht)
  | list => simp [default, literal] at ht; subst ht; decide
  | seqMap => simp [leaf, listOnly] at hl
  | seqSet => simp [leaf, listOnly] at hl
  | map => simp [default, literal] at ht; subst ht; decide
  | set => simp [default, literal] at ht; subst ht; decide

end Ruby
end Verif.Gen.Default
