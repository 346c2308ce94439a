import Verif.Jni.Simple
import Verif.Jni.Strings
/-
C72: simple values cross between Kotlin and Rust through JNI unchanged.
-/
namespace Verif.Props.JniSimple
open Verif.Jni Verif.Wire

/-! ### Numbers -/

theorem castTo_id {t : IntTy} {n : Int} (h : t.InRange n) : castTo t n = n := by
  cases t <;>
    simp only [IntTy.InRange, castTo, IntTy.signed, IntTy.width, if_true, if_false, true_and, Bool.false_eq_true,
      false_and, Nat.reduceMul, Nat.reduceSub, Int.reducePow, Int.reduceNeg] at h ⊢ <;>
    (try split) <;> omega

theorem castTo_inRange (t : IntTy) (n : Int) : t.InRange (castTo t n) := by
  cases t <;>
    simp only [IntTy.InRange, castTo, IntTy.signed, IntTy.width, if_true, if_false, true_and, Bool.false_eq_true,
      false_and, Nat.reduceMul, Nat.reduceSub, Int.reducePow, Int.reduceNeg] <;>
    (try split) <;> omega

theorem castTo_jni (t : IntTy) (n : Int) : castTo t (castTo (jniTy t) n) = castTo t n := by
  cases t <;>
    simp only [castTo, jniTy, IntTy.signed, IntTy.width, if_true, if_false, true_and, Bool.false_eq_true,
      false_and, Nat.reduceMul, Nat.reduceSub, Int.reducePow, Int.reduceNeg] <;>
    split <;> (try split) <;> omega

theorem small_fits {t : IntTy} (ht : t.width ≤ 4) {x : Int} (h : t.InRange x) :
    IntTy.InRange .i64 x ∧ x ≠ i64Max := by
  cases t <;> simp only [IntTy.width] at ht <;>
    simp only [IntTy.InRange, IntTy.signed, IntTy.width, if_true, if_false, Bool.false_eq_true, i64Max,
      Nat.reduceMul, Nat.reduceSub, Int.reducePow, Int.reduceNeg] at h ⊢ <;>
    omega

/-- An integer arrives as the same number, in both directions, and what is passed fits the JVM type of the
same width. -/
theorem C72_int (t : IntTy) (v : Int) (h : t.InRange v) :
    (jniTy t).InRange (Rust.lowerInt t v) ∧ Kotlin.liftInt t (Rust.lowerInt t v) = v ∧
    (jniTy t).InRange (Kotlin.lowerInt t v) ∧ Rust.liftInt t (Kotlin.lowerInt t v) = v := by
  have e : castTo t (castTo (jniTy t) v) = v := by rw [castTo_jni, castTo_id h]
  exact ⟨castTo_inRange _ _, e, castTo_inRange _ _, e⟩

example : Rust.lowerInt .u8 200 = -56 ∧ Kotlin.liftInt .u8 (-56) = 200 := by decide

/-- An optional integer of at most 32 bits arrives as the same number or as nothing. -/
theorem C72_option_int (t : IntTy) (ht : t.width ≤ 4) (v : Option Int) (h : ∀ x, v = some x → t.InRange x) :
    Kotlin.liftOptionInt t (Rust.lowerOptionInt v) = v ∧ Rust.liftOptionInt t (Kotlin.lowerOptionInt v) = v := by
  cases v with
  | none => exact ⟨rfl, rfl⟩
  | some x =>
    have hx := h x rfl
    obtain ⟨h1, h2⟩ := small_fits ht hx
    simp only [Rust.lowerOptionInt, Rust.liftOptionInt, Kotlin.liftOptionInt, Kotlin.lowerOptionInt, castTo_id h1,
      castTo_id hx, if_neg h2, and_self]

example : Rust.lowerOptionInt (some (-5)) = -5 ∧ Kotlin.liftOptionInt .i8 (-5) = some (-5) := by decide

theorem C72_option_bool (v : Option Bool) :
    Kotlin.liftOptionBool (Rust.lowerOptionBool v) = v ∧ Rust.liftOptionBool (Kotlin.lowerOptionBool v) = v := by
  rcases v with _ | _ | _ <;> decide

/-! ### Floats -/

/-- The bits of a 32-bit NaN: all exponent bits set and some other bit too. -/
def IsNaN32 (bits : Nat) : Prop := bits / 2 ^ 23 % 2 ^ 8 = 0xFF ∧ bits % 2 ^ 23 ≠ 0

/-- The bits of a 64-bit NaN. -/
def IsNaN64 (bits : Nat) : Prop := bits / 2 ^ 52 % 2 ^ 11 = 0x7FF ∧ bits % 2 ^ 52 ≠ 0

/-- An optional `f32` arrives with the same bits, except that a NaN may arrive as another NaN. -/
theorem C72_option_f32 (bits : Nat) :
    (∃ r, Kotlin.liftOptionF32 (Rust.lowerOptionF32 (some bits)) = some r ∧ (r = bits ∨ IsNaN32 r ∧ IsNaN32 bits)) ∧
    (∃ r, Rust.liftOptionF32 (Kotlin.lowerOptionF32 (some bits)) = some r ∧ (r = bits ∨ IsNaN32 r ∧ IsNaN32 bits)) ∧
    Kotlin.liftOptionF32 (Rust.lowerOptionF32 none) = none ∧ Rust.liftOptionF32 (Kotlin.lowerOptionF32 none) = none := by
  by_cases h : bits = 0xFFFF_FFFF
  · subst h
    exact ⟨⟨0xFFC0_0000, rfl, Or.inr (by unfold IsNaN32; decide)⟩, ⟨0xFFC0_0000, rfl, Or.inr (by unfold IsNaN32; decide)⟩, rfl, rfl⟩
  · refine ⟨⟨bits, ?_, Or.inl rfl⟩, ⟨bits, ?_, Or.inl rfl⟩, rfl, rfl⟩ <;>
      simp [Kotlin.liftOptionF32, Rust.lowerOptionF32, Rust.liftOptionF32, Kotlin.lowerOptionF32, h]

/-- An optional `f64` arrives with the same bits, except for the NaN with all bits set. -/
theorem C72_option_f64_partial (v : Option Nat) (h : v ≠ some 0xFFFF_FFFF_FFFF_FFFF) :
    Kotlin.liftOptionF64 (Rust.lowerOptionF64 v) = v ∧ Rust.liftOptionF64 (Kotlin.lowerOptionF64 v) = v := by
  cases v with
  | none => exact ⟨rfl, rfl⟩
  | some bits =>
    have hb : bits ≠ 0xFFFF_FFFF_FFFF_FFFF := fun e => h (by rw [e])
    simp [Kotlin.liftOptionF64, Rust.lowerOptionF64, Rust.liftOptionF64, Kotlin.lowerOptionF64, hb]

/-- The NaN with all bits set arrives as a number (2.1e-314). -/
theorem C72_option_f64_nan_broken :
    IsNaN64 0xFFFF_FFFF_FFFF_FFFF ∧
    Kotlin.liftOptionF64 (Rust.lowerOptionF64 (some 0xFFFF_FFFF_FFFF_FFFF)) = some 0xFFF8_0000 ∧
    Rust.liftOptionF64 (Kotlin.lowerOptionF64 (some 0xFFFF_FFFF_FFFF_FFFF)) = some 0xFFF8_0000 ∧
    ¬ IsNaN64 0xFFF8_0000 := by
  unfold IsNaN64; decide

/-! ### Durations and instants -/

theorem i64_range {n : Int} : IntTy.InRange .i64 n ↔ -9223372036854775808 ≤ n ∧ n < 9223372036854775808 := by
  simp only [IntTy.InRange, IntTy.signed, IntTy.width, if_true, Nat.reduceMul, Nat.reduceSub, Int.reducePow,
    Int.reduceNeg]

theorem i32_nanos (n : Nat) : castTo .i32 ((n % 1000000000 : Nat) : Int) = (n % 1000000000 : Nat) := by
  refine castTo_id ?_
  simp only [IntTy.InRange, IntTy.signed, IntTy.width, if_true, Nat.reduceMul, Nat.reduceSub, Int.reducePow,
    Int.reduceNeg]
  omega

theorem u32_nanos {n : Int} (h : 0 ≤ n) (h' : n < 1000000000) : castTo .u32 n = n := by
  refine castTo_id ?_
  simp only [IntTy.InRange, IntTy.signed, IntTy.width, if_false, Bool.false_eq_true, Nat.reduceMul, Int.reducePow]
  omega

theorem u64_secs {n : Int} (h : 0 ≤ n) (h' : n < 18446744073709551616) : castTo .u64 n = n := by
  refine castTo_id ?_
  simp only [IntTy.InRange, IntTy.signed, IntTy.width, if_false, Bool.false_eq_true, Nat.reduceMul, Int.reducePow]
  omega

/-- A duration of less than 2^63 seconds arrives in Kotlin unchanged. -/
theorem C72_duration_to_kotlin_partial (ns : Nat) (h : ns < 2 ^ 63 * 1000000000) :
    Kotlin.liftDuration (Rust.lowerDuration ns).1 (Rust.lowerDuration ns).2 = some (ns : Int) := by
  have h1 : castTo .i64 ((ns / 1000000000 : Nat) : Int) = (ns / 1000000000 : Nat) :=
    castTo_id (i64_range.2 (by omega))
  simp only [Rust.lowerDuration, h1, i32_nanos, Kotlin.liftDuration]
  have e : ((ns / 1000000000 : Nat) : Int) * 1000000000 + ((ns % 1000000000 : Nat) : Int) = ns := by omega
  rw [e, if_pos (by omega)]

/-- A longer one arrives as a negative duration. -/
theorem C72_long_duration_broken (ns : Nat) (h : 2 ^ 63 * 1000000000 ≤ ns) (h' : ns < 2 ^ 64 * 1000000000) :
    ∃ r : Int, Kotlin.liftDuration (Rust.lowerDuration ns).1 (Rust.lowerDuration ns).2 = some r ∧ r < 0 := by
  refine ⟨(ns : Int) - 2 ^ 64 * 1000000000, ?_, by omega⟩
  have h1 : castTo .i64 ((ns / 1000000000 : Nat) : Int) = (ns / 1000000000 : Nat) - 18446744073709551616 := by
    simp only [castTo, IntTy.signed, IntTy.width, true_and, Nat.reduceMul, Nat.reduceSub, Int.reducePow]
    split <;> omega
  simp only [Rust.lowerDuration, h1, i32_nanos, Kotlin.liftDuration]
  have e : (((ns / 1000000000 : Nat) : Int) - 18446744073709551616) * 1000000000 + ((ns % 1000000000 : Nat) : Int) =
    (ns : Int) - 2 ^ 64 * 1000000000 := by omega
  rw [e, if_pos (by omega)]

/-- A duration that is not negative arrives in Rust unchanged, a negative one is refused. -/
theorem C72_duration_to_rust (ns : Int) (hr : ns < 2 ^ 63 * 1000000000) :
    (0 ≤ ns → ∃ a b, Kotlin.lowerDuration ns = some (a, b) ∧ Rust.liftDuration a b = some ns.toNat) ∧
    (ns < 0 → Kotlin.lowerDuration ns = none) := by
  constructor
  · intro h
    refine ⟨ns / 1000000000, ns % 1000000000, ?_, ?_⟩
    · unfold Kotlin.lowerDuration; rw [if_neg (by omega)]
    · have h1 := u64_secs (n := ns / 1000000000) (by omega) (by omega)
      have h2 := u32_nanos (n := ns % 1000000000) (by omega) (by omega)
      simp only [Rust.liftDuration, h1, h2, Rust.newDuration]
      rw [if_pos (by omega)]
      congr 1
      omega
  · intro h
    unfold Kotlin.lowerDuration
    rw [if_pos (by omega)]

example : Kotlin.liftDuration (Rust.lowerDuration 1500000000).1 (Rust.lowerDuration 1500000000).2 = some 1500000000 := by
  decide

/-- Instants that are less than a second before the epoch, but not on it. -/
def JustBefore (ns : Int) : Prop := -1000000000 < ns ∧ ns < 0

/-- The smallest instant of `SystemTime`, which is a panic, and the ones less than a second before the epoch are
left out. Every other instant arrives in Kotlin unchanged if `java.time.Instant` has it, and otherwise there is an
exception. -/
theorem C72_timestamp_to_kotlin_partial (ns : Int) (h : Rust.timeInRange ns) (hs : ns ≠ -(2 ^ 63 * 1000000000))
    (hb : ¬ JustBefore ns) :
    ∃ a b, Rust.lowerTimestamp ns = some (a, b) ∧
      Kotlin.liftTimestamp a b = if Kotlin.timeInRange ns then some ns else none := by
  unfold Rust.timeInRange at h
  unfold JustBefore at hb
  refine ⟨_, _, by unfold Rust.lowerTimestamp i64Max; simp only; rw [if_pos (by omega)], ?_⟩
  rw [i32_nanos]
  unfold Kotlin.liftTimestamp Kotlin.liftDuration
  by_cases h0 : 0 ≤ ns
  · have e : ((ns.natAbs / 1000000000 : Nat) : Int) * 1000000000 + ((ns.natAbs % 1000000000 : Nat) : Int) = ns := by omega
    simp only [if_pos h0, Int.one_mul, if_pos (show (0 : Int) ≤ ((ns.natAbs / 1000000000 : Nat) : Int) by omega), e]
    rw [if_pos (by omega)]
    rfl
  · have e : ((ns.natAbs / 1000000000 : Nat) : Int) * 1000000000 + ((ns.natAbs % 1000000000 : Nat) : Int) = -ns := by omega
    have hneg : ¬ (0 : Int) ≤ -1 * ((ns.natAbs / 1000000000 : Nat) : Int) := by omega
    have hc : castTo .i64 (-(-1 * ((ns.natAbs / 1000000000 : Nat) : Int))) = (ns.natAbs / 1000000000 : Nat) := by
      rw [castTo_id (i64_range.2 (by omega))]; omega
    simp only [if_neg h0, if_neg hneg, hc, e]
    rw [if_pos (by omega)]
    show (if Kotlin.timeInRange (- -ns) then some (- -ns) else none) = _
    rw [Int.neg_neg]

theorem newDuration_ok {secs nanos : Nat} (h : secs < 2 ^ 63) (h' : nanos < 1000000000) :
    Rust.newDuration secs nanos = some (secs * 1000000000 + nanos) := by
  unfold Rust.newDuration
  rw [if_pos (by omega)]

theorem rustLift {s n : Int} (hs : s.natAbs < 2 ^ 63) (h0 : 0 ≤ n) (hn : n < 1000000000) (r : Int)
    (hr : (if 0 ≤ s then ((s.natAbs * 1000000000 + n.toNat : Nat) : Int) else -((s.natAbs * 1000000000 + n.toNat : Nat) : Int)) = r) :
    Rust.liftTimestamp s n = if Rust.timeInRange r then some r else none := by
  unfold Rust.liftTimestamp
  rw [u32_nanos h0 hn, newDuration_ok hs (by omega)]
  show (if Rust.timeInRange (if 0 ≤ s then _ else _) then _ else _) = _
  rw [hr]

/-- Every instant of `java.time.Instant` but the ones less than a second before the epoch arrives in Rust
unchanged. -/
theorem C72_timestamp_to_rust_partial (ns : Int) (h : Kotlin.timeInRange ns) (hb : ¬ JustBefore ns) :
    Rust.liftTimestamp (Kotlin.lowerTimestamp ns).1 (Kotlin.lowerTimestamp ns).2 = some ns := by
  unfold Kotlin.timeInRange at h
  unfold JustBefore at hb
  unfold Kotlin.lowerTimestamp
  have hr : Rust.timeInRange ns := by unfold Rust.timeInRange; omega
  by_cases h0 : ns < 0
  · simp only [if_pos h0]
    rw [rustLift (by omega) (by omega) (by omega) ns (by rw [if_neg (by omega)]; omega), if_pos hr]
  · simp only [if_neg h0]
    rw [rustLift (by omega) (by omega) (by omega) ns (by rw [if_pos (by omega)]; omega), if_pos hr]

example : Rust.timeInRange (-5500000000) ∧ Kotlin.timeInRange (-5500000000) ∧ ¬ JustBefore (-5500000000) := by
  unfold JustBefore; decide

/-- An instant less than a second before the epoch arrives mirrored, in both directions. -/
theorem C72_just_before_epoch_broken (ns : Int) (h : JustBefore ns) :
    (∃ a b, Rust.lowerTimestamp ns = some (a, b) ∧ Kotlin.liftTimestamp a b = some (-ns)) ∧
    Rust.liftTimestamp (Kotlin.lowerTimestamp ns).1 (Kotlin.lowerTimestamp ns).2 = some (-ns) := by
  unfold JustBefore at h
  have hz : ns.natAbs / 1000000000 = 0 := by omega
  have hm : ns.natAbs % 1000000000 = ns.natAbs := by omega
  have h2 := u32_nanos (n := (ns.natAbs : Int)) (by omega) (by omega)
  have h3 := i32_nanos ns.natAbs
  rw [hm] at h3
  constructor
  · refine ⟨0, ns.natAbs, ?_, ?_⟩
    · unfold Rust.lowerTimestamp
      simp only [hz, hm, h3]
      rw [if_pos (by decide)]
      simp
    · have e : (0 : Int) * 1000000000 + (ns.natAbs : Int) = -ns := by omega
      unfold Kotlin.liftTimestamp Kotlin.liftDuration
      simp only [Int.le_refl, if_true, e]
      rw [if_pos (by omega)]
      show (if Kotlin.timeInRange (-ns) then some (-ns) else none) = _
      rw [if_pos (by unfold Kotlin.timeInRange; omega)]
  · unfold Kotlin.lowerTimestamp
    simp only [hz, hm, if_pos h.2]
    rw [rustLift (by omega) (by omega) (by omega) (-ns) (by rw [if_pos (by omega)]; omega),
      if_pos (by unfold Rust.timeInRange; omega)]

/-! ### Strings -/

theorem char_cases (c : Char) : c.toNat < 0xD800 ∨ (0xDFFF < c.toNat ∧ c.toNat < 0x110000) := by
  have := c.valid
  simpa [UInt32.isValidChar, Nat.isValidChar] using this

theorem units_small (c : Char) : ∀ u ∈ utf16Char c, u < 0x10000 := by
  intro u hu
  have := char_cases c
  unfold utf16Char at hu
  split at hu
  · simp at hu; omega
  · simp at hu; omega

theorem mutf8Unit_nonzero (u : Nat) : ∀ b ∈ mutf8Unit u, b ≠ 0 := by
  intro b hb
  unfold mutf8Unit at hb
  split at hb
  · simp at hb; omega
  · split at hb
    · simp at hb; omega
    · split at hb <;> (simp at hb; omega)

theorem readUnits_unit (u : Nat) (h : u < 0x10000) (rest : List Nat) :
    readUnits (mutf8Unit u ++ rest) = (readUnits rest).map (u :: ·) := by
  unfold mutf8Unit
  split
  · rename_i h0; subst h0; rw [List.cons_append, readUnits.eq_def]; simp
  · split
    · rename_i h1; rw [List.cons_append, readUnits.eq_def]; simp [h1]
    · split
      · have a : ¬ 0xC0 + u / 64 < 0x80 := by omega
        have b : 0xC0 + u / 64 < 0xE0 := by omega
        rw [List.cons_append, readUnits.eq_def]
        simp only [List.cons_append, List.nil_append, if_neg a, if_pos b]
        have e : (0xC0 + u / 64 - 0xC0) * 64 + (0x80 + u % 64 - 0x80) = u := by omega
        rw [e]
      · have a : ¬ 0xE0 + u / 4096 < 0x80 := by omega
        have b : ¬ 0xE0 + u / 4096 < 0xE0 := by omega
        rw [List.cons_append, readUnits.eq_def]
        simp only [List.cons_append, List.nil_append, if_neg a, if_neg b]
        have e : (0xE0 + u / 4096 - 0xE0) * 4096 + (0x80 + u / 64 % 64 - 0x80) * 64 + (0x80 + u % 64 - 0x80) = u := by omega
        rw [e]

theorem readUnits_units : ∀ us : List Nat, (∀ u ∈ us, u < 0x10000) → readUnits (mutf8Units us) = some us := by
  intro us
  induction us with
  | nil => intro _; rfl
  | cons u us ih =>
    intro h
    unfold mutf8Units at ih ⊢
    rw [List.flatMap_cons, readUnits_unit u (h u (by simp)), ih (fun v hv => h v (by simp [hv]))]
    rfl

theorem utf16_small (s : List Char) : ∀ u ∈ utf16 s, u < 0x10000 := by
  intro u hu
  obtain ⟨c, _, hc⟩ := List.mem_flatMap.1 hu
  exact units_small c u hc

/-- A string arrives in Kotlin with the same characters, also if it contains the character 0. -/
theorem C72_string_to_kotlin (s : List Char) : newString (jniString s) = some (utf16 s) := by
  unfold newString jniString
  have h : ∀ b ∈ mutf8Units (utf16 s), (decide (b ≠ 0)) = true := by
    intro b hb
    obtain ⟨u, _, hu⟩ := List.mem_flatMap.1 hb
    exact decide_eq_true (mutf8Unit_nonzero u b hu)
  rw [List.takeWhile_append_of_pos h]
  simp only [List.takeWhile_cons, ne_eq, not_true, decide_false, Bool.false_eq_true, if_false, List.append_nil]
  exact readUnits_units _ (utf16_small s)

theorem readUtf16_char (c : Char) (rest : List Nat) :
    readUtf16 (utf16Char c ++ rest) = (readUtf16 rest).map (c :: ·) := by
  have hc := char_cases c
  unfold utf16Char
  split
  · rename_i h
    have a : ¬ (0xD800 ≤ c.toNat ∧ c.toNat < 0xDC00) := by omega
    have b : ¬ (0xDC00 ≤ c.toNat ∧ c.toNat < 0xE000) := by omega
    rw [List.cons_append, readUtf16.eq_def]
    simp only [List.cons_append, List.nil_append, if_neg a, if_neg b, Char.ofNat_toNat]
  · rename_i h
    have a : 0xD800 ≤ 0xD800 + (c.toNat - 0x10000) / 0x400 ∧ 0xD800 + (c.toNat - 0x10000) / 0x400 < 0xDC00 := by omega
    have b : 0xDC00 ≤ 0xDC00 + (c.toNat - 0x10000) % 0x400 ∧ 0xDC00 + (c.toNat - 0x10000) % 0x400 < 0xE000 := by omega
    rw [List.cons_append, readUtf16.eq_def]
    simp only [List.cons_append, List.nil_append, if_pos a, if_pos b]
    have e : 0x10000 + (0xD800 + (c.toNat - 0x10000) / 0x400 - 0xD800) * 0x400 +
        (0xDC00 + (c.toNat - 0x10000) % 0x400 - 0xDC00) = c.toNat := by omega
    rw [e, Char.ofNat_toNat]

theorem readUtf16_utf16 (s : List Char) : readUtf16 (utf16 s) = some s := by
  induction s with
  | nil => rfl
  | cons c s ih =>
    unfold utf16 at ih ⊢
    rw [List.flatMap_cons, readUtf16_char, ih]
    rfl

theorem toNat_ofNat {n : Nat} (h : n < 0xD800 ∨ (0xDFFF < n ∧ n < 0x110000)) : (Char.ofNat n).toNat = n :=
  by
  unfold Char.ofNat
  rw [dif_pos (show n.isValidChar from h)]
  rfl

theorem readUtf16_sound : ∀ (k : Nat) (us : List Nat) (s : List Char), us.length ≤ k → (∀ u ∈ us, u < 0x10000) →
    readUtf16 us = some s → us = utf16 s := by
  intro k
  induction k with
  | zero =>
    intro us s hk _ e
    have : us = [] := List.length_eq_zero_iff.1 (by omega)
    subst this
    simp [readUtf16] at e
    subst e; rfl
  | succ k ih =>
    intro us s hk hs e
    cases us with
    | nil => simp [readUtf16] at e; subst e; rfl
    | cons u rest =>
      have hu := hs u (by simp)
      simp only [List.length_cons] at hk
      unfold readUtf16 at e
      split at e
      · rename_i h1
        cases rest with
        | nil => simp at e
        | cons v rest =>
          simp only at e
          split at e
          · rename_i h2
            rw [Option.map_eq_some_iff] at e
            obtain ⟨s', e1, e2⟩ := e
            subst e2
            simp only [List.length_cons] at hk
            have := ih rest s' (by omega) (fun w hw => hs w (by simp [hw])) e1
            subst this
            unfold utf16
            rw [List.flatMap_cons]
            unfold utf16Char
            rw [toNat_ofNat (by omega), if_neg (by omega)]
            have a : 0xD800 + (0x10000 + (u - 0xD800) * 0x400 + (v - 0xDC00) - 0x10000) / 0x400 = u := by omega
            have b : 0xDC00 + (0x10000 + (u - 0xD800) * 0x400 + (v - 0xDC00) - 0x10000) % 0x400 = v := by omega
            rw [a, b]
            rfl
          · simp at e
      · rename_i h1
        split at e
        · simp at e
        · rename_i h2
          rw [Option.map_eq_some_iff] at e
          obtain ⟨s', e1, e2⟩ := e
          subst e2
          have := ih rest s' (by omega) (fun w hw => hs w (by simp [hw])) e1
          subst this
          unfold utf16
          rw [List.flatMap_cons]
          unfold utf16Char
          rw [toNat_ofNat (by omega), if_pos (by omega)]
          rfl

/-- A Kotlin string arrives in Rust with the same characters; one that has no characters (with half a pair of
surrogates) is an error. -/
theorem C72_string_to_rust (units : List Nat) (h : ∀ u ∈ units, u < 0x10000) (s : List Char) :
    decodeString units = some s ↔ units = utf16 s := by
  unfold decodeString
  rw [readUnits_units units h, Option.bind_some]
  exact ⟨fun e => readUtf16_sound _ _ _ (Nat.le_refl _) h e, fun e => by rw [e, readUtf16_utf16]⟩

example : utf16 ['a', Char.ofNat 0, '€', '😀'] = [0x61, 0, 0x20AC, 0xD83D, 0xDE00] := by decide
example : jniString ['a', Char.ofNat 0, '€'] = [0x61, 0xC0, 0x80, 0xE2, 0x82, 0xAC, 0] := by decide
example : decodeString [0xD83D] = none := by decide

end Verif.Props.JniSimple
