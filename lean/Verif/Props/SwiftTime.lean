import Verif.Wire.SwiftTime
import Verif.Wire.Lemmas2
import Verif.Wire.ForeignLeaf
import Verif.Wire.ForeignLeaf2

/-!
# C14: durations and instants in Swift

What arrives is the duration or the instant that was sent, up to what a double can hold; what Swift
writes is a well-formed duration or instant that is at most a nanosecond below what the double says.
-/

namespace Verif.Props.SwiftTime

open Verif.Wire
open Verif.Wire.Double

/-! ## Writing -/

/-- The nanoseconds that Swift computes from the rest of a second are fewer than a second, and wrong by
less than one. -/
theorem nanos_of_rest {v : ℚ} (hv : IsDouble v) (h0 : 0 ≤ v) :
    0 ≤ ⌊rnd (rnd (v - rnd ⌊v⌋) * 1000000000)⌋ ∧
    ⌊rnd (rnd (v - rnd ⌊v⌋) * 1000000000)⌋ < 1000000000 ∧
    (v - ⌊v⌋) * 1000000000 - 1 - 1 / 2 ^ 24 < ⌊rnd (rnd (v - rnd ⌊v⌋) * 1000000000)⌋ ∧
    (⌊rnd (rnd (v - rnd ⌊v⌋) * 1000000000)⌋ : ℚ) ≤ (v - ⌊v⌋) * 1000000000 + 1 / 2 ^ 24 := by
  obtain ⟨hs, hf⟩ := parts hv h0
  rw [rnd_exact hs, rnd_exact hf]
  have hlo : 0 ≤ v - ⌊v⌋ := by linarith [Int.floor_le v]
  have hhi : v - ⌊v⌋ < 1 := by linarith [Int.lt_floor_add_one v]
  have hb := below_one hf hhi
  rw [show (2 : ℚ) ^ (-53 : ℤ) = 1 / 2 ^ 53 by norm_num] at hb
  generalize v - ⌊v⌋ = f at *
  have hy0 : 0 ≤ f * 1000000000 := by linarith
  have hyk : |f * 1000000000| ≤ 2 ^ (30 : ℤ) := by
    rw [abs_of_nonneg hy0, show (2 : ℚ) ^ (30 : ℤ) = 1073741824 by norm_num]; linarith
  have he := rnd_err_pow hyk
  rw [show (2 : ℚ) ^ (30 - 54 : ℤ) = 1 / 2 ^ 24 by norm_num, abs_le] at he
  have hr0 := rnd_nonneg hy0
  have h1 := Int.floor_le (rnd (f * 1000000000))
  have h2 := Int.lt_floor_add_one (rnd (f * 1000000000))
  have hlt : rnd (f * 1000000000) < 1000000000 := by
    have : (1 : ℚ) / 2 ^ 53 * 1000000000 > 1 / 2 ^ 24 := by norm_num
    nlinarith [he.2]
  refine ⟨Int.floor_nonneg.mpr hr0, ?_, by linarith [he.1], by linarith [he.2]⟩
  rw [Int.floor_lt]
  exact_mod_cast hlt

theorem doubleMax_eq : Swift.doubleMax = 2 ^ 63 := by
  unfold Swift.doubleMax
  rw [rnd_unique (x := ((2 ^ 63 - 1 : ℤ) : ℚ)) 10 (2 ^ 53) (by norm_num)
    (by rw [abs_of_nonneg (by norm_num)]; norm_num) (by rw [abs_of_nonneg (by norm_num)]; norm_num)
    (by rw [abs_lt]; norm_num)]
  norm_num

/-- **What Swift writes for a duration.**  For every double that is not negative and not above `2^63`,
Swift writes a duration with fewer than 10^9 nanoseconds.  It is below the double by less than a
nanosecond and a bit, and above it by less than that bit. -/
theorem C14_duration_written {v : ℚ} (hv : IsDouble v) (h0 : 0 ≤ v) (h1 : ⌊v⌋ ≤ 2 ^ 63) :
    ∃ s n : ℕ, Swift.writeDur v = some (Wire.writeDur s n) ∧ n < 1000000000 ∧ s < 2 ^ 64 ∧
      v * 1000000000 - 1 - 1 / 2 ^ 24 < ((s * 1000000000 + n : ℕ) : ℚ) ∧
      ((s * 1000000000 + n : ℕ) : ℚ) ≤ v * 1000000000 + 1 / 2 ^ 24 := by
  obtain ⟨a, b, c, d⟩ := nanos_of_rest hv h0
  unfold Swift.writeDur
  rw [doubleMax_eq]
  have hf : ¬ ((⌊v⌋ : ℚ) > 2 ^ 63) := by
    have : (⌊v⌋ : ℚ) ≤ ((2 ^ 63 : ℤ) : ℚ) := Int.cast_le.mpr h1
    push_cast at this
    linarith
  rw [if_neg hf, if_neg (not_lt.mpr h0)]
  have hs0 : 0 ≤ ⌊v⌋ := Int.floor_nonneg.mpr h0
  dsimp only
  generalize ⌊rnd (rnd (v - rnd ⌊v⌋) * 1000000000)⌋ = n at *
  rw [if_pos (by omega)]
  refine ⟨⌊v⌋.toNat, n.toNat, ?_, by omega, by omega, ?_, ?_⟩
  · unfold Wire.writeDur
    rw [Int.toNat_of_nonneg hs0, Int.toNat_of_nonneg a]
  all_goals
    have e1 : ((⌊v⌋.toNat : ℕ) : ℚ) = (⌊v⌋ : ℚ) := by
      rw [← Int.cast_natCast, Int.toNat_of_nonneg hs0]
    have e2 : ((n.toNat : ℕ) : ℚ) = (n : ℚ) := by
      rw [← Int.cast_natCast, Int.toNat_of_nonneg a]
    push_cast
    rw [e1, e2]
    linarith

/-- **What Swift refuses to write**: negative numbers and numbers above `2^63`.  The program ends. -/
theorem C14_duration_refused {v : ℚ} (hv : IsDouble v) :
    Swift.writeDur v = none ↔ v < 0 ∨ 2 ^ 63 < ⌊v⌋ := by
  constructor
  · intro h
    by_contra hn
    rw [not_or, not_lt, not_lt] at hn
    obtain ⟨s, n, hw, _⟩ := C14_duration_written hv hn.1 hn.2
    rw [hw] at h
    cases h
  · intro h
    unfold Swift.writeDur
    rw [doubleMax_eq]
    split
    · rfl
    · rename_i h1
      rcases h with h | h
      · rw [if_pos h]
      · exfalso
        apply h1
        have : ((2 ^ 63 : ℤ) : ℚ) < (⌊v⌋ : ℚ) := Int.cast_lt.mpr h
        push_cast at this
        exact this

/-! ## Reading -/

/-- Rounding relative to the size of the number. -/
theorem rnd_rel (x : ℚ) : |rnd x - x| ≤ |x| / 2 ^ 53 := by
  by_cases h0 : x = 0
  · rw [h0, rnd_zero]; simp
  · have h1 := rnd_err x
    have h2 := pow_exponent_le h0
    rw [add_comm, zpow_add₀ (by norm_num), show (2 : ℚ) ^ (52 : ℤ) = 2 ^ 52 by norm_num] at h2
    refine le_trans h1 ?_
    rw [le_div_iff₀ (by norm_num)]
    linarith

theorem readDur_eq {s n : ℕ} (rest : Bytes) (hs : s < 2 ^ 64) (hn : n < 1000000000) :
    Swift.readDur (Wire.writeDur s n ++ rest)
      = .ok (rnd (rnd (s : ℚ) + rnd ((n : ℚ) / 1000000000))) rest := by
  unfold Swift.readDur Wire.writeDur
  rw [List.append_assoc, readInt_writeInt (inRange_u64 hs)]
  simp only [Res.bind_ok, readInt_writeInt (inRange_u32 (show n < 2 ^ 32 by omega))]
  have : rnd ((n : ℤ) : ℚ) = ((n : ℤ) : ℚ) := rnd_int (by rw [abs_of_nonneg (by omega)]; omega)
  rw [this]
  simp only [Int.cast_natCast]

/-- **Every duration is read, to 51 bits.** -/
theorem C14_duration_read {s n : ℕ} (rest : Bytes) (hs : s < 2 ^ 64) (hn : n < 1000000000) :
    ∃ v, Swift.readDur (Wire.writeDur s n ++ rest) = .ok v rest ∧ IsDouble v ∧ 0 ≤ v ∧
      |v - (s + n / 1000000000)| ≤ (s + n / 1000000000 : ℚ) / 2 ^ 51 := by
  refine ⟨_, readDur_eq rest hs hn, rnd_isDouble _, ?_, ?_⟩
  · exact rnd_nonneg (add_nonneg (rnd_nonneg (by positivity)) (rnd_nonneg (by positivity)))
  · have hs0 : (0 : ℚ) ≤ s := by positivity
    have hf0 : (0 : ℚ) ≤ n / 1000000000 := by positivity
    generalize (n : ℚ) / 1000000000 = f at *
    have h1 := rnd_rel (s : ℚ)
    have h2 := rnd_rel f
    have r1 := rnd_nonneg hs0
    have r2 := rnd_nonneg hf0
    have h3 := rnd_rel (rnd (s : ℚ) + rnd f)
    rw [abs_of_nonneg hs0, abs_le] at h1
    rw [abs_of_nonneg hf0, abs_le] at h2
    rw [abs_of_nonneg (add_nonneg r1 r2), abs_le] at h3
    generalize rnd (rnd (s : ℚ) + rnd f) = v at *
    generalize rnd (s : ℚ) = a at *
    generalize rnd f = b at *
    generalize (s : ℚ) = s at *
    rw [abs_le]
    have e1 : s / 2 ^ 53 = s * (1 / 2 ^ 53) := by ring
    constructor <;> linarith [h1.1, h1.2, h2.1, h2.2, h3.1, h3.2]

/-- Reading of durations below `2^k` seconds. -/
theorem read_below {s n k : ℕ} (hk : k ≤ 53) (hs : s < 2 ^ k) (hn : n < 1000000000) :
    |rnd (rnd (s : ℚ) + rnd ((n : ℚ) / 1000000000)) - (s + n / 1000000000)|
      ≤ 2 ^ ((k : ℤ) - 54) + 1 / 2 ^ 54 := by
  have hs53 : s < 2 ^ 53 := lt_of_lt_of_le hs (Nat.pow_le_pow_right (by norm_num) hk)
  have e1 : rnd (s : ℚ) = s := by
    have := rnd_int (m := (s : ℤ)) (by rw [abs_of_nonneg (by omega)]; omega)
    simpa using this
  rw [e1]
  have hf0 : (0 : ℚ) ≤ n / 1000000000 := by positivity
  have hf1 : (n : ℚ) / 1000000000 ≤ 1 := by
    rw [div_le_one (by norm_num)]
    have : n ≤ 1000000000 := le_of_lt hn
    exact_mod_cast this
  have hs0 : (0 : ℚ) ≤ s := by positivity
  generalize (n : ℚ) / 1000000000 = f at *
  have h2 := rnd_err_pow (x := f) (k := 0) (by rw [abs_of_nonneg hf0]; simpa using hf1)
  rw [show (2 : ℚ) ^ ((0 : ℤ) - 54) = 1 / 2 ^ 54 by norm_num] at h2
  have r2 := rnd_nonneg hf0
  have r3 : rnd f ≤ 1 := rnd_le ⟨1, 0, by norm_num, by norm_num⟩ hf1
  have hle : |(s : ℚ) + rnd f| ≤ 2 ^ (k : ℤ) := by
    rw [abs_of_nonneg (add_nonneg hs0 r2), zpow_natCast]
    have : (s : ℚ) + 1 ≤ 2 ^ k := by exact_mod_cast hs
    linarith
  have h3 := rnd_err_pow hle
  rw [abs_le] at *
  constructor <;> linarith [h2.1, h2.2, h3.1, h3.2]

/-- **A duration of less than 48 days comes back, or a nanosecond less.**  Swift reads what Rust sent and
writes it back: Rust gets the same duration or one that is shorter by a nanosecond. -/
theorem C14_duration_round_trip {s n : ℕ} (rest rest' : Bytes) (hs : s < 2 ^ 22) (hn : n < 1000000000) :
    ∃ v p s' n', Swift.readDur (Wire.writeDur s n ++ rest) = .ok v rest ∧
      Swift.writeDur v = some p ∧ Wire.readDur (p ++ rest') = .ok (.dur s' n') rest' ∧
      (s' * 1000000000 + n' = s * 1000000000 + n ∨
        s' * 1000000000 + n' + 1 = s * 1000000000 + n) := by
  have hr := readDur_eq rest (show s < 2 ^ 64 by omega) hn
  have hb := read_below (k := 22) (by norm_num) hs hn
  have hd := rnd_isDouble (rnd (s : ℚ) + rnd ((n : ℚ) / 1000000000))
  have h0 : 0 ≤ rnd (rnd (s : ℚ) + rnd ((n : ℚ) / 1000000000)) :=
    rnd_nonneg (add_nonneg (rnd_nonneg (by positivity)) (rnd_nonneg (by positivity)))
  generalize rnd (rnd (s : ℚ) + rnd ((n : ℚ) / 1000000000)) = v at *
  rw [show (2 : ℚ) ^ (((22 : ℕ) : ℤ) - 54) = 1 / 2 ^ 32 by norm_num, abs_le] at hb
  have hs' : (s : ℚ) ≤ 4194304 := by
    have : s ≤ 4194304 := by omega
    exact_mod_cast this
  have hn1 : (n : ℚ) ≤ 1000000000 := by
    have : n ≤ 1000000000 := by omega
    exact_mod_cast this
  have hfl : ⌊v⌋ ≤ 2 ^ 63 := by
    have h1 : v ≤ 4194306 := by linarith [hb.2]
    have h2 : (⌊v⌋ : ℚ) ≤ ((4194306 : ℤ) : ℚ) := le_trans (Int.floor_le v) (by push_cast; exact h1)
    have h3 : ⌊v⌋ ≤ 4194306 := Int.cast_le.mp h2
    omega
  obtain ⟨s', n', hw, hn', hs64, hlo, hhi⟩ := C14_duration_written hd h0 hfl
  refine ⟨v, _, s', n', hr, hw, readDur_writeDur hs64 hn' rest', ?_⟩
  have e : ((s * 1000000000 + n : ℕ) : ℚ) = (s + n / 1000000000) * 1000000000 := by
    push_cast; ring
  have l1 : ((s * 1000000000 + n : ℕ) : ℚ) < ((s' * 1000000000 + n' + 2 : ℕ) : ℚ) := by
    have : ((s' * 1000000000 + n' + 2 : ℕ) : ℚ) = ((s' * 1000000000 + n' : ℕ) : ℚ) + 2 := by push_cast; ring
    rw [e, this]
    linarith [hb.1]
  have l2 : ((s' * 1000000000 + n' : ℕ) : ℚ) < ((s * 1000000000 + n + 1 : ℕ) : ℚ) := by
    have : ((s * 1000000000 + n + 1 : ℕ) : ℚ) = ((s * 1000000000 + n : ℕ) : ℚ) + 1 := by push_cast; ring
    rw [this, e]
    linarith [hb.2]
  have l1' : s * 1000000000 + n < s' * 1000000000 + n' + 2 := Nat.cast_lt.mp l1
  have l2' : s' * 1000000000 + n' < s * 1000000000 + n + 1 := Nat.cast_lt.mp l2
  omega

-- 1 h 30 min 0.5 s
example : ∃ v p s' n', Swift.readDur (Wire.writeDur 5400 500000000 ++ [1]) = .ok v [1] ∧
    Swift.writeDur v = some p ∧ Wire.readDur (p ++ [2]) = .ok (.dur s' n') [2] ∧
    (s' * 1000000000 + n' = 5400 * 1000000000 + 500000000 ∨
      s' * 1000000000 + n' + 1 = 5400 * 1000000000 + 500000000) :=
  C14_duration_round_trip [1] [2] (by norm_num) (by norm_num)

example : ∃ s n : ℕ, Swift.writeDur (3 / 4) = some (Wire.writeDur s n) ∧ n < 1000000000 ∧ s < 2 ^ 64 ∧
    (3 / 4 : ℚ) * 1000000000 - 1 - 1 / 2 ^ 24 < ((s * 1000000000 + n : ℕ) : ℚ) ∧
    ((s * 1000000000 + n : ℕ) : ℚ) ≤ (3 / 4 : ℚ) * 1000000000 + 1 / 2 ^ 24 :=
  C14_duration_written ⟨3, -2, by norm_num, by norm_num⟩ (by norm_num)
    (by rw [show ⌊(3 / 4 : ℚ)⌋ = 0 by rw [Int.floor_eq_iff]; norm_num]; norm_num)

/-- Swift reads `bs` as a duration and writes it back. -/
def durBack (bs : Bytes) : Option Bytes :=
  match Swift.readDur bs with
  | .ok v _ => Swift.writeDur v
  | _ => none

/-- A second and two nanoseconds come back as a second and one nanosecond. -/
theorem C14_duration_broken : durBack (Wire.writeDur 1 2) = some (Wire.writeDur 1 1) := by
  decide +kernel

/-- Even a duration of less than a second can lose a nanosecond. -/
theorem C14_duration_small_broken : durBack (Wire.writeDur 0 15) = some (Wire.writeDur 0 14) := by
  decide +kernel

/-- The longest durations of Rust are read, and end the program when they are written back. -/
theorem C14_duration_long_broken : durBack (Wire.writeDur (2 ^ 64 - 1) 0) = none ∧
    ∃ v, Swift.readDur (Wire.writeDur (2 ^ 64 - 1) 0) = .ok v [] := by
  refine ⟨by decide +kernel, ?_⟩
  obtain ⟨v, hv, _⟩ := C14_duration_read [] (show 2 ^ 64 - 1 < 2 ^ 64 by norm_num) (show 0 < 1000000000 by norm_num)
  exact ⟨v, by simpa using hv⟩

/-! ## Instants -/

theorem time_written {d : ℚ} {k : ℕ} (hk : k ≤ 62) (hd : |d + Swift.epochShift| ≤ 2 ^ k) :
    ∃ ns : ℤ, ∃ p, Swift.writeTime d = some p ∧ Wire.writeTime ns = some p ∧
      |(ns : ℚ) - (d + Swift.epochShift) * 1000000000|
        ≤ 1 + 1 / 2 ^ 24 + 2 ^ ((k : ℤ) - 54) * 1000000000 ∧
      (0 ≤ rnd (d + Swift.epochShift) → 0 ≤ ns) ∧
      (rnd (d + Swift.epochShift) ≤ -1 → ns ≤ -1000000000) := by
  have he := rnd_err_pow (x := d + Swift.epochShift) (k := k) (by rw [zpow_natCast]; exact hd)
  have hD := rnd_isDouble (d + Swift.epochShift)
  have h2k : IsDouble ((2 : ℚ) ^ k) := ⟨1, k, by norm_num, by rw [zpow_natCast]; norm_num⟩
  have hup : rnd (d + Swift.epochShift) ≤ 2 ^ k := rnd_le h2k (le_trans (le_abs_self _) hd)
  have hdown : -(2 ^ k) ≤ rnd (d + Swift.epochShift) :=
    le_rnd (isDouble_neg h2k) (by have := neg_abs_le (d + Swift.epochShift); linarith)
  generalize hx : rnd (d + Swift.epochShift) = x at *
  generalize hy : d + Swift.epochShift = y at *
  -- the absolute value, its parts, and the sign
  have hA : IsDouble (if x < 0 then -x else x) := by split <;> [exact isDouble_neg hD; exact hD]
  have hA0 : 0 ≤ (if x < 0 then -x else x) := by split <;> linarith
  have hAk : (if x < 0 then -x else x) ≤ 2 ^ k := by split <;> linarith
  have hxA : x = (if x < 0 then (-1 : ℚ) else 1) * (if x < 0 then -x else x) := by
    split <;> ring
  unfold Swift.writeTime
  simp only [hy, hx, doubleMax_eq]
  generalize hAd : (if x < 0 then -x else x) = A at *
  obtain ⟨a, b, c, e⟩ := nanos_of_rest hA hA0
  have hs0 : 0 ≤ ⌊A⌋ := Int.floor_nonneg.mpr hA0
  have h62 : (2 : ℚ) ^ k ≤ 2 ^ 62 := pow_le_pow_right₀ (by norm_num) hk
  have hfl : ⌊A⌋ ≤ 2 ^ 62 := by
    have h1 : (⌊A⌋ : ℚ) ≤ ((2 ^ 62 : ℤ) : ℚ) := by
      refine le_trans (Int.floor_le A) ?_
      push_cast; linarith
    exact Int.cast_le.mp h1
  have hf : ¬ ((⌊A⌋ : ℚ) > 2 ^ 63) := by
    have : (⌊A⌋ : ℚ) ≤ ((2 ^ 62 : ℤ) : ℚ) := Int.cast_le.mpr hfl
    push_cast at this
    have h2 : (2 : ℚ) ^ 62 ≤ 2 ^ 63 := by norm_num
    linarith
  rw [if_neg hf]
  have hAfl := Int.floor_le A
  have hAfl' := Int.lt_floor_add_one A
  generalize ⌊rnd (rnd (A - rnd ⌊A⌋) * 1000000000)⌋ = n at *
  rw [if_pos (by omega)]
  refine ⟨(if x < 0 then -1 else 1) * (⌊A⌋ * 1000000000 + n), _, rfl, ?_, ?_, ?_, ?_⟩
  · rw [writeTime_eq_some]
    have habs : ((if x < 0 then (-1 : ℤ) else 1) * (⌊A⌋ * 1000000000 + n)).natAbs
        = (⌊A⌋ * 1000000000 + n).toNat := by
      split <;> omega
    rw [habs]
    refine ⟨by omega, ?_⟩
    have h1 : (((⌊A⌋ * 1000000000 + n).toNat / 1000000000 : ℕ) : ℤ) = ⌊A⌋ := by omega
    have h2 : (((⌊A⌋ * 1000000000 + n).toNat % 1000000000 : ℕ) : ℤ) = n := by omega
    rw [h1, h2]
    congr 1
    -- the sign of the number and of the nanoseconds
    congr 1
    by_cases hlt : x < 0
    · rw [if_pos hlt]
      by_cases hz : 0 ≤ -1 * (⌊A⌋ * 1000000000 + n)
      · rw [if_pos hz]
        have : ⌊A⌋ = 0 := by omega
        rw [this]; rfl
      · rw [if_neg hz]
    · rw [if_neg hlt, if_pos (by omega)]
  · have hn : |(⌊A⌋ : ℚ) * 1000000000 + n - A * 1000000000| ≤ 1 + 1 / 2 ^ 24 := by
      rw [abs_le]; constructor <;> linarith
    have e1 : (((if x < 0 then (-1 : ℤ) else 1) * (⌊A⌋ * 1000000000 + n) : ℤ) : ℚ) - y * 1000000000
        = (if x < 0 then (-1 : ℚ) else 1) * ((⌊A⌋ : ℚ) * 1000000000 + n - A * 1000000000)
          + (x - y) * 1000000000 := by
      by_cases hlt : x < 0
      · rw [if_pos hlt] at hxA ⊢
        rw [if_pos hlt]
        rw [hxA]; push_cast; ring
      · rw [if_neg hlt] at hxA ⊢
        rw [if_neg hlt]
        rw [hxA]; push_cast; ring
    rw [e1]
    refine le_trans (abs_add_le _ _) ?_
    have h3 : |(if x < 0 then (-1 : ℚ) else 1) * ((⌊A⌋ : ℚ) * 1000000000 + n - A * 1000000000)|
        = |(⌊A⌋ : ℚ) * 1000000000 + n - A * 1000000000| := by
      split
      · rw [neg_one_mul, abs_neg]
      · rw [one_mul]
    rw [h3, abs_mul, abs_of_pos (show (0 : ℚ) < 1000000000 by norm_num)]
    have := mul_le_mul_of_nonneg_right he (show (0 : ℚ) ≤ 1000000000 by norm_num)
    linarith
  · intro h
    rw [if_neg (not_lt.mpr h)]; omega
  · intro h
    have hlt : x < 0 := by linarith
    rw [if_pos hlt]
    rw [if_pos hlt] at hAd
    have h1 : 1 ≤ ⌊A⌋ := by
      rw [Int.le_floor]; push_cast; linarith
    omega

/-- **What Swift writes for an instant.**  For every double and every shift below `2^k` seconds from
1970, Swift writes what Rust would write for an instant that is off by what adding the shift costs, and
at most a nanosecond and a bit towards 1970. -/
theorem C14_time_written {d : ℚ} {k : ℕ} (hk : k ≤ 62) (hd : |d + 978307200| ≤ 2 ^ k) :
    ∃ ns : ℤ, ∃ p, Swift.writeTime d = some p ∧ Wire.writeTime ns = some p ∧
      |(ns : ℚ) - (d + 978307200) * 1000000000|
        ≤ 1 + 1 / 2 ^ 24 + 2 ^ ((k : ℤ) - 54) * 1000000000 ∧
      (0 ≤ rnd (d + 978307200) → 0 ≤ ns) ∧
      (rnd (d + 978307200) ≤ -1 → ns ≤ -1000000000) := time_written hk hd

theorem epochShift_eq : Swift.epochShift = ((978307200 : ℤ) : ℚ) := by
  unfold Swift.epochShift; norm_num

theorem time_read {ns : ℤ} {p : Bytes} {k : ℕ} (rest : Bytes) (hp : Wire.writeTime ns = some p)
    (hm : ¬(-1000000000 < ns ∧ ns < 0)) (hk1 : 30 ≤ k) (hk2 : k ≤ 52)
    (hns : |ns| < 2 ^ k * 1000000000) :
    ∃ d, Swift.readTime (p ++ rest) = .ok d rest ∧ IsDouble d ∧
      |d + Swift.epochShift - ns / 1000000000| ≤ 2 ^ ((k : ℤ) - 53) + 1 / 2 ^ 54 ∧
      (0 ≤ ns → -Swift.epochShift ≤ d) ∧ (ns ≤ -1000000000 → d ≤ -Swift.epochShift - 1) := by
  obtain ⟨sec, n, rfl, hr, hn, hn2, hsec⟩ := writeTime_parts hp
  have h30 : (2 : ℤ) ^ 30 ≤ 2 ^ k := pow_le_pow_right₀ (by norm_num) hk1
  have h52 : (2 : ℤ) ^ k ≤ 2 ^ 52 := pow_le_pow_right₀ (by norm_num) hk2
  have hks : |sec| + 1 ≤ 2 ^ k := by
    generalize (2 : ℤ) ^ k = K at *
    rw [abs_lt] at hns
    have : (ns.natAbs / 1000000000 : ℕ) < K := by omega
    rw [hsec]
    split
    · rw [one_mul, abs_of_nonneg (by omega)]; omega
    · rw [neg_one_mul, abs_neg, abs_of_nonneg (by omega)]; omega
  rw [← Int.lt_iff_add_one_le, abs_lt] at hks
  -- the seconds are exact
  have e1 : rnd (sec : ℚ) = sec := rnd_int (by rw [abs_le]; constructor <;> omega)
  have e2 : Swift.since1970 (rnd (sec : ℚ)) = ((sec - 978307200 : ℤ) : ℚ) := by
    unfold Swift.since1970
    rw [e1, epochShift_eq, ← Int.cast_sub]
    exact rnd_int (by rw [abs_le]; constructor <;> omega)
  have e3 : rnd ((n : ℤ) : ℚ) = ((n : ℤ) : ℚ) := rnd_int (by rw [abs_of_nonneg (by omega)]; omega)
  have hf1 : |(n : ℚ) / 1000000000| ≤ 1 := by
    rw [abs_of_nonneg (by positivity), div_le_one (by norm_num)]
    have : n ≤ 1000000000 := by omega
    exact_mod_cast this
  have hf0 : 0 ≤ (n : ℚ) / 1000000000 := by positivity
  have hone : IsDouble 1 := ⟨1, 0, by norm_num, by norm_num⟩
  have key : ∀ f : ℚ, |f| ≤ 1 → (ns : ℚ) / 1000000000 = sec + f →
      |rnd (((sec - 978307200 : ℤ) : ℚ) + rnd f) + Swift.epochShift - ns / 1000000000|
        ≤ 2 ^ ((k : ℤ) - 53) + 1 / 2 ^ 54 := by
    intro f hf hq
    have h2 := rnd_err_pow (x := f) (k := 0) (by simpa using hf)
    rw [show (2 : ℚ) ^ ((0 : ℤ) - 54) = 1 / 2 ^ 54 by norm_num] at h2
    rw [abs_le] at hf
    have r1 : rnd f ≤ 1 := rnd_le hone hf.2
    have r2 : -1 ≤ rnd f := le_rnd (isDouble_neg hone) hf.1
    have hle : |((sec - 978307200 : ℤ) : ℚ) + rnd f| ≤ 2 ^ ((k : ℤ) + 1) := by
      have hK : (2 : ℚ) ^ ((k : ℤ) + 1) = 2 * ((2 ^ k : ℤ) : ℚ) := by
        rw [zpow_add₀ (by norm_num), zpow_natCast]; push_cast; ring
      have b1 : (sec : ℚ) + 1 ≤ ((2 ^ k : ℤ) : ℚ) := by
        have : sec + 1 ≤ 2 ^ k := by omega
        exact_mod_cast this
      have b2 : -((2 ^ k : ℤ) : ℚ) + 1 ≤ (sec : ℚ) := by
        have : -(2 ^ k) + 1 ≤ sec := by omega
        exact_mod_cast this
      have b3 : (978307200 : ℚ) ≤ ((2 ^ k : ℤ) : ℚ) := by
        have : (978307200 : ℤ) ≤ 2 ^ k := by omega
        exact_mod_cast this
      rw [hK, abs_le]
      push_cast at *
      constructor <;> linarith
    have h3 := rnd_err_pow hle
    rw [show (k : ℤ) + 1 - 54 = (k : ℤ) - 53 by omega] at h3
    rw [hq, epochShift_eq]
    push_cast at *
    rw [abs_le] at *
    constructor <;> linarith [h2.1, h2.2, h3.1, h3.2]
  have i1 : IsDouble (((sec - 978307200 : ℤ)) : ℚ) :=
    isDouble_int (by rw [abs_le]; constructor <;> omega)
  have i2 : IsDouble (-Swift.epochShift) := isDouble_neg (by rw [epochShift_eq]; exact isDouble_int (by norm_num))
  unfold Swift.readTime
  rw [List.append_assoc, readInt_writeInt hr]
  simp only [Res.bind_ok, readInt_writeInt (inRange_u32 (show n < 2 ^ 32 by omega))]
  rw [e2, e3]
  by_cases h0 : 0 ≤ ns
  · rw [if_pos h0, one_mul] at hsec
    have hs0 : 0 ≤ sec := by omega
    rw [if_pos hs0]
    have hq : (ns : ℚ) / 1000000000 = sec + (n : ℚ) / 1000000000 := by
      have : ns = sec * 1000000000 + n := by omega
      rw [this]; push_cast; ring
    refine ⟨_, rfl, rnd_isDouble _, ?_, ?_, ?_⟩
    · have := key _ hf1 hq
      simpa using this
    · intro _
      apply le_rnd i2
      have r0 : 0 ≤ rnd (((n : ℤ) : ℚ) / 1000000000) := rnd_nonneg (by simpa using hf0)
      have : (0 : ℚ) ≤ sec := by exact_mod_cast hs0
      rw [epochShift_eq]; push_cast; push_cast at r0; linarith
    · intro h; omega
  · have hneg : ns ≤ -1000000000 := by omega
    rw [if_neg h0] at hsec
    have hs0 : sec ≤ -1 := by omega
    rw [if_neg (by omega)]
    have hq : (ns : ℚ) / 1000000000 = sec + -((n : ℚ) / 1000000000) := by
      have : ns = sec * 1000000000 - n := by omega
      rw [this]; push_cast; ring
    have e4 : -((n : ℤ) : ℚ) / 1000000000 = -((n : ℚ) / 1000000000) := by push_cast; ring
    rw [e4]
    refine ⟨_, rfl, rnd_isDouble _, ?_, ?_, ?_⟩
    · exact key _ (by rw [abs_neg]; exact hf1) hq
    · intro h; omega
    · intro _
      have i3 : IsDouble (-Swift.epochShift - 1) := by
        rw [epochShift_eq]
        have : -((978307200 : ℤ) : ℚ) - 1 = ((-978307201 : ℤ) : ℚ) := by norm_num
        rw [this]; exact isDouble_int (by norm_num)
      apply rnd_le i3
      have r0 : rnd (-((n : ℚ) / 1000000000)) ≤ 0 := by
        rw [rnd_neg]
        have := rnd_nonneg hf0
        linarith
      have : (sec : ℚ) ≤ -1 := by exact_mod_cast hs0
      rw [epochShift_eq]; push_cast; linarith

/-- **What Swift reads for an instant.**  Every instant within `2^k` seconds of 1970 is read, to half of
the last bit of a double of twice that size. -/
theorem C14_time_read {ns : ℤ} {p : Bytes} {k : ℕ} (rest : Bytes) (hp : Wire.writeTime ns = some p)
    (hm : ¬(-1000000000 < ns ∧ ns < 0)) (hk1 : 30 ≤ k) (hk2 : k ≤ 52)
    (hns : |ns| < 2 ^ k * 1000000000) :
    ∃ d, Swift.readTime (p ++ rest) = .ok d rest ∧ IsDouble d ∧
      |d + 978307200 - ns / 1000000000| ≤ 2 ^ ((k : ℤ) - 53) + 1 / 2 ^ 54 ∧
      (0 ≤ ns → -978307200 ≤ d) ∧ (ns ≤ -1000000000 → d ≤ -978307200 - 1) := time_read rest hp hm hk1 hk2 hns

/-- **Instants between 1834 and 2106 come back to the microsecond.**  Swift reads an instant that Rust
sent and writes it back; Rust gets an instant that is less than a microsecond away.  Instants in the
second before 1970 are left out, as they are mirrored by Rust (C05). -/
theorem C14_time_round_trip {ns : ℤ} {p : Bytes} (rest rest' : Bytes) (hp : Wire.writeTime ns = some p)
    (hm : ¬(-1000000000 < ns ∧ ns < 0)) (hns : |ns| < 2 ^ 32 * 1000000000) :
    ∃ d p' ns', Swift.readTime (p ++ rest) = .ok d rest ∧ Swift.writeTime d = some p' ∧
      Wire.readTime (p' ++ rest') = .ok (.time ns') rest' ∧ |ns' - ns| < 1000 := by
  obtain ⟨d, hr, hd, herr, hpos, hneg⟩ := time_read rest hp hm (k := 32) (by norm_num) (by norm_num) hns
  rw [show (2 : ℚ) ^ (((32 : ℕ) : ℤ) - 53) = 1 / 2 ^ 21 by norm_num] at herr
  have hb : |(ns : ℚ) / 1000000000| ≤ 4294967296 := by
    rw [abs_div, abs_of_pos (show (0 : ℚ) < 1000000000 by norm_num), div_le_iff₀ (by norm_num)]
    have h1 : ((|ns| : ℤ) : ℚ) ≤ ((2 ^ 32 * 1000000000 : ℤ) : ℚ) := Int.cast_le.mpr (le_of_lt hns)
    rw [Int.cast_abs] at h1
    refine le_trans h1 ?_
    norm_num
  have hdk : |d + Swift.epochShift| ≤ 2 ^ 33 := by
    rw [abs_le] at *
    constructor <;> linarith [herr.1, herr.2, hb.1, hb.2]
  obtain ⟨ns', p', hw, hw', herr', hp', hn'⟩ := time_written (k := 33) (by norm_num) hdk
  rw [show (2 : ℚ) ^ (((33 : ℕ) : ℤ) - 54) = 1 / 2 ^ 21 by norm_num] at herr'
  have hm' : ¬(-1000000000 < ns' ∧ ns' < 0) := by
    by_cases h0 : 0 ≤ ns
    · have := hp' (rnd_nonneg (by linarith [hpos h0]))
      omega
    · have h1 : ns ≤ -1000000000 := by omega
      have := hn' (rnd_le ⟨-1, 0, by norm_num, by norm_num⟩ (by linarith [hneg h1]))
      omega
  refine ⟨d, p', ns', hr, hw, ?_, ?_⟩
  · rw [readTime_writeTime hw' rest', if_neg hm']
  · have : |(ns' : ℚ) - ns| < 1000 := by
      rw [abs_le] at herr herr'
      rw [abs_lt]
      constructor <;> linarith [herr.1, herr.2, herr'.1, herr'.2]
    rw [← Int.cast_sub, ← Int.cast_abs] at this
    exact_mod_cast this

-- an instant in 2025
example : ∃ p, Wire.writeTime 1760000000123456789 = some p ∧
    ∃ d p' ns', Swift.readTime (p ++ [1]) = .ok d [1] ∧ Swift.writeTime d = some p' ∧
      Wire.readTime (p' ++ [2]) = .ok (.time ns') [2] ∧ |ns' - 1760000000123456789| < 1000 :=
  ⟨_, rfl, C14_time_round_trip [1] [2] rfl (by norm_num) (by norm_num)⟩

/-- Swift reads `bs` as an instant and writes it back. -/
def timeBack (bs : Bytes) : Option Bytes :=
  match Swift.readTime bs with
  | .ok v _ => Swift.writeTime v
  | _ => none

/-- An instant in 2025 comes back 165 nanoseconds later. -/
theorem C14_time_broken :
    Wire.writeTime 1760000000123456789 = some [0, 0, 0, 0, 104, 231, 120, 0, 7, 91, 205, 21] ∧
    timeBack [0, 0, 0, 0, 104, 231, 120, 0, 7, 91, 205, 21] =
      some [0, 0, 0, 0, 104, 231, 120, 0, 7, 91, 205, 186] ∧
    Wire.readTime [0, 0, 0, 0, 104, 231, 120, 0, 7, 91, 205, 186] =
      .ok (.time (1760000000123456789 + 165)) [] := by
  refine ⟨by decide +kernel, by decide +kernel, ?_⟩
  exact readTime_writeTime (ns := 1760000000123456954) (p := [0, 0, 0, 0, 104, 231, 120, 0, 7, 91, 205, 186]) (by decide +kernel) []

/-- Half a second before 1970 in Swift is half a second after 1970 in Rust: as in Rust, the sign of the
seconds is lost when there are none. -/
theorem C14_time_mirrored_broken :
    ∃ p, Swift.writeTime (-978307200 - 1 / 2) = some p ∧
      Wire.readTime p = .ok (.time 500000000) [] :=
  ⟨[0, 0, 0, 0, 0, 0, 0, 0, 29, 205, 101, 0], by decide +kernel, by decide +kernel⟩

end Verif.Props.SwiftTime
