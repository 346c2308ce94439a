import Mathlib.Data.Int.Log
import Mathlib.Data.Rat.Floor
import Mathlib.Tactic.Linarith
import Mathlib.Tactic.Positivity
import Mathlib.Tactic.NormNum
import Mathlib.Tactic.FieldSimp
import Mathlib.Tactic.Ring

/-!
# Doubles

Binary floating point numbers with 53 bits of precision, as rational numbers, and rounding to the
nearest of them with ties to even (IEEE 754, `binary64`, `roundTiesToEven`).  Exponents are not bounded:
overflow, subnormal numbers, infinities, NaN and the sign of zero are left out.  The times of Swift do
not come near the bounds.
-/

namespace Verif.Wire.Double

/-- The weight of the last of the 53 bits of a number of the size of `x`. -/
def exponent (x : ℚ) : ℤ := Int.log 2 |x| - 52

/-- The nearest integer, the even one of two. -/
def nearestEven (y : ℚ) : ℤ :=
  if y - ⌊y⌋ < 1 / 2 then ⌊y⌋
  else if 1 / 2 < y - ⌊y⌋ then ⌊y⌋ + 1
  else if ⌊y⌋ % 2 = 0 then ⌊y⌋ else ⌊y⌋ + 1

/-- The nearest double. -/
def rnd (x : ℚ) : ℚ := nearestEven (x / 2 ^ exponent x) * 2 ^ exponent x

/-- A number with 53 bits. -/
def IsDouble (x : ℚ) : Prop := ∃ m e : ℤ, |m| ≤ 2 ^ 53 ∧ x = m * 2 ^ e

/-! ## The nearest integer -/

theorem nearestEven_err (y : ℚ) : |(nearestEven y : ℚ) - y| ≤ 1 / 2 := by
  have h0 : (⌊y⌋ : ℚ) ≤ y := Int.floor_le y
  have h1 : y < ⌊y⌋ + 1 := Int.lt_floor_add_one y
  unfold nearestEven
  split
  · rw [abs_le]; constructor <;> linarith
  · split
    · push_cast; rw [abs_le]; constructor <;> linarith
    · split
      · rw [abs_le]; constructor <;> linarith
      · push_cast; rw [abs_le]; constructor <;> linarith

theorem nearestEven_int (m : ℤ) : nearestEven (m : ℚ) = m := by
  unfold nearestEven
  simp

/-- An integer that is closer than one half is the nearest. -/
theorem nearestEven_unique (y : ℚ) (m : ℤ) (h : |(m : ℚ) - y| < 1 / 2) : nearestEven y = m := by
  have he := nearestEven_err y
  rw [abs_le] at he
  rw [abs_lt] at h
  have h1 : ((nearestEven y : ℚ)) < m + 1 := by linarith [he.2, h.1]
  have h2 : (m : ℚ) < nearestEven y + 1 := by linarith [he.1, h.2]
  have h1' : nearestEven y < m + 1 := by exact_mod_cast h1
  have h2' : m < nearestEven y + 1 := by exact_mod_cast h2
  omega

/-- Rounding does not pass an integer. -/
theorem nearestEven_le (y : ℚ) (m : ℤ) (h : y ≤ m) : nearestEven y ≤ m := by
  have he := nearestEven_err y
  rw [abs_le] at he
  by_cases h' : y = m
  · rw [h', nearestEven_int]
  · have hlt : y < m := lt_of_le_of_ne h h'
    have h1 : ((nearestEven y : ℚ)) < m + 1 := by linarith [he.2]
    have : nearestEven y < m + 1 := by exact_mod_cast h1
    omega

theorem le_nearestEven (y : ℚ) (m : ℤ) (h : (m : ℚ) ≤ y) : m ≤ nearestEven y := by
  have he := nearestEven_err y
  rw [abs_le] at he
  have h1 : (m : ℚ) < nearestEven y + 1 := by linarith [he.1]
  have : m < nearestEven y + 1 := by exact_mod_cast h1
  omega

/-! ## Rounding -/

theorem two_zpow_pos (e : ℤ) : (0 : ℚ) < 2 ^ e := zpow_pos (by norm_num) e

theorem pow_exponent_le {x : ℚ} (hx : x ≠ 0) : (2 : ℚ) ^ (exponent x + 52) ≤ |x| := by
  have h := Int.zpow_log_le_self (b := 2) (by norm_num) (abs_pos.mpr hx)
  unfold exponent
  simpa using h

theorem lt_pow_exponent (x : ℚ) : |x| < (2 : ℚ) ^ (exponent x + 53) := by
  have h := Int.lt_zpow_succ_log_self (b := 2) (by norm_num) |x|
  unfold exponent
  have : Int.log 2 |x| - 52 + 53 = Int.log 2 |x| + 1 := by omega
  rw [this]
  simpa using h

theorem exponent_le {x : ℚ} {k : ℤ} (hx : x ≠ 0) (h : |x| < 2 ^ k) : exponent x ≤ k - 53 := by
  have h1 := pow_exponent_le hx
  have h2 : (2 : ℚ) ^ (exponent x + 52) < 2 ^ k := lt_of_le_of_lt h1 h
  have h3 := (zpow_lt_zpow_iff_right₀ (by norm_num : (1 : ℚ) < 2)).mp h2
  omega

/-- Rounding is wrong by at most half of the last bit. -/
theorem rnd_err (x : ℚ) : |rnd x - x| ≤ 2 ^ exponent x / 2 := by
  have hp := two_zpow_pos (exponent x)
  have he := nearestEven_err (x / 2 ^ exponent x)
  have : rnd x - x = (nearestEven (x / 2 ^ exponent x) - x / 2 ^ exponent x) * 2 ^ exponent x := by
    unfold rnd
    field_simp
  rw [this, abs_mul, abs_of_pos hp]
  nlinarith

theorem rnd_zero : rnd 0 = 0 := by
  unfold rnd
  have : nearestEven (0 / 2 ^ exponent 0) = 0 := by
    rw [zero_div]
    exact_mod_cast nearestEven_int 0
  rw [this]; simp

/-- Doubles are multiples of the last bit of their size. -/
theorem canonical {x : ℚ} (h : IsDouble x) : ∃ m : ℤ, x = m * 2 ^ exponent x := by
  obtain ⟨m, e, hm, hx⟩ := h
  by_cases h0 : x = 0
  · exact ⟨0, by rw [h0]; simp⟩
  by_cases he : exponent x ≤ e
  · obtain ⟨d, hd⟩ : ∃ d : ℕ, e = exponent x + d := ⟨(e - exponent x).toNat, by omega⟩
    refine ⟨m * 2 ^ d, ?_⟩
    conv_lhs => rw [hx, hd]
    rw [zpow_add₀ (by norm_num)]
    push_cast
    rw [zpow_natCast]
    ring
  · have h1 := pow_exponent_le h0
    have hm' : |(m : ℚ)| ≤ 2 ^ (53 : ℤ) := by
      have : ((|m| : ℤ) : ℚ) ≤ ((2 ^ 53 : ℤ) : ℚ) := Int.cast_le.mpr hm
      rw [Int.cast_abs] at this
      refine le_trans this ?_
      norm_num
    have h2 : |x| ≤ 2 ^ (53 + e : ℤ) := by
      rw [hx, abs_mul, abs_of_pos (two_zpow_pos e), zpow_add₀ (by norm_num)]
      exact mul_le_mul_of_nonneg_right hm' (le_of_lt (two_zpow_pos e))
    have h3 : (2 : ℚ) ^ (exponent x + 52) ≤ 2 ^ (53 + e : ℤ) := le_trans h1 h2
    have h4 := (zpow_le_zpow_iff_right₀ (by norm_num : (1 : ℚ) < 2)).mp h3
    have h5 : 53 + e = exponent x + 52 := by omega
    have h6 : |x| = 2 ^ (exponent x + 52) := by
      apply le_antisymm
      · rw [← h5]; exact h2
      · exact h1
    have h7 : (2 : ℚ) ^ (exponent x + 52) = 2 ^ 52 * 2 ^ exponent x := by
      rw [add_comm, zpow_add₀ (by norm_num)]; norm_num
    rcases abs_choice x with hs | hs
    · exact ⟨2 ^ 52, by rw [hs] at h6; conv_lhs => rw [h6, h7]
                        push_cast; ring⟩
    · refine ⟨-2 ^ 52, ?_⟩
      rw [hs] at h6
      have : x = -(2 ^ (exponent x + 52)) := by linarith
      conv_lhs => rw [this, h7]
      push_cast; ring

/-- Doubles stay as they are. -/
theorem rnd_exact {x : ℚ} (h : IsDouble x) : rnd x = x := by
  obtain ⟨m, hm⟩ := canonical h
  have hp := two_zpow_pos (exponent x)
  have : x / 2 ^ exponent x = m := by
    rw [div_eq_iff (ne_of_gt hp)]; exact hm
  unfold rnd
  rw [this, nearestEven_int]
  exact hm.symm

/-- What is rounded is a double. -/
theorem rnd_isDouble (x : ℚ) : IsDouble (rnd x) := by
  refine ⟨nearestEven (x / 2 ^ exponent x), exponent x, ?_, rfl⟩
  have hp := two_zpow_pos (exponent x)
  have h := lt_pow_exponent x
  rw [add_comm, zpow_add₀ (by norm_num)] at h
  have h' : |x / 2 ^ exponent x| < 2 ^ 53 := by
    rw [abs_div, abs_of_pos hp, div_lt_iff₀ hp]
    exact_mod_cast h
  rw [abs_lt] at h'
  rw [abs_le]
  constructor
  · apply le_nearestEven
    push_cast; linarith [h'.1]
  · apply nearestEven_le
    push_cast; linarith [h'.2]

/-- Rounding does not pass a double. -/
theorem rnd_le {x d : ℚ} (hd : IsDouble d) (h : x ≤ d) : rnd x ≤ d := by
  by_cases hxd : rnd x ≤ d
  · exact hxd
  exfalso
  have hgt : d < rnd x := not_le.mp hxd
  -- `d` is a multiple of the last bit of `x`, or of a smaller one
  obtain ⟨m, hm⟩ := canonical hd
  have hpx := two_zpow_pos (exponent x)
  have hr : rnd x = nearestEven (x / 2 ^ exponent x) * 2 ^ exponent x := rfl
  by_cases he : exponent x ≤ exponent d
  · obtain ⟨j, hj⟩ : ∃ j : ℕ, exponent d = exponent x + j := ⟨(exponent d - exponent x).toNat, by omega⟩
    have hd' : d = ((m * 2 ^ j : ℤ) : ℚ) * 2 ^ exponent x := by
      conv_lhs => rw [hm, hj]
      rw [zpow_add₀ (by norm_num), zpow_natCast]; push_cast; ring
    have h1 : x / 2 ^ exponent x ≤ ((m * 2 ^ j : ℤ) : ℚ) := by
      rw [div_le_iff₀ hpx, ← hd']; exact h
    have h2 := nearestEven_le _ _ h1
    have h3 : (nearestEven (x / 2 ^ exponent x) : ℚ) ≤ ((m * 2 ^ j : ℤ) : ℚ) := by exact_mod_cast h2
    have h4 : rnd x ≤ d := by
      rw [hr, hd']
      exact mul_le_mul_of_nonneg_right h3 (le_of_lt hpx)
    exact hxd h4
  · -- `|d| < 2 ^ (exponent d + 53) ≤ 2 ^ (exponent x + 52) ≤ |x|`, so `x` is negative
    have hlt : |d| < 2 ^ (exponent x + 52) := by
      refine lt_of_lt_of_le (lt_pow_exponent d) ?_
      exact zpow_le_zpow_right₀ (by norm_num) (by omega)
    have hx0 : x ≠ 0 := by
      intro hx
      have : exponent (0 : ℚ) ≤ exponent d := by
        by_cases hd0 : d = 0
        · rw [hd0]
        · exfalso
          rw [hx, rnd_zero] at hgt
          rw [hx] at h
          linarith
      rw [hx] at he
      exact he this
    have hxp := pow_exponent_le hx0
    have hneg : x < 0 := by
      by_contra hn
      have hn' : 0 ≤ x := not_lt.mp hn
      rw [abs_of_nonneg hn'] at hxp
      have := le_abs_self d
      linarith
    rw [abs_of_neg hneg] at hxp
    -- rounding keeps it at or below `-2 ^ (exponent x + 52)`
    have h7 : (2 : ℚ) ^ (exponent x + 52) = 2 ^ 52 * 2 ^ exponent x := by
      rw [add_comm, zpow_add₀ (by norm_num)]; norm_num
    have h1 : x / 2 ^ exponent x ≤ ((-2 ^ 52 : ℤ) : ℚ) := by
      rw [div_le_iff₀ hpx]; push_cast; linarith
    have h2 := nearestEven_le _ _ h1
    have h3 : (nearestEven (x / 2 ^ exponent x) : ℚ) ≤ ((-2 ^ 52 : ℤ) : ℚ) := by exact_mod_cast h2
    have h4 : rnd x ≤ -(2 ^ (exponent x + 52)) := by
      rw [hr, h7]
      have := mul_le_mul_of_nonneg_right h3 (le_of_lt hpx)
      push_cast at this
      linarith
    have := neg_abs_le d
    linarith

theorem exponent_neg (x : ℚ) : exponent (-x) = exponent x := by
  unfold exponent; rw [abs_neg]

theorem isDouble_neg {x : ℚ} (h : IsDouble x) : IsDouble (-x) := by
  obtain ⟨m, e, hm, hx⟩ := h
  exact ⟨-m, e, by rw [abs_neg]; exact hm, by rw [hx]; push_cast; ring⟩

theorem nearestEven_neg (y : ℚ) : nearestEven (-y) = -nearestEven y := by
  by_cases hi : y = ⌊y⌋
  · have h1 : nearestEven y = ⌊y⌋ := by rw [hi]; simp [nearestEven_int]
    have h2 : nearestEven (-y) = -⌊y⌋ := by
      have : -y = ((-⌊y⌋ : ℤ) : ℚ) := by push_cast; rw [← hi]
      rw [this, nearestEven_int]
    rw [h1, h2]
  · have hlt : (⌊y⌋ : ℚ) < y := lt_of_le_of_ne (Int.floor_le y) (Ne.symm hi)
    have h1 := Int.lt_floor_add_one y
    have hf : ⌊-y⌋ = -⌊y⌋ - 1 := by
      rw [Int.floor_eq_iff]; push_cast
      constructor <;> linarith
    unfold nearestEven
    rw [hf]
    push_cast
    by_cases ha : y - ⌊y⌋ < 1 / 2
    · have hb : ¬ (-y - (-(⌊y⌋ : ℚ) - 1) < 1 / 2) := by linarith
      have hc : 1 / 2 < -y - (-(⌊y⌋ : ℚ) - 1) := by linarith
      rw [if_pos ha, if_neg hb, if_pos hc]; omega
    · by_cases hb : 1 / 2 < y - ⌊y⌋
      · have hc : -y - (-(⌊y⌋ : ℚ) - 1) < 1 / 2 := by linarith
        rw [if_neg ha, if_pos hb, if_pos hc]; omega
      · have hc : ¬ (-y - (-(⌊y⌋ : ℚ) - 1) < 1 / 2) := by linarith
        have hd : ¬ (1 / 2 < -y - (-(⌊y⌋ : ℚ) - 1)) := by linarith
        rw [if_neg ha, if_neg hb, if_neg hc, if_neg hd]
        split <;> split <;> omega

theorem rnd_neg (x : ℚ) : rnd (-x) = -rnd x := by
  unfold rnd
  rw [exponent_neg, neg_div, nearestEven_neg]
  push_cast; ring

theorem le_rnd {x d : ℚ} (hd : IsDouble d) (h : d ≤ x) : d ≤ rnd x := by
  have := rnd_le (isDouble_neg hd) (neg_le_neg h)
  rw [rnd_neg] at this
  linarith

/-- Rounding a number of at most `2 ^ k`. -/
theorem rnd_err_pow {x : ℚ} {k : ℤ} (h : |x| ≤ 2 ^ k) : |rnd x - x| ≤ 2 ^ (k - 54) := by
  by_cases h0 : x = 0
  · rw [h0, rnd_zero]; simpa using le_of_lt (two_zpow_pos (k - 54))
  by_cases hk : |x| = 2 ^ k
  · have hd : IsDouble x := by
      rcases abs_choice x with hs | hs
      · exact ⟨1, k, by norm_num, by rw [hs] at hk; rw [hk]; simp⟩
      · refine ⟨-1, k, by norm_num, ?_⟩
        rw [hs] at hk; push_cast; linarith
    rw [rnd_exact hd]; simpa using le_of_lt (two_zpow_pos (k - 54))
  · have hlt : |x| < 2 ^ k := lt_of_le_of_ne h hk
    refine le_trans (rnd_err x) ?_
    have he := exponent_le h0 hlt
    have h1 : (2 : ℚ) ^ exponent x ≤ 2 ^ (k - 53) := zpow_le_zpow_right₀ (by norm_num) he
    have h2 : (2 : ℚ) ^ (k - 53) = 2 ^ (k - 54) * 2 := by
      have : k - 53 = (k - 54) + 1 := by omega
      rw [this, zpow_add₀ (by norm_num)]; norm_num
    linarith

/-- Integers of 53 bits are doubles. -/
theorem isDouble_int {m : ℤ} (h : |m| ≤ 2 ^ 53) : IsDouble (m : ℚ) := ⟨m, 0, h, by simp⟩

theorem rnd_int {m : ℤ} (h : |m| ≤ 2 ^ 53) : rnd (m : ℚ) = m := rnd_exact (isDouble_int h)

theorem rnd_nonneg {x : ℚ} (h : 0 ≤ x) : 0 ≤ rnd x :=
  le_rnd ⟨0, 0, by norm_num, by simp⟩ h

/-- A double that is close enough to a number of its size is the nearest. -/
theorem rnd_unique {x : ℚ} (e m : ℤ) (hx : x ≠ 0) (hlo : 2 ^ (e + 52) ≤ |x|) (hhi : |x| < 2 ^ (e + 53))
    (h : |(m : ℚ) * 2 ^ e - x| < 2 ^ e / 2) : rnd x = m * 2 ^ e := by
  have h1 := exponent_le hx hhi
  have h2 : e ≤ exponent x := by
    have h3 := lt_of_le_of_lt hlo (lt_pow_exponent x)
    have := (zpow_lt_zpow_iff_right₀ (by norm_num : (1 : ℚ) < 2)).mp h3
    omega
  have he : exponent x = e := by omega
  have hp := two_zpow_pos e
  unfold rnd
  rw [he]
  have : nearestEven (x / 2 ^ e) = m := by
    apply nearestEven_unique
    have h4 : (m : ℚ) - x / 2 ^ e = (m * 2 ^ e - x) / 2 ^ e := by field_simp
    rw [h4, abs_div, abs_of_pos hp, div_lt_iff₀ hp]
    linarith
  rw [this]

/-- The whole part of a double that is not negative is a double, and so is the rest. -/
theorem parts {v : ℚ} (hv : IsDouble v) (h0 : 0 ≤ v) : IsDouble (⌊v⌋ : ℚ) ∧ IsDouble (v - ⌊v⌋) := by
  obtain ⟨m, e, hm, hx⟩ := hv
  by_cases he : 0 ≤ e
  · obtain ⟨j, hj⟩ : ∃ j : ℕ, e = j := ⟨e.toNat, by omega⟩
    have hi : v = ((m * 2 ^ j : ℤ) : ℚ) := by rw [hx, hj, zpow_natCast]; push_cast; ring
    have hfl : (⌊v⌋ : ℚ) = v := by rw [hi, Int.floor_intCast]
    rw [hfl]
    exact ⟨⟨m, e, hm, hx⟩, ⟨0, 0, by norm_num, by simp⟩⟩
  · obtain ⟨j, hj⟩ : ∃ j : ℕ, e = -(j : ℤ) := ⟨(-e).toNat, by omega⟩
    have hp : (0 : ℚ) < 2 ^ j := by positivity
    have hv' : v * 2 ^ j = m := by
      rw [hx, hj, zpow_neg, zpow_natCast]; field_simp
    have hm0 : 0 ≤ m := by
      have : (0 : ℚ) ≤ m := by rw [← hv']; positivity
      exact_mod_cast this
    have hm1 : m ≤ 2 ^ 53 := by rw [abs_of_nonneg hm0] at hm; exact hm
    have hfl0 : 0 ≤ ⌊v⌋ := Int.floor_nonneg.mpr h0
    have hpj : (1 : ℚ) ≤ 2 ^ j := one_le_pow₀ (by norm_num)
    constructor
    · apply isDouble_int
      rw [abs_of_nonneg hfl0]
      have h1 : (⌊v⌋ : ℚ) ≤ m := by
        refine le_trans (Int.floor_le v) ?_
        rw [← hv']; nlinarith
      have : ⌊v⌋ ≤ m := by exact_mod_cast h1
      omega
    · refine ⟨m - ⌊v⌋ * 2 ^ j, e, ?_, ?_⟩
      · have h1 : (0 : ℚ) ≤ ((m - ⌊v⌋ * 2 ^ j : ℤ) : ℚ) := by
          push_cast; rw [← hv']
          have := Int.floor_le v
          nlinarith
        have h1' : 0 ≤ m - ⌊v⌋ * 2 ^ j := by exact_mod_cast h1
        rw [abs_of_nonneg h1']
        have : 0 ≤ ⌊v⌋ * 2 ^ j := by positivity
        omega
      · rw [hx, hj, zpow_neg, zpow_natCast]; push_cast; field_simp

/-- A double below one is below one by at least the last bit. -/
theorem below_one {f : ℚ} (hf : IsDouble f) (h1 : f < 1) : f ≤ 1 - 2 ^ (-53 : ℤ) := by
  by_cases h2 : f < 1 / 2
  · have : (2 : ℚ) ^ (-53 : ℤ) ≤ 1 / 2 := by
      rw [show (2 : ℚ) ^ (-53 : ℤ) = 1 / 9007199254740992 by norm_num]; norm_num
    have h3 : f ≤ 1 / 2 := le_of_lt h2
    have h4 : (1 : ℚ) / 2 ≤ 1 - 2 ^ (-53 : ℤ) := by
      have : (1 : ℚ) - 1 / 2 = 1 / 2 := by norm_num
      rw [← this]
      exact sub_le_sub_left ‹_› 1
    exact le_trans h3 h4
  have h2' : 1 / 2 ≤ f := not_lt.mp h2
  have hne : f ≠ 0 := by intro h; rw [h] at h2'; norm_num at h2'
  have habs : |f| = f := abs_of_nonneg (by linarith)
  obtain ⟨m, hm⟩ := canonical hf
  have he : exponent f = -53 := by
    have h3 := exponent_le (k := 0) hne (by rw [habs]; simpa using h1)
    have h4 := lt_pow_exponent f
    have h5 : (2 : ℚ) ^ (-1 : ℤ) < 2 ^ (exponent f + 53) := by
      refine lt_of_le_of_lt ?_ h4
      rw [habs]; norm_num; linarith
    have := (zpow_lt_zpow_iff_right₀ (by norm_num : (1 : ℚ) < 2)).mp h5
    omega
  rw [he] at hm
  have hm1 : (m : ℚ) < 2 ^ 53 := by
    have : (m : ℚ) = f * 2 ^ 53 := by rw [hm]; rw [show (2 : ℚ) ^ (-53 : ℤ) = 1 / 9007199254740992 by norm_num]; ring
    rw [this]; nlinarith
  have hm2 : m < 2 ^ 53 := by exact_mod_cast hm1
  have hm3 : (m : ℚ) ≤ 2 ^ 53 - 1 := by
    have : m ≤ 2 ^ 53 - 1 := by omega
    exact_mod_cast this
  rw [hm]
  have : (2 : ℚ) ^ (-53 : ℤ) = 1 / 2 ^ 53 := by norm_num
  rw [this]
  have hp : (0 : ℚ) < 2 ^ 53 := by norm_num
  have h6 : 1 - 1 / (2 : ℚ) ^ 53 = (2 ^ 53 - 1) * (1 / 2 ^ 53) := by norm_num
  rw [h6]
  exact mul_le_mul_of_nonneg_right hm3 (by positivity)

end Verif.Wire.Double
