/-
Byte strings and fixed-width integer encodings.

Models the parts of the `bytes` crate (`BufMut::put_*`, `Buf::get_*`) and of
`{u16,u32}::to_le_bytes` that the uniffi sources call.
-/
namespace Verif

/-- A byte string. `Vec<u8>` and `&[u8]` in the sources. -/
abbrev Bytes := List UInt8

/-- `BufMut::put_uN` (big endian): the `n` low bytes of `v`, most significant first.
Called from uniffi_core/src/ffi_converter_impls.rs:56-58. -/
def beBytes : Nat → Nat → Bytes
  | 0, _ => []
  | n + 1, v => beBytes n (v / 256) ++ [UInt8.ofNat (v % 256)]

/-- `Buf::get_uN` (big endian): the number spelled by a byte string, most significant first.
Called from uniffi_core/src/ffi_converter_impls.rs:60-63. -/
def beNat (bs : Bytes) : Nat := bs.foldl (fun acc b => acc * 256 + b.toNat) 0

/-- Little-endian encoding of the `n` low bytes of `v`: `to_le_bytes`. -/
def leBytes : Nat → Nat → Bytes
  | 0, _ => []
  | n + 1, v => UInt8.ofNat (v % 256) :: leBytes n (v / 256)

/-- Little-endian decoding: `from_le_bytes`. -/
def leNat : Bytes → Nat
  | [] => 0
  | b :: bs => b.toNat + 256 * leNat bs

/-- Two's complement: the unsigned number with the same `n` bytes as `z`. -/
def toUnsigned (n : Nat) (z : Int) : Nat := (z % (256 ^ n : Nat)).toNat

/-- Two's complement: the signed number with the same `n` bytes as `v`. -/
def toSigned (n : Nat) (v : Nat) : Int :=
  if 2 * v < 256 ^ n then (v : Int) else (v : Int) - (256 ^ n : Nat)

/-! ### Lemmas -/

@[simp] theorem length_beBytes (n v : Nat) : (beBytes n v).length = n := by
  induction n generalizing v with
  | zero => rfl
  | succ n ih => simp [beBytes, ih]

theorem beNat_append_singleton (bs : Bytes) (b : UInt8) :
    beNat (bs ++ [b]) = beNat bs * 256 + b.toNat := by
  simp [beNat, List.foldl_append]

@[simp] theorem beNat_nil : beNat [] = 0 := rfl

theorem beNat_beBytes (n v : Nat) : beNat (beBytes n v) = v % 256 ^ n := by
  induction n generalizing v with
  | zero => simp [beBytes, Nat.mod_one]
  | succ n ih =>
    simp only [beBytes, beNat_append_singleton, ih]
    have h : (UInt8.ofNat (v % 256)).toNat = v % 256 := by
      simp [UInt8.toNat_ofNat']
    rw [h, Nat.pow_succ, Nat.mul_comm (256 ^ n) 256, Nat.mod_mul]
    omega

theorem beNat_beBytes_of_lt {n v : Nat} (h : v < 256 ^ n) : beNat (beBytes n v) = v := by
  rw [beNat_beBytes, Nat.mod_eq_of_lt h]

theorem beNat_lt (bs : Bytes) : beNat bs < 256 ^ bs.length := by
  suffices h : ∀ acc, bs.foldl (fun acc (b : UInt8) => acc * 256 + b.toNat) acc
      < (acc + 1) * 256 ^ bs.length by
    simpa [beNat] using h 0
  induction bs with
  | nil => intro acc; simp
  | cons b bs ih =>
    intro acc
    simp only [List.foldl_cons, List.length_cons]
    refine Nat.lt_of_lt_of_le (ih _) ?_
    have hb := b.toNat_lt
    have h1 : acc * 256 + b.toNat + 1 ≤ (acc + 1) * 256 := by
      have : (2:Nat)^8 = 256 := by decide
      omega
    calc (acc * 256 + b.toNat + 1) * 256 ^ bs.length
        ≤ ((acc + 1) * 256) * 256 ^ bs.length := Nat.mul_le_mul_right _ h1
      _ = (acc + 1) * 256 ^ (bs.length + 1) := by rw [Nat.pow_succ]; ac_rfl

theorem exists_snoc {α} (l : List α) (n : Nat) (h : l.length = n + 1) :
    ∃ l' x, l = l' ++ [x] ∧ l'.length = n := by
  have hne : l ≠ [] := by intro e; simp [e] at h
  refine ⟨l.dropLast, l.getLast hne, (List.dropLast_concat_getLast hne).symm, ?_⟩
  simp [h]

theorem beBytes_beNat (n : Nat) (bs : Bytes) (h : bs.length = n) : beBytes n (beNat bs) = bs := by
  induction n generalizing bs with
  | zero => simp [List.length_eq_zero_iff.mp h, beBytes]
  | succ n ih =>
    obtain ⟨l, x, rfl, hl⟩ := exists_snoc bs n h
    have hx := x.toNat_lt
    simp only [beBytes, beNat_append_singleton]
    have h1 : (beNat l * 256 + x.toNat) / 256 = beNat l := by omega
    have h2 : (beNat l * 256 + x.toNat) % 256 = x.toNat := by omega
    rw [h1, h2, ih l hl]
    simp

@[simp] theorem length_leBytes (n v : Nat) : (leBytes n v).length = n := by
  induction n generalizing v with
  | zero => rfl
  | succ n ih => simp [leBytes, ih]

theorem leNat_leBytes (n v : Nat) : leNat (leBytes n v) = v % 256 ^ n := by
  induction n generalizing v with
  | zero => simp [leBytes, leNat, Nat.mod_one]
  | succ n ih =>
    simp only [leBytes, leNat, ih]
    have h : (UInt8.ofNat (v % 256)).toNat = v % 256 := by simp [UInt8.toNat_ofNat']
    rw [h, Nat.pow_succ, Nat.mul_comm (256 ^ n) 256, Nat.mod_mul]

theorem leNat_leBytes_of_lt {n v : Nat} (h : v < 256 ^ n) : leNat (leBytes n v) = v := by
  rw [leNat_leBytes, Nat.mod_eq_of_lt h]

theorem leNat_lt (bs : Bytes) : leNat bs < 256 ^ bs.length := by
  induction bs with
  | nil => simp [leNat]
  | cons b bs ih =>
    have hb := b.toNat_lt
    simp only [leNat, List.length_cons, Nat.pow_succ]
    have : (2:Nat)^8 = 256 := by decide
    omega

theorem leBytes_leNat (n : Nat) (bs : Bytes) (h : bs.length = n) : leBytes n (leNat bs) = bs := by
  induction n generalizing bs with
  | zero => simp [List.length_eq_zero_iff.mp h, leBytes]
  | succ n ih =>
    cases bs with
    | nil => simp at h
    | cons b bs =>
      have hb := b.toNat_lt
      simp only [leBytes, leNat]
      have h1 : (b.toNat + 256 * leNat bs) / 256 = leNat bs := by
        have : (2:Nat)^8 = 256 := by decide
        omega
      have h2 : (b.toNat + 256 * leNat bs) % 256 = b.toNat := by
        have : (2:Nat)^8 = 256 := by decide
        omega
      rw [h1, h2, ih bs (by simpa using h)]
      simp

theorem toUnsigned_lt (n : Nat) (z : Int) : toUnsigned n z < 256 ^ n := by
  have hp : 0 < 256 ^ n := Nat.pow_pos (by decide)
  unfold toUnsigned
  have h1 := Int.emod_nonneg z (b := ((256 ^ n : Nat) : Int)) (by omega)
  have h2 := Int.emod_lt_of_pos z (b := ((256 ^ n : Nat) : Int)) (by omega)
  omega

/-- Range of an `n`-byte signed integer. -/
def SignedRange (n : Nat) (z : Int) : Prop :=
  -((256 ^ n : Nat) : Int) ≤ 2 * z ∧ 2 * z < ((256 ^ n : Nat) : Int)

theorem toSigned_toUnsigned {n : Nat} {z : Int} (h : SignedRange n z) :
    toSigned n (toUnsigned n z) = z := by
  obtain ⟨h1, h2⟩ := h
  have hp : 0 < 256 ^ n := Nat.pow_pos (by decide)
  generalize hm : 256 ^ n = m at *
  unfold toSigned toUnsigned
  rw [hm]
  by_cases hz : 0 ≤ z
  · have : z % (m : Int) = z := Int.emod_eq_of_lt hz (by omega)
    rw [this]
    rw [if_pos (by omega)]; omega
  · have : z % (m : Int) = z + m := by
      rw [← Int.add_emod_right]
      exact Int.emod_eq_of_lt (by omega) (by omega)
    rw [this, if_neg (by omega)]; omega

theorem toSigned_range (n v : Nat) (h : v < 256 ^ n) : SignedRange n (toSigned n v) := by
  generalize hm : 256 ^ n = m at *
  unfold toSigned SignedRange
  rw [hm]
  split <;> constructor <;> omega

theorem toUnsigned_toSigned {n v : Nat} (h : v < 256 ^ n) : toUnsigned n (toSigned n v) = v := by
  generalize hm : 256 ^ n = m at *
  unfold toSigned toUnsigned
  rw [hm]
  split
  · have : (v : Int) % (m : Int) = v := Int.emod_eq_of_lt (by omega) (by omega)
    rw [this]; omega
  · have : ((v : Int) - m) % (m : Int) = v := by
      rw [← Int.add_emod_right]
      have : (v : Int) - m + m = v := by omega
      rw [this]
      exact Int.emod_eq_of_lt (by omega) (by omega)
    rw [this]; omega

theorem toUnsigned_natCast {n v : Nat} (h : v < 256 ^ n) : toUnsigned n (v : Int) = v := by
  unfold toUnsigned
  have : (v : Int) % ((256 ^ n : Nat) : Int) = v := Int.emod_eq_of_lt (by omega) (by omega)
  rw [this]; omega

end Verif
