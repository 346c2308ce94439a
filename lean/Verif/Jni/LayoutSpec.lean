/-
What it means that values have places of their own.
-/
namespace Verif.Jni

/-- A stretch of bytes for one value. -/
structure Slot where
  offset : Nat
  size : Nat
  align : Nat
  deriving DecidableEq, Repr

/-- The slots lie inside `size` bytes, none overlaps another (they come in order), and each is aligned
as its value needs whenever the whole is aligned to `align`. -/
structure WellPlaced (slots : List Slot) (size align : Nat) : Prop where
  inside : ∀ s ∈ slots, s.offset + s.size ≤ size
  apart : slots.Pairwise fun a b => a.offset + a.size ≤ b.offset
  aligned : ∀ s ∈ slots, s.align ∣ s.offset ∧ s.align ∣ align

end Verif.Jni
