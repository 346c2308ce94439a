import Verif.Gen.Version
import Verif.Checksum.Lemmas
/- C49: the version check accepts exactly the same version. -/
namespace Verif.Props.Version
open Verif Verif.Gen

theorem byteCheck_eq {a b : Bytes} (h : a.length = b.length) (i : Nat) :
    byteCheck a b i = some (decide (a[i]? = b[i]?)) := by
  unfold byteCheck byteEq
  split
  · rename_i hi
    rw [List.getElem?_eq_none hi, List.getElem?_eq_none (by omega)]; rfl
  · rename_i hi
    have ha : i < a.length := by omega
    have hb : i < b.length := by omega
    rw [List.getElem?_eq_getElem ha, List.getElem?_eq_getElem hb]
    simp only [Option.some.injEq]
    rw [Bool.eq_iff_iff]; simp

theorem andAlso_some (p q : Bool) : andAlso (some p) (some q) = some (p && q) := by
  cases p <;> rfl

/-- The check never indexes out of bounds. It accepts a version of the bindings generator exactly
when it is the version of the runtime crate, byte for byte, and that has less than ten bytes. -/
theorem C49_exact (package bindgen : String) :
    checkCompatibleVersion (Wire.utf8 package) (Wire.utf8 bindgen) =
      some (decide (package = bindgen ∧ (Wire.utf8 package).length < 10)) := by
  generalize ha : Wire.utf8 package = a
  generalize hb : Wire.utf8 bindgen = b
  have hs : package = bindgen ↔ a = b := by
    subst ha; subst hb
    exact ⟨fun h => by rw [h], fun h => Checksum.utf8_inj h⟩
  simp only [hs]
  unfold checkCompatibleVersion
  by_cases hl : a.length = b.length
  · simp only [byteCheck_eq hl, andAlso_some, hl, beq_self_eq_true, Bool.true_and]
    congr 1
    rw [Bool.eq_iff_iff]
    simp only [Bool.and_eq_true, decide_eq_true_eq]
    constructor
    · rintro ⟨h0, h1, h2, h3, h4, h5, h6, h7, h8, h9, hlt⟩
      refine ⟨List.ext_getElem? fun i => ?_, hlt⟩
      by_cases hi : i < 10
      · match i, hi with
        | 0, _ => exact h0
        | 1, _ => exact h1
        | 2, _ => exact h2
        | 3, _ => exact h3
        | 4, _ => exact h4
        | 5, _ => exact h5
        | 6, _ => exact h6
        | 7, _ => exact h7
        | 8, _ => exact h8
        | 9, _ => exact h9
      · rw [List.getElem?_eq_none (by omega), List.getElem?_eq_none (by omega)]
    · rintro ⟨rfl, hlt⟩
      exact ⟨rfl, rfl, rfl, rfl, rfl, rfl, rfl, rfl, rfl, rfl, hlt⟩
  · have hf : (a.length == b.length) = false := by simpa using hl
    have hd : decide (a = b ∧ b.length < 10) = false := by
      rw [decide_eq_false_iff_not]; rintro ⟨h, _⟩; exact hl (by rw [h])
    have hd' : decide (a = b ∧ a.length < 10) = false := by
      rw [decide_eq_false_iff_not]; rintro ⟨h, _⟩; exact hl (by rw [h])
    rw [hf, hd']
    rfl

/-- The version of the runtime crate is asserted to have less than ten bytes, so the check is
equality. -/
theorem C49_equality (package bindgen : String) (h : (Wire.utf8 package).length < 10) :
    checkCompatibleVersion (Wire.utf8 package) (Wire.utf8 bindgen) = some true ↔
      package = bindgen := by
  rw [C49_exact]; simp [h]

example : (Wire.utf8 "0.31.0").length < 10 ∧
    checkCompatibleVersion (Wire.utf8 "0.31.0") (Wire.utf8 "0.31.1") = some false ∧
    checkCompatibleVersion (Wire.utf8 "0.31.0") (Wire.utf8 "0.31.0") = some true := by
  decide +kernel

end Verif.Props.Version
