import Verif.Jni.Dispatch
import Verif.Jni.DispatchSpec
import Verif.Props.JniLookup
/-
C80, the Kotlin functions that Rust calls for methods implemented in Kotlin: their names, the pointer, and how they end after an
error.
-/
namespace Verif.Props.JniDispatch
open Verif.Jni Verif.Jni.Calls Verif.JniCallback

theorem default_value (f : Ffi) : IsValue (some (Lookup.ffiKt f)) (defaultKt f) := by
  cases f <;> first | rfl | exact ⟨by decide +kernel, rfl⟩

theorem default_unit (f : Ffi) : defaultKt f ≠ "Unit" := by cases f <;> decide +kernel

theorem single_iff (m : Meth) (f : Ffi) : m.returnFfi = .primitive f ↔ m.ret = some [f] := by
  obtain ⟨a, b, r, t⟩ := m
  match r with
  | none => simp [Meth.returnFfi]
  | some [] => simp [Meth.returnFfi]
  | some [g] => simp [Meth.returnFfi]
  | some (g :: h :: l) => simp [Meth.returnFfi]

/-- C80. After an error was passed on, the function ends with a value of its declared type, exactly if the method is not async
or its result is not one FFI value. Missing: those methods (`C80_after_error_broken`). -/
theorem C80_after_error_partial (m : Meth) (v : String) (h : m.afterError = some v) :
    IsValue m.resultText v ↔ ¬ (m.isAsync = true ∧ ∃ f, m.ret = some [f]) := by
  have hi : (∃ f, m.ret = some [f]) ↔ ∃ f, m.returnFfi = .primitive f := by simp only [single_iff]
  rw [hi]
  unfold Meth.afterError at h
  unfold Meth.resultText
  cases ht : m.throws with
  | none => rw [ht] at h; cases h
  | some e =>
    rw [ht] at h
    cases hq : m.returnFfi with
    | primitive f =>
      rw [hq] at h
      cases h
      cases m.isAsync with
      | true =>
        constructor
        · exact fun hv => absurd hv (default_unit f)
        · exact fun hv => absurd ⟨rfl, f, rfl⟩ hv
      | false => exact ⟨fun _ hv => by simp at hv, fun _ => default_value f⟩
    | deconstruct fs =>
      rw [hq] at h
      cases h
      exact ⟨fun _ hv => by simp at hv, fun _ => by cases m.isAsync <;> rfl⟩
    | void =>
      rw [hq] at h
      cases h
      exact ⟨fun _ hv => by simp at hv, fun _ => by cases m.isAsync <;> rfl⟩

/-- C80. The function has a parameter for the pointer exactly if it uses it. -/
theorem C80_pointer (m : Meth) : m.hasReturnPointer = m.usesPointer := by
  obtain ⟨a, b, r, t⟩ := m
  cases a with
  | true => rfl
  | false =>
    match r with
    | none => cases t <;> rfl
    | some [] => cases t <;> rfl
    | some [g] => cases t <;> rfl
    | some (g :: h :: l) => cases t <;> simp [Meth.hasReturnPointer, Meth.usesPointer, Meth.returnFfi]

/-- C80. Methods have functions of their own, as long as an interface has at most a million of them. -/
theorem C80_names (r : Root) (t u : Ty) (i j : Nat) (ht : t ∈ r.types) (hi : i < 1000000) (hj : j < 1000000)
    (h : dispatchName r t i = dispatchName r u j) : t = u ∧ i = j := by
  have h1 := toString_inj (JniLookup.append_cancel h)
  have h2 : r.id t = r.id u := by omega
  exact ⟨id_inj ht h2, by omega⟩

/-! ### Cases -/

/-- Takes a record and returns a string or throws. -/
def find : Meth := ⟨false, [.standard [.int32, .string]], some [.string], some [.int32, .string]⟩

example : find.afterError = some "null" ∧ find.resultText = some "String?" ∧ find.usesPointer = true := by decide +kernel
example : ¬ (find.isAsync = true ∧ ∃ f, find.ret = some [f]) := by simp [find]
example : dispatchName JniLookup.shop (.int .i32) 3 = "callbackInterfaceDispatch1000003" := by decide +kernel

/-- C80. The function of an async method that returns an `i32` or throws tries to return `0` where no result is allowed. -/
theorem C80_after_error_broken : ∃ m : Meth, m.isAsync = true ∧ m.afterError = some "0" ∧ m.resultText = none ∧
    ¬ IsValue m.resultText "0" :=
  ⟨⟨true, [], some [.int32], some [.int32, .string]⟩, rfl, rfl, rfl, (by decide +kernel : "0" ≠ "Unit")⟩

end Verif.Props.JniDispatch
