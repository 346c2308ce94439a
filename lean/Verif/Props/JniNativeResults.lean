import Verif.Jni.NativeResultsSpec
import Verif.Jni.NativesLemmas
/-
C92, the results. What native functions return in Rust is what Kotlin expects.
-/
namespace Verif.Props.JniNativeResults
open Verif.Jni Verif.Jni.Calls Verif.Jni.Natives

theorem long_descriptor {s : List Char} (h : 2 ≤ s.length) : passedDescriptor s = .reference := by
  unfold passedDescriptor
  split <;> simp_all

theorem class_long (N : Lookup.Names) (n : Name) (t : Ty) : 2 ≤ (Lookup.classOf N n t).length := by
  unfold Lookup.classOf
  simp only [List.length_cons, List.length_append]
  omega

/-- What can be `null` is a reference. -/
theorem nullable_reference (N : Lookup.Names) (t : Ty) : passedDescriptor (Lookup.descriptor N true t) = .reference := by
  induction t with
  | int i =>
    cases i
    · exact long_descriptor (by decide +kernel : 2 ≤ "Lkotlin/UByte;".toList.length)
    · exact long_descriptor (by decide +kernel : 2 ≤ "Ljava/lang/Byte;".toList.length)
    · exact long_descriptor (by decide +kernel : 2 ≤ "Lkotlin/UShort;".toList.length)
    · exact long_descriptor (by decide +kernel : 2 ≤ "Ljava/lang/Short;".toList.length)
    · exact long_descriptor (by decide +kernel : 2 ≤ "Lkotlin/UInt;".toList.length)
    · exact long_descriptor (by decide +kernel : 2 ≤ "Ljava/lang/Integer;".toList.length)
    · exact long_descriptor (by decide +kernel : 2 ≤ "Lkotlin/ULong;".toList.length)
    · exact long_descriptor (by decide +kernel : 2 ≤ "Ljava/lang/Long;".toList.length)
  | f32 => exact long_descriptor (by decide +kernel : 2 ≤ "Ljava/lang/Float;".toList.length)
  | f64 => exact long_descriptor (by decide +kernel : 2 ≤ "Ljava/lang/Double;".toList.length)
  | bool => exact long_descriptor (by decide +kernel : 2 ≤ "Ljava/lang/Boolean;".toList.length)
  | string => exact long_descriptor (by decide +kernel : 2 ≤ "Ljava/lang/String;".toList.length)
  | bytes => exact long_descriptor (by decide +kernel : 2 ≤ "[B".toList.length)
  | seq _ => exact long_descriptor (by decide +kernel : 2 ≤ "Ljava/util/List;".toList.length)
  | map _ _ => exact long_descriptor (by decide +kernel : 2 ≤ "Ljava/util/Map;".toList.length)
  | set _ => exact long_descriptor (by decide +kernel : 2 ≤ "Ljava/util/Set;".toList.length)
  | duration => exact long_descriptor (by decide +kernel : 2 ≤ "Ljava/time/Duration;".toList.length)
  | timestamp => exact long_descriptor (by decide +kernel : 2 ≤ "Ljava/time/Instant;".toList.length)
  | option t ih | box t ih => exact ih
  | custom n b ih => exact ih
  | record n | enum n | iface n | callback n => exact long_descriptor (class_long N n _)

/-- What is not a number is a reference, and the other way round. -/
theorem reference_iff (N : Lookup.Names) (t : Ty) :
    passedDescriptor (Lookup.descriptor N false t) = .reference ↔ ¬ Number t := by
  have no : ∀ {c : Char}, passedDescriptor [c] ≠ .reference → (passedDescriptor [c] = .reference ↔ ¬ True) :=
    fun h => ⟨fun e => absurd e h, fun e => absurd trivial e⟩
  induction t with
  | int i =>
    cases i
    · exact no (c := 'B') (by decide)
    · exact no (c := 'B') (by decide)
    · exact no (c := 'S') (by decide)
    · exact no (c := 'S') (by decide)
    · exact no (c := 'I') (by decide)
    · exact no (c := 'I') (by decide)
    · exact no (c := 'J') (by decide)
    · exact no (c := 'J') (by decide)
  | f32 => exact no (c := 'F') (by decide)
  | f64 => exact no (c := 'D') (by decide)
  | bool => exact no (c := 'Z') (by decide)
  | string => exact ⟨fun _ h => h, fun _ => long_descriptor (by decide +kernel : 2 ≤ "Ljava/lang/String;".toList.length)⟩
  | bytes => exact ⟨fun _ h => h, fun _ => long_descriptor (by decide +kernel : 2 ≤ "[B".toList.length)⟩
  | seq _ => exact ⟨fun _ h => h, fun _ => long_descriptor (by decide +kernel : 2 ≤ "Ljava/util/List;".toList.length)⟩
  | map _ _ => exact ⟨fun _ h => h, fun _ => long_descriptor (by decide +kernel : 2 ≤ "Ljava/util/Map;".toList.length)⟩
  | set _ => exact ⟨fun _ h => h, fun _ => long_descriptor (by decide +kernel : 2 ≤ "Ljava/util/Set;".toList.length)⟩
  | duration => exact ⟨fun _ h => h, fun _ => long_descriptor (by decide +kernel : 2 ≤ "Ljava/time/Duration;".toList.length)⟩
  | timestamp => exact ⟨fun _ h => h, fun _ => long_descriptor (by decide +kernel : 2 ≤ "Ljava/time/Instant;".toList.length)⟩
  | option t => exact ⟨fun _ h => h, fun _ => nullable_reference N t⟩
  | box t ih => exact ih
  | custom n b ih => exact ih
  | record n | enum n | iface n | callback n => exact ⟨fun _ h => h, fun _ => long_descriptor (class_long N n _)⟩

/-- A number is passed as one FFI value. -/
theorem number_one {r : Root} (hc : CustomsPassed r) {t : Ty} (h : Number t) : ∃ f, r.ffi.get t = some [f] := by
  induction t with
  | int i => cases i <;> exact ⟨_, rfl⟩
  | f32 | f64 | bool | box t => exact ⟨_, rfl⟩
  | custom n b ih => rw [hc]; exact ih h
  | _ => exact h.elim

theorem ffi_agree (N : Lookup.Names) (f : Ffi) : Agree N (.text (Lookup.ffiKt f)) (some (ffiRs f)) := by
  have h : (ofKotlin (Lookup.ffiKt f)).map passedC = (ofRust (ffiRs f)).map passedC ∧
      (ofKotlin (Lookup.ffiKt f)).map passedC ≠ none := by cases f <;> decide +kernel
  exact h

/-- C92. A function, method or constructor returns what Kotlin expects, for every type of result. -/
theorem C92_result (r : Root) (hc : CustomsPassed r) (N : Lookup.Names) (async : Bool) (ret : Option Ty) :
    Agree N (fnResultKt r async ret) (fnResultRs r async ret) := by
  cases async with
  | true =>
    exact (by decide +kernel : (ofKotlin "kotlin.Long").map passedC = (ofRust "i64").map passedC ∧
      (ofKotlin "kotlin.Long").map passedC ≠ none)
  | false =>
    cases ret with
    | none => exact ⟨rfl, by simp [fnResultKt, returnFfi, expected]⟩
    | some t =>
      have key : (∃ f, returnFfi r (some t) = .primitive f) ∨ returnFfi r (some t) = .deconstruct t ∧ ¬ Number t := by
        by_cases h : ∃ f, r.ffi.get t = some [f]
        · obtain ⟨f, hf⟩ := h
          exact .inl ⟨f, by simp only [returnFfi, hf]⟩
        · refine .inr ⟨?_, fun hn => h (number_one hc hn)⟩
          unfold returnFfi
          dsimp only
          split
          · next f hf => exact absurd ⟨f, hf⟩ h
          · rfl
      unfold fnResultKt fnResultRs
      rcases key with ⟨f, e⟩ | ⟨e, hn⟩
      · simp only [e, Bool.false_eq_true, if_false]
        exact ffi_agree N f
      · simp only [e, Bool.false_eq_true, if_false]
        have e1 : passed (some "uniffi_jni::jobject") = some .reference := by decide +kernel
        have e2 : expected N (.kotlin t) = some .reference := congrArg some ((reference_iff N t).2 hn)
        exact ⟨e2.trans e1.symm, by rw [e2]; simp⟩

/-- C92. The helper functions return what Kotlin expects, exactly but for the one that takes a number out of a box. Missing:
that one (`C92_into_inner_broken`). -/
theorem C92_helper_result_partial (N : Lookup.Names) (s : Stem) (t : Ty) :
    Agree N (s.resultKt t) s.resultRs ↔ ¬ (s = .intoInner ∧ Number t) := by
  have e1 : passed (some "uniffi_jni::jobject") = some .reference := by decide +kernel
  cases s with
  | intoInner =>
    constructor
    · rintro ⟨h, -⟩ ⟨-, hn⟩
      exact (reference_iff N t).1 (Option.some.inj (h.trans e1)) hn
    · intro h
      have e2 : expected N (.kotlin t) = some .reference := congrArg some ((reference_iff N t).2 fun hn => h ⟨rfl, hn⟩)
      exact ⟨e2.trans e1.symm, fun h => by rw [Stem.resultKt, e2] at h; cases h⟩
  | clone =>
    exact ⟨fun _ h => by simp at h,
      fun _ => (by decide +kernel : (ofKotlin "kotlin.Long").map passedC = (ofRust "i64").map passedC ∧
        (ofKotlin "kotlin.Long").map passedC ≠ none)⟩
  | fromValues =>
    exact ⟨fun _ h => by simp at h,
      fun _ => (by decide +kernel : (ofKotlin "kotlin.Long").map passedC = (ofRust "::std::primitive::i64").map passedC ∧
        (ofKotlin "kotlin.Long").map passedC ≠ none)⟩
  | poll =>
    exact ⟨fun _ h => by simp at h,
      fun _ => (by decide +kernel : (ofKotlin "Int").map passedC = (ofRust "i32").map passedC ∧
        (ofKotlin "Int").map passedC ≠ none)⟩
  | _ => exact ⟨fun _ h => by simp at h, fun _ => ⟨rfl, by simp [Stem.resultKt, expected]⟩⟩

/-- C92. So do the functions for buffers, which are those of `C92_found`. -/
theorem C92_buffer_result (N : Lookup.Names) : bufferResults.map Prod.fst = bufferNames ∧
    ∀ b ∈ bufferResults, Agree N b.2.1 b.2.2 := by
  refine ⟨rfl, ?_⟩
  have h : ∀ s s', (ofKotlin s).map passedC = (ofRust s').map passedC ∧ (ofKotlin s).map passedC ≠ none →
      Agree N (.text s) (some s') := fun _ _ h => h
  have hv : Agree N .unit none := ⟨rfl, by simp [expected]⟩
  simp only [bufferResults, List.mem_cons, List.not_mem_nil, or_false, forall_eq_or_imp, forall_eq]
  exact ⟨hv, h _ _ (by decide +kernel), hv, h _ _ (by decide +kernel), hv, h _ _ (by decide +kernel), hv⟩

/-! ### Cases -/

/-- A name. -/
def nm (s : String) : Name := ⟨"m", s⟩

/-- Names of packages and classes. -/
def names : Lookup.Names where
  pkg _ := "uniffi.m".toList
  cls t := match t with | .record n => n.name.toList | _ => "X".toList

/-- A record, and a custom type made from a number. -/
def shop : Root where
  types := [.record (nm "R"), .custom (nm "Id") (.int .i64)]
  packages := []
  rustFns := []
  kotlinFns := []
  foreign := fun _ => false
  ffi := fun t =>
    let rec go : Ty → Option (List Ffi)
      | .record _ => some [.int32, .string]
      | .custom _ b => match standard b with | some l => some l | none => go b
      | _ => none
    go t

example : CustomsPassed shop := by
  intro n b
  show shop.ffi.get (.custom n b) = shop.ffi.get b
  have hs : standard (.custom n b) = none := rfl
  cases h : standard b <;> simp [FfiMap.get, shop, shop.go, h, hs]

example : fnResultKt shop false (some (.record (nm "R"))) = .kotlin (.record (nm "R")) := rfl
example : fnResultKt shop false (some (.custom (nm "Id") (.int .i64))) = .text "Long" := rfl
example : expected names (.kotlin (.record (nm "R"))) = some .reference := by decide +kernel

/-- C92. Taking an `i32` out of a box returns an object, but Kotlin expects the number. -/
theorem C92_into_inner_broken (N : Lookup.Names) : expected N (Stem.resultKt (.int .i32) .intoInner) = some .int ∧
    passed (Stem.resultRs .intoInner) = some .reference :=
  ⟨rfl, by decide +kernel⟩

end Verif.Props.JniNativeResults
